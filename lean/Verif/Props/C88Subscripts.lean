import Verif.Proofs.SubscriptRanks

/-!
# C88: `...` and `None` in subscripts

For a TT-tensor `...` is the same as `:` at its position (it always stands for exactly one axis), and `None` raises. For batches both raise unless all TT-ranks are one; then they may
return an object that has nothing to do with the dense indexing.
-/

namespace T3f

variable {K : Type} [CommRing K]

/-- **C88.** `tt[s]` returns exactly if `s` is a tuple without `None` for which the subscript with `:` in place of every `...` returns, and the result is the same. -/
theorem C88_tensor_iff (t : TT K) (h : t.WF) (hb : t.batch = none) (s : Subscript) (T : TT K) :
    ttSubscript t s = Except.ok T ↔ ∃ spec, s = .tuple spec ∧ .newaxis ∉ spec ∧ ttGetItem t (spec.map SubItem.toIx) = Except.ok T := by
  constructor
  · intro e
    cases s with
    | single x => cases e
    | tuple spec =>
      have hn := ttSubscript_newaxis h hb e
      exact ⟨spec, rfl, hn, (ttSubscript_eq h hb hn).symm.trans e⟩
  · rintro ⟨spec, rfl, hn, e⟩
    rw [ttSubscript_eq h hb hn, e]

/-- **C88, value.** If `tt[s]` returns then the subscript has one item per axis, and the result is the dense tensor with the same subscript, where every `...` is one `:`. -/
theorem C88_tensor_value (t : TT K) (h : t.WF) (hb : t.batch = none) (hm : ¬ t.isMatrix) (s : Subscript) (T : TT K) (e : ttSubscript t s = Except.ok T)
    (F : Tensor K) (hF : full t = Except.ok F) :
    ∃ spec G D, s = .tuple spec ∧ spec.length = t.ndims ∧ .newaxis ∉ spec ∧ getItem F (spec.map SubItem.toIx) = Except.ok G ∧
      T.WF ∧ full T = Except.ok D ∧ D ≃ₜ G := by
  obtain ⟨spec, rfl, hn, e⟩ := (C88_tensor_iff t h hb s T).1 e
  obtain ⟨hl, hk, G, hG⟩ := (C20_getitem_iff t h hb hm _ F hF).1 ⟨T, e⟩
  obtain ⟨T', D, e', hw, -, -, hD, hDG⟩ := C20_getitem t h hb hm _ hl hk F G hF hG
  obtain rfl := Except.ok.inj (e.symm.trans e')
  exact ⟨spec, G, D, rfl, by simpa using hl, hn, hG, hw, hD, hDG⟩

/-- **C88.** Subscripts of a batch that has some TT-rank other than one: only one integer or slice, or a tuple of at least two of them, are accepted. In particular `...` and `None` raise
at every position (although `...` is accepted for TT-tensors), and so do tuples of length one. -/
theorem C88_batch_iff (t : TT K) (h : t.WF) {n : ℕ} (hb : t.batch = some n) (hr : ∃ r ∈ t.ttRanks, r ≠ 1) (s : Subscript) (T : TT K) :
    batchSubscript t s = Except.ok T ↔
      (∃ i, s = .single (.ix i) ∧ batchGetItem t i [] = Except.ok T) ∨
      ∃ b0 spec, spec ≠ [] ∧ s = .tuple ((b0 :: spec).map .ix) ∧ batchGetItem t b0 spec = Except.ok T := by
  have hr' : ∃ k ≤ t.ndims, t.rank k ≠ 1 := by
    obtain ⟨r, hr, h1⟩ := hr
    rw [h.ranks_eq, ranksOf, List.mem_map] at hr
    obtain ⟨k, hk, rfl⟩ := hr
    exact ⟨k, by have := List.mem_range.1 hk; omega, h1⟩
  obtain ⟨k, hk, hk1⟩ := hr'
  constructor
  · intro e
    cases s with
    | single x =>
      cases x with
      | ix i => exact Or.inl ⟨i, rfl, by rw [← batchSubscript_single, e]⟩
      | ellipsis => exact absurd (batchDim_ranks h hb (by simp) e k hk) hk1
      | newaxis => exact absurd (batchDim_ranks h hb (by simp) e k hk) hk1
    | tuple l =>
      match l, e with
      | [], e => cases e
      | [_], e => cases e
      | b0 :: x :: l, e =>
        simp only [batchSubscript] at e
        split_ifs at e with hl
        cases b0 with
        | ellipsis => exact absurd (batchFull_ranks h hb (by simp) e k hk) hk1
        | newaxis => exact absurd (batchFull_ranks h hb (by simp) e k hk) hk1
        | ix b0 =>
          have hit : ∀ y ∈ x :: l, ∃ i, y = SubItem.ix i := by
            intro y hy
            obtain ⟨j, hj, rfl⟩ := List.getElem_of_mem hy
            obtain ⟨i, hi, -⟩ := batchFull_items h hb e (k := j) (by omega)
            rw [List.getD_eq_getElem _ _ hj] at hi
            exact ⟨i, hi⟩
          have hmap : ∀ l : List SubItem, (∀ y ∈ l, ∃ i, y = SubItem.ix i) → ∃ l' : List Ix, l = l'.map SubItem.ix := by
            intro l hl
            induction l with
            | nil => exact ⟨[], rfl⟩
            | cons y l ih =>
              obtain ⟨i, rfl⟩ := hl y (by simp)
              obtain ⟨l', rfl⟩ := ih fun z hz => hl z (by simp [hz])
              exact ⟨i :: l', rfl⟩
          obtain ⟨spec, hs⟩ := hmap _ hit
          have hne : spec ≠ [] := by
            rintro rfl
            cases hs
          refine Or.inr ⟨b0, spec, hne, by rw [hs]; rfl, ?_⟩
          rw [← batchSubscript_tuple t b0 hne, List.map_cons, ← hs]
          simp only [batchSubscript]
          rw [if_pos hl, e]
  · rintro (⟨i, rfl, e⟩ | ⟨b0, spec, hne, rfl, e⟩)
    · rw [batchSubscript_single, e]
    · rw [batchSubscript_tuple t b0 hne, e]

/-- **C88.** For any batch, `...` and `None` raise for all but the first item of a tuple. -/
theorem C88_batch_modes (t : TT K) (h : t.WF) {n : ℕ} (hb : t.batch = some n) (b0 x : SubItem) (l : List SubItem) (hx : .ellipsis ∈ x :: l ∨ .newaxis ∈ x :: l) :
    ∃ e, batchSubscript t (.tuple (b0 :: x :: l)) = Except.error e := by
  cases he : batchSubscript t (.tuple (b0 :: x :: l)) with
  | error e => exact ⟨e, rfl⟩
  | ok T =>
    exfalso
    simp only [batchSubscript] at he
    split_ifs at he with hl
    have key : ∀ y ∈ x :: l, ∃ i, y = SubItem.ix i := by
      intro y hy
      obtain ⟨j, hj, rfl⟩ := List.getElem_of_mem hy
      obtain ⟨i, hi, -⟩ := batchFull_items h hb he (k := j) (by omega)
      rw [List.getD_eq_getElem _ _ hj] at hi
      exact ⟨i, hi⟩
    rcases hx with hx | hx
    · obtain ⟨i, hi⟩ := key _ hx
      cases hi
    · obtain ⟨i, hi⟩ := key _ hx
      cases hi

/-- A batch of `n` matrices `2 × 2` (as TT-tensors) of TT-rank one. -/
def exRankOne (n : ℕ) : TT ℤ := ⟨[⟨[n, 1, 2, 1], fun _ => 1⟩, ⟨[n, 1, 2, 1], fun _ => 1⟩], [[2, 2]], [1, 1, 1], some n⟩

/-- **C88, findings.** For batches of TT-rank one, wrong results are possible: `batch[..., :, :]` of a batch with one `2 × 2` tensor is a TT-matrix (of size `1 × 4`) instead of a batch, and
`batch[None]` and `batch[None, :, :]` of a batch with two of them are objects whose cores have five axes. -/
theorem C88_batch_findings : (exRankOne 1).WF ∧ (exRankOne 2).WF ∧
    (∃ T, batchSubscript (exRankOne 1) (.tuple [.ellipsis, .ix .all, .ix .all]) = Except.ok T ∧ T.batch = none ∧ T.rawShape = [[1, 1], [2, 2]]) ∧
    (∃ T, batchSubscript (exRankOne 2) (.single .newaxis) = Except.ok T ∧ T.batch = none ∧ T.rawShape = [[2, 2]] ∧
      T.cores.map (fun c => c.shape) = [[1, 2, 1, 2, 1], [1, 2, 1, 2, 1]]) ∧
    ∃ T, batchSubscript (exRankOne 2) (.tuple [.newaxis, .ix .all, .ix .all]) = Except.ok T ∧ T.batch = none ∧ T.rawShape = [[2, 2], [1, 1], [2, 2]] :=
  ⟨by decide, by decide, ⟨_, rfl, rfl, rfl⟩, ⟨_, rfl, rfl, rfl, rfl⟩, ⟨_, rfl, rfl, rfl⟩⟩

example : exTensor.WF ∧ exTensor.batch = none ∧ ¬ exTensor.isMatrix := by decide
example : exBatch.WF ∧ exBatch.batch = some 2 ∧ ∃ r ∈ exBatch.ttRanks, r ≠ 1 := by decide
/-- `tt[..., 1]` of a TT-tensor with two axes; `tt[..., ...]` is all of it. -/
example : (ttSubscript exTensor (.tuple [.ellipsis, .ix (.int 1)]) >>= full).map (fun F => F.shape) = Except.ok [2] ∧
    (ttSubscript exTensor (.tuple [.ellipsis, .ellipsis]) >>= full).map (fun F => F.shape) = Except.ok [2, 3] := by decide
example : ttSubscript exTensor (.single .ellipsis) = Except.error Err.type ∧ ttSubscript exTensor (.tuple [.ellipsis]) = Except.error Err.value ∧
    ttSubscript exTensor (.tuple [.newaxis, .ix .all]) = Except.error Err.tf := ⟨rfl, rfl, rfl⟩
example : batchSubscript exBatch (.tuple [.ix .all, .ellipsis, .ix .all]) = Except.error Err.tf ∧ batchSubscript exBatch (.tuple [.ix (.int 0)]) = Except.error Err.type :=
  ⟨rfl, rfl⟩

end T3f
