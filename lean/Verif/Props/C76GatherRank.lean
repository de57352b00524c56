import Verif.Proofs.GatherRank
import Verif.Spec.Examples
import Mathlib.Tactic.IntervalCases

/-!
# C76: `gather_nd` with index arrays that do not have two axes

The documentation of `gather_nd` allows index arrays with two or more axes and promises `tf.gather_nd(full(tt), indices)`. C18 is the case of two
axes.
-/

namespace T3f

variable {K : Type} [CommRing K]

/-- **C76.** When `gather_nd(tt, indices)` returns, for a TT-tensor with `d` axes and an index array of shape `[n, m, ..., d]` with at least three axes: the
array holds `d` rows and every other axis has size one (or `d = 1` and the other axes hold at most one element), and the items read as subscripts of
axis `k` of the tensor, which are those at position `k` of the second axis, are in range. -/
theorem C76_returns_iff {t : TT K} (h : t.WF) (hm : ¬ t.isMatrix) (hb : t.batch = none) {F : Tensor K} (hF : full t = Except.ok F) (idx : Tensor ℕ)
    {n m : ℕ} {ps : List ℕ} (hs : idx.shape = n :: m :: (ps ++ [F.shape.length])) :
    (∃ G, ttGatherNd t idx = Except.ok G) ↔
      (n * ps.prod = 1 ∧ m = F.shape.length ∨ F.shape.length = 1 ∧ n * ps.prod ≤ 1 ∧ 1 ≤ m) ∧
      ∀ k < F.shape.length, ∀ o l, Valid (n :: (ps ++ [F.shape.length])) (o :: l) → idx.get (o :: k :: l) < F.shape.getD k 0 := by
  obtain ⟨row, hr, hl⟩ := h.rawShape_tensor hm
  obtain ⟨F', eF, sF, -⟩ := full_tensor h hr
  obtain rfl : F' = F := by rw [hF] at eF; cases eF; rfl
  rw [bpre_none hb, List.nil_append] at sF
  rw [sF, hl] at hs ⊢
  constructor
  · rintro ⟨G, e⟩
    exact gatherRank_returns h hb hr hs e
  · rintro ⟨h1, h2⟩
    obtain ⟨G, e, -⟩ := gatherRank_spec h hb hr hs h1 h2
    exact ⟨G, e⟩

/-- **C76.** What is returned then: the element at position `[o, j, ...]` has its subscripts in column `j` of the index array, not in row `j` (and all elements
have the same subscripts if `d = 1`). -/
theorem C76_value {t : TT K} (h : t.WF) (hm : ¬ t.isMatrix) (hb : t.batch = none) {F : Tensor K} (hF : full t = Except.ok F) (idx : Tensor ℕ)
    {n m : ℕ} {ps : List ℕ} (hs : idx.shape = n :: m :: (ps ++ [F.shape.length])) {G : Tensor K} (hG : ttGatherNd t idx = Except.ok G) :
    G.shape = n :: m :: ps ∧ ∀ o j l, Valid (n :: m :: ps) (o :: j :: l) →
      G.get (o :: j :: l) = F.get ((List.range F.shape.length).map fun k => idx.get (o :: k :: (l ++ [if F.shape.length = 1 then 0 else j]))) := by
  obtain ⟨row, hr, hl⟩ := h.rawShape_tensor hm
  obtain ⟨F', eF, sF, vF⟩ := full_tensor h hr
  obtain rfl : F' = F := by rw [hF] at eF; cases eF; rfl
  have hbp := bpre_none hb
  simp only [hbp, List.nil_append] at sF vF
  rw [sF, hl] at hs ⊢
  obtain ⟨hok, hrange⟩ := gatherRank_returns h hb hr hs hG
  obtain ⟨G', e, sG, vG⟩ := gatherRank_spec h hb hr hs hok hrange
  obtain rfl : G' = G := by rw [hG] at e; cases e; rfl
  refine ⟨sG, fun o j l hv => ?_⟩
  have hpick : pickCol t.ndims j < t.ndims := by
    have hpos := h.pos
    have hj := hv.2.1
    unfold pickCol
    split
    · omega
    · rcases hok with ⟨-, h1⟩ | ⟨h1, -⟩ <;> omega
  have hvi : Valid row ((List.range t.ndims).map fun k => idx.get (o :: k :: (l ++ [if t.ndims = 1 then 0 else j]))) := by
    rw [valid_iff_getD]
    refine ⟨by simp [hl], fun k hk => ?_⟩
    rw [hl] at hk
    rw [getD_range_map _ _ _ _ hk]
    exact hrange k hk o _ ⟨hv.1, valid_append hv.2.2 ⟨hpick, trivial⟩⟩
  have := vF [] _ trivial hvi
  rw [List.nil_append] at this
  rw [vG o j l hv, this]
  refine lprod_congr' fun k hk => ?_
  funext a b
  simp only [TT.slice, tIdx]
  rw [getD_range_map _ _ _ _ hk]
  rfl

/-- `[[[0, 2], [1, 0]]]`: the rows are positions of a `2 × 3` tensor, the columns are not. -/
def exRows : Tensor ℕ := .ofList [1, 2, 2] [0, 2, 1, 0]

/-- `[[[0, 1], [2, 1]]]`: the columns are positions of a `2 × 3` tensor, the second row is not. -/
def exColumns : Tensor ℕ := .ofList [1, 2, 2] [0, 1, 2, 1]

example : exTensor.WF ∧ ¬ exTensor.isMatrix ∧ exTensor.batch = none := by decide
example : ttGatherNd exTensor exRows = Except.error Err.tf := by rfl
example : ((ttGatherNd exTensor exColumns).map fun G => (G.shape, G.get [0, 0], G.get [0, 1])) =
    Except.ok ([1, 2], exTensor.entry [] (tIdx [0, 2]), exTensor.entry [] (tIdx [1, 1])) := by decide
example : ttGatherNd exTensor (.ofList [2, 2, 2] [0, 1, 1, 0, 0, 0, 1, 1]) = Except.error Err.tf := by rfl
example : ttGatherNd exTensor (.ofList [1, 1, 2] [0, 1]) = Except.error Err.tf := by rfl

/-- `[[[0, 1], [0, 0]]]`: rows and columns are valid positions. -/
def exBoth : Tensor ℕ := .ofList [1, 2, 2] [0, 1, 0, 0]

/-- **C76.** The documented equivalence to `tf.gather_nd(full(tt), indices)` is false for index arrays with three axes: there are a TT-tensor and an array of
in-range subscripts for which the call returns other elements. -/
theorem C76_not_documented : ∃ (t : TT ℤ) (F : Tensor ℤ) (idx : Tensor ℕ) (G : Tensor ℤ), t.WF ∧ ¬ t.isMatrix ∧ t.batch = none ∧ full t = Except.ok F ∧
    idx.shape = [1, 2, 2] ∧ F.shape.length = 2 ∧ (∀ j < 2, Valid F.shape [idx.get [0, j, 0], idx.get [0, j, 1]]) ∧ ttGatherNd t idx = Except.ok G ∧
    G.shape = [1, 2] ∧ G.get [0, 0] ≠ F.get [idx.get [0, 0, 0], idx.get [0, 0, 1]] ∧ G.get [0, 1] ≠ F.get [idx.get [0, 1, 0], idx.get [0, 1, 1]] := by
  have hw : exTensor.WF := by decide
  obtain ⟨F, eF, sF, vF⟩ := full_tensor hw (show exTensor.rawShape = [[2, 3]] from rfl)
  have hs : exBoth.shape = 1 :: 2 :: ([] ++ [F.shape.length]) := by rw [sF]; rfl
  obtain ⟨G, eG⟩ := (C76_returns_iff hw (by decide) rfl eF exBoth hs).2 (by
    rw [sF]
    refine ⟨by decide, fun k hk o l hv => ?_⟩
    obtain ⟨j, rfl, hj⟩ := (valid_singleton _ _).1 hv.2
    have ho : o = 0 := by have := hv.1; omega
    subst ho
    change k < 2 at hk
    change j < 2 at hj
    interval_cases k <;> interval_cases j <;> decide)
  obtain ⟨sG, vG⟩ := C76_value hw (by decide) rfl eF exBoth hs eG
  have v : ∀ i, Valid [2, 3] i → F.get i = exTensor.entry [] (tIdx i) := fun i hi => vF [] i trivial hi
  have hl : F.shape.length = 2 := by rw [sF]; rfl
  refine ⟨exTensor, F, exBoth, G, hw, by decide, rfl, eF, rfl, hl, ?_, eG, sG, ?_, ?_⟩
  · rw [sF]; decide
  · rw [vG 0 0 [] (by decide), hl]
    change F.get [0, 0] ≠ F.get [0, 1]
    rw [v _ (by decide), v _ (by decide)]
    decide
  · rw [vG 0 1 [] (by decide), hl]
    change F.get [1, 0] ≠ F.get [0, 0]
    rw [v _ (by decide), v _ (by decide)]
    decide

/-- **C76.** An array whose last axis does not have size `d` (`d + 1` for batches) raises ValueError, whatever the number of axes. -/
theorem C76_last_axis (t : TT K) (hm : ¬ t.isMatrix) (idx : Tensor ℕ) {s : List ℕ} {q : ℕ} (hs : idx.shape = s ++ [q])
    (hq : q ≠ t.ndims + t.batch.toList.length) : ttGatherNd t idx = Except.error Err.value := by
  have : ¬ q = if t.isBatch then t.ndims + 1 else t.ndims := by
    cases hb : t.batch <;> simp_all [TT.isBatch]
  unfold ttGatherNd
  rw [require_pos hm, hs, pyLast, List.getLast?_concat]
  simp only [R.ok_bind]
  rw [require_neg this]
  rfl

example : ttGatherNd exTensor (.ofList [1, 2, 3] [0, 1, 0, 0, 0, 0]) = Except.error Err.value :=
  C76_last_axis exTensor (by decide) _ (s := [1, 2]) rfl (by decide)

/-- **C76.** A vector of subscripts is not accepted: `gather_nd(tt, [i, j, ...])` raises. -/
theorem C76_vector {t : TT K} (h : t.WF) (hm : ¬ t.isMatrix) (idx : Tensor ℕ) (hs : idx.shape = [t.ndims + t.batch.toList.length]) :
    ttGatherNd t idx = Except.error Err.tf := by
  obtain ⟨row, hr, hl⟩ := h.rawShape_tensor hm
  have hq : t.ndims + t.batch.toList.length = if t.isBatch then t.ndims + 1 else t.ndims := by
    cases hb : t.batch <;> simp [TT.isBatch, hb]
  have hcol : ∀ k, column idx k = Except.error Err.tf := by
    intro k
    simp [column, getItem, hs, resolveIx]
  have hcore := h.core_shape 0 h.pos
  have hmod : t.modes 0 = [row.getD 0 0] := by simp [TT.modes, hr]
  rw [hmod] at hcore
  have hstep : ∀ el, gatherStep t idx 0 el = Except.error Err.tf := by
    intro el
    cases hb : t.batch with
    | none =>
      have hbb : t.isBatch = false := by simp [TT.isBatch, hb]
      rw [bpre_none hb] at hcore
      obtain ⟨T, eT, -, -⟩ := transpose102 hcore
      simp [gatherStep, h.pyCore h.pos, hbb, eT, hcol]
    | some B =>
      have hbb : t.isBatch = true := by simp [TT.isBatch, hb]
      rw [bpre_some hb] at hcore
      obtain ⟨T, eT, -, -⟩ := transpose4 hcore
      simp [gatherStep, h.pyCore h.pos, hbb, eT, hcol]
  have eE : reshape (ones [] : Tensor K) [none, some 1, some 1] = Except.ok ⟨[1, 1, 1], fun _ => 1⟩ := by
    unfold reshape
    rw [show (ones [] : Tensor K).shape = [] from rfl,
      show resolveShape ([] : List ℕ).prod [none, some 1, some 1] = Except.ok [1, 1, 1] by decide]
    rfl
  obtain ⟨d, hd⟩ : ∃ d, t.ndims = d + 1 := ⟨t.ndims - 1, by have := h.pos; omega⟩
  unfold ttGatherNd
  rw [require_pos hm, hs]
  simp only [pyLast, R.ok_bind, List.getLast?_singleton, List.dropLast_singleton]
  rw [require_pos hq]
  simp only [R.ok_bind, eE]
  rw [hd, forRange, hstep]
  rfl

example : ttGatherNd exTensor (.ofList [2] [0, 1]) = Except.error Err.tf := C76_vector (by decide) (by decide) _ rfl
example : ttGatherNd exBatch (.ofList [3] [0, 0, 1]) = Except.error Err.tf := C76_vector (by decide) (by decide) _ rfl

/-- **C76.** Batches and index arrays with three axes: the call only returns for two elements of a batch of tensors with one axis. Then the result is as
documented. -/
theorem C76_batch {t : TT K} (h : t.WF) (hm : ¬ t.isMatrix) {B : ℕ} (hb : t.batch = some B) {F : Tensor K} (hF : full t = Except.ok F) (idx : Tensor ℕ)
    {n m : ℕ} (hs : idx.shape = [n, m, F.shape.length]) :
    (∀ G, ttGatherNd t idx = Except.ok G → F.shape.length = 2 ∧ n = 1 ∧ m = 2) ∧
    (F.shape.length = 2 → n = 1 → m = 2 → (∀ j < 2, Valid F.shape [idx.get [0, j, 0], idx.get [0, j, 1]]) →
      ∃ G, ttGatherNd t idx = Except.ok G ∧ G.shape = [1, 2] ∧ ∀ j < 2, G.get [0, j] = F.get [idx.get [0, j, 0], idx.get [0, j, 1]]) := by
  obtain ⟨row, hr, hl⟩ := h.rawShape_tensor hm
  obtain ⟨F', eF, sF, vF⟩ := full_tensor h hr
  obtain rfl : F' = F := by rw [hF] at eF; cases eF; rfl
  have hbp := bpre_some hb
  have hlen : F'.shape.length = t.ndims + 1 := by rw [sF, hbp]; simp [hl]
  rw [hlen] at hs ⊢
  constructor
  · intro G e
    obtain ⟨h1, h2, h3⟩ := gatherRank_batch_returns h hb hr hs e
    exact ⟨by omega, h2, h3⟩
  · rintro h1 rfl rfl hv
    have hd : t.ndims = 1 := by omega
    obtain ⟨r0, rfl⟩ := List.length_eq_one_iff.1 (hl.trans hd)
    rw [hd] at hs
    rw [hbp] at sF
    have hv' : ∀ j < 2, idx.get [0, j, 0] < B ∧ idx.get [0, j, 1] < r0 := by
      intro j hj
      have := hv j hj
      rw [sF] at this
      exact ⟨this.1, this.2.1⟩
    obtain ⟨G, e, sG, vG⟩ := gatherRank_batch_spec h hb hr hd hs hv'
    refine ⟨G, e, sG, fun j hj => ?_⟩
    rw [vG j hj, show [idx.get [0, j, 0], idx.get [0, j, 1]] = [idx.get [0, j, 0]] ++ [idx.get [0, j, 1]] from rfl,
      vF [idx.get [0, j, 0]] [idx.get [0, j, 1]] (by rw [hbp]; exact ⟨(hv' j hj).1, trivial⟩) ⟨(hv' j hj).2, trivial⟩]
    refine lprod_congr' fun k hk => ?_
    rw [hd] at hk
    obtain rfl : k = 0 := by omega
    rfl

/-- A batch of two vectors with three elements. -/
def exIndexVectors : TT ℤ where
  cores := [.ofList [2, 1, 3, 1] [1, 2, 3, 4, 5, 6]]
  rawShape := [[3]]
  ttRanks := [1, 1]
  batch := some 2

example : exIndexVectors.WF ∧ ¬ exIndexVectors.isMatrix ∧ exIndexVectors.batch = some 2 := by decide
example : ((ttGatherNd exIndexVectors (.ofList [1, 2, 2] [0, 1, 1, 2])).map fun G => (G.shape, G.get [0, 0], G.get [0, 1])) = Except.ok ([1, 2], 2, 6) := by
  decide
example : ttGatherNd exIndexVectors (.ofList [1, 1, 2] [0, 1]) = Except.error Err.tf := by rfl
example : ttGatherNd exBatch (.ofList [1, 2, 3] [0, 1, 1, 0, 0, 0]) = Except.error Err.tf := by rfl

end T3f
