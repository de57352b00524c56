import Verif.Proofs.BatchOps
import Verif.Spec.Examples

/-!
# C22: concatenation and weighting along the batch axis
-/

namespace T3f

variable {K : Type} [CommRing K]

/-- **C22.** `concat_along_batch_dim` of batches with equal raw shapes and TT-ranks: the sizes add up and the
full tensor is the concatenation: element `o` of the `i`-th batch becomes element `(sizes before i) + o`. -/
theorem C22_concat (t0 : TT K) (ts : List (TT K)) (hne : ts ≠ []) (hwf : ∀ t ∈ ts, t.WF)
    (hb : ∀ t ∈ ts, t.isBatch = true) (hr : ∀ t ∈ ts, t.rawShape = t0.rawShape)
    (hk : ∀ t ∈ ts, t.ttRanks = t0.ttRanks) :
    ∃ c C, concatAlongBatchDim ts = Except.ok c ∧ c.WF ∧ c.rawShape = t0.rawShape ∧ c.ttRanks = t0.ttRanks ∧
      c.batch = some (ts.map fun t => t.batch.getD 0).sum ∧ full c = Except.ok C ∧
      ∀ i < ts.length, ∃ F n s, full (ts.getD i t0) = Except.ok F ∧ F.shape = n :: s ∧
        C.shape = (ts.map fun t => t.batch.getD 0).sum :: s ∧
        ∀ o < n, ∀ x, Valid s x →
          C.get ((((ts.take i).map fun t => t.batch.getD 0).sum + o) :: x) = F.get (o :: x) := by
  obtain ⟨c, ec, wc, h1, h2, h3, h4⟩ := concatAlongBatchDim_spec t0 ts hne hwf hb hr hk
  obtain ⟨C, eC, sC, vC⟩ := full_ok wc
  rw [bpre_some h3, h1] at sC vC
  refine ⟨c, C, ec, wc, h1, h2, h3, eC, fun i hi => ?_⟩
  have hm : ts.getD i t0 ∈ ts := by rw [List.getD_eq_getElem _ _ hi]; exact List.getElem_mem _
  obtain ⟨F, eF, sF, vF⟩ := full_ok (hwf _ hm)
  have hbi : (ts.getD i t0).batch = some ((ts.getD i t0).batch.getD 0) := by
    have := hb _ hm
    unfold TT.isBatch at this
    obtain ⟨n, h⟩ := Option.isSome_iff_exists.1 this
    rw [h]; rfl
  rw [bpre_some hbi, hr _ hm] at sF vF
  refine ⟨F, _, _, eF, sF, sC, fun o ho x hx => ?_⟩
  have e : ((ts.take i).map fun t => t.batch.getD 0).sum = blockOff (ts.map fun t => t.batch.getD 0) i := by
    rw [blockOff, List.map_take]
  have hlt : blockOff (ts.map fun t => t.batch.getD 0) i + o < (ts.map fun t => t.batch.getD 0).sum := by
    have hsplit : ts.map (fun t => t.batch.getD 0) = (ts.take i).map (fun t => t.batch.getD 0) ++
        (ts.getD i t0).batch.getD 0 :: (ts.drop (i + 1)).map (fun t => t.batch.getD 0) := by
      rw [← List.map_cons (f := fun t : TT K => t.batch.getD 0), ← List.map_append]
      congr 1
      rw [List.getD_eq_getElem _ _ hi, ← List.drop_eq_getElem_cons hi, List.take_append_drop]
    rw [← e]
    conv_rhs => rw [hsplit]
    simp only [List.sum_append, List.sum_cons]
    omega
  rw [e]
  have a := vC [blockOff (ts.map fun t => t.batch.getD 0) i + o] x ⟨hlt, trivial⟩ hx
  have b := vF [o] x ⟨ho, trivial⟩ hx
  rw [List.singleton_append] at a b
  rw [a, b, h4 i hi o ho]

omit [CommRing K] in
/-- **C22, errors.** An empty list raises IndexError, a list with a non-batch object, or with different raw
shapes or TT-ranks raises ValueError. -/
theorem C22_concat_errors :
    (concatAlongBatchDim ([] : List (TT K)) = Except.error Err.index) ∧
    (∀ ts : List (TT K), (∃ t ∈ ts, t.isBatch = false) → concatAlongBatchDim ts = Except.error Err.value) ∧
    (∀ (t0 : TT K) (ts : List (TT K)), (∀ t ∈ t0 :: ts, t.isBatch = true) →
      (∃ t ∈ ts, t.rawShape ≠ t0.rawShape ∨ t.ttRanks ≠ t0.ttRanks) →
      concatAlongBatchDim (t0 :: ts) = Except.error Err.value) :=
  ⟨rfl, concatAlongBatchDim_not_batch, concatAlongBatchDim_mismatch⟩

/-- **C22.** `multiply_along_batch_dim(batch, weights)` multiplies element `o` of the batch by `weights[o]` (or by
`weights[0]` if there is only one weight). -/
theorem C22_multiply {t : TT K} (h : t.WF) {n : ℕ} (hb : t.batch = some n) (w : Tensor K)
    (hw : w.shape = [n] ∨ w.shape = [1]) :
    ∃ c A C s, multiplyAlongBatchDim t w = Except.ok c ∧ c.WF ∧ c.rawShape = t.rawShape ∧ c.ttRanks = t.ttRanks ∧
      c.batch = t.batch ∧ full t = Except.ok A ∧ full c = Except.ok C ∧ A.shape = n :: s ∧ C.shape = n :: s ∧
      ∀ o < n, ∀ x, Valid s x → C.get (o :: x) = w.get [if w.shape = [n] then o else 0] * A.get (o :: x) := by
  obtain ⟨c, ec, wc, h1, h2, h3, h4⟩ := multiplyAlongBatchDim_spec h hb w hw
  obtain ⟨C, eC, sC, vC⟩ := full_ok wc
  obtain ⟨A, eA, sA, vA⟩ := full_ok h
  rw [bpre_some (h3.trans hb), h1] at sC vC
  rw [bpre_some hb] at sA vA
  refine ⟨c, A, C, _, ec, wc, h1, h2, h3, eA, eC, sA, sC, fun o ho x hx => ?_⟩
  have a := vC [o] x ⟨ho, trivial⟩ hx
  have b := vA [o] x ⟨ho, trivial⟩ hx
  rw [List.singleton_append] at a b
  rw [a, b, h4 o ho _ (validModes_rest h hx)]

/-- **C22, errors.** A wrong number of weights raises: TensorFlow cannot broadcast, or (for a batch of one
object) the constructor rejects the batch size. -/
theorem C22_multiply_mismatch {t : TT K} (h : t.WF) {n u : ℕ} (hb : t.batch = some n) (w : Tensor K)
    (hw : w.shape = [u]) (h1 : u ≠ n) (h2 : u ≠ 1) :
    multiplyAlongBatchDim t w = Except.error (if n = 1 then Err.value else Err.tf) := by
  set s := t.rank 0 :: (t.modes 0 ++ [t.rank 1]) with hs
  have hlen : s.length = t.rawShape.length + 2 := by simp [hs, TT.modes]
  have hext : (if t.isMatrix then 4 else 3) = s.length := by
    rw [hlen]
    by_cases hm : t.isMatrix
    · rw [if_pos hm, show t.rawShape.length = 2 from hm]
    · rw [if_neg hm, h.rows.resolve_right hm]
  have hc0 : (t.core 0).shape = n :: s := by rw [h.core_shape 0 h.pos, bpre_some hb]; rfl
  have hbs : ∀ (s : List ℕ), bshape (List.replicate s.length 1 ++ [u]) (s ++ [n]) =
      if n = 1 then some (s ++ [u]) else none := by
    intro s
    induction s with
    | nil => split_ifs <;> simp_all [bshape]
    | cons x s ih =>
      simp only [List.cons_append, List.length_cons, List.replicate_succ, bshape, ih]
      split_ifs <;> simp_all
  unfold multiplyAlongBatchDim expandWeights
  rw [hext, hw]
  dsimp only
  rw [R.pure_eq, R.ok_bind, h.pyCore h.pos, R.ok_bind]
  simp only [binop, List.append_nil, hc0, List.reverse_cons, List.reverse_replicate]
  rw [← List.length_reverse, hbs]
  by_cases hn : n = 1
  · obtain ⟨d, hd⟩ : ∃ d, t.cores.length = d + 1 := ⟨t.cores.length - 1, by have := h.pos; unfold TT.ndims at this; omega⟩
    obtain ⟨c0, cs, hcs⟩ := List.exists_cons_of_length_eq_add_one hd
    have hcl : cleanRawShape (.shapes t.rawShape) = Except.ok (some t.rawShape) := by
      rcases hr : t.rawShape with _ | ⟨r, rs⟩
      · have := h.rows; simp [hr] at this
      · rfl
    simp only [hn, if_true, R.ok_bind, hb, hcs, List.set_cons_zero, mkBatch, hcl, List.map_cons, coresValid,
      List.length_cons, allRange, coreCheck, pyGet, List.getElem?_cons_zero, List.reverse_append, List.reverse_reverse,
      List.reverse_cons, List.reverse_nil, List.nil_append, List.singleton_append, eqR, andR, R.pure_eq, h2]
    simp
  · simp only [hn, if_false, R.error_bind]

example : exBatch.WF ∧ exBatch1.WF ∧ exBatch.isBatch = true ∧ exBatch1.rawShape = exBatch.rawShape ∧
    exBatch1.ttRanks = exBatch.ttRanks := by decide
example : (concatAlongBatchDim [exBatch, exBatch1, exBatch] >>= full).map
    (fun F => (F.shape, F.get [2, 1, 2], F.get [4, 0, 2])) =
    Except.ok ([5, 2, 3], 25, 5 * 1 + 6 * 2) := by decide
example : multiplyAlongBatchDim exBatch1 (.ofList [3] [1, 1, 1]) = Except.error Err.value := by rfl
example : (multiplyAlongBatchDim exBatchMatrix (.ofList [2] [10, 100]) >>= full).map
    (fun F => (F.shape, F.get [0, 1, 1], F.get [1, 1, 1])) =
    (full exBatchMatrix).map (fun F => (F.shape, 10 * F.get [0, 1, 1], 100 * F.get [1, 1, 1])) := by decide

end T3f
