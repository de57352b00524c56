import Verif.Proofs.Sparse
import Verif.Proofs.Renorm
import Verif.Model.Dispatch
import Verif.Spec.Examples
import Verif.Spec.ExamplesReal
import Mathlib.Algebra.Field.Rat
import Mathlib.Data.Rat.Floor
import Mathlib.Tactic.NormNum
import Mathlib.Tactic.Linarith

/-!
# C12, C17, C18, C19, C44: reading elements, sparse inner products, casts, renormalization
-/

namespace T3f

variable {K : Type} [CommRing K]

/-! ## C44 -/

/-- **C44.** `utils.unravel_index(indices, shape)` returns, for every flat index below the number of
positions, the valid multi-index with that row-major position. -/
theorem C44_unravel_index (idx : Tensor ℕ) (c : ℕ) (S : List ℕ) (hs : idx.shape = [c])
    (hi : ∀ o < c, idx.get [o] < S.prod) (hS : 0 < S.prod) :
    ∃ U, unravelIndex idx S = Except.ok U ∧ U.shape = [c, S.length] ∧
      ∀ o < c, ∃ i, Valid S i ∧ ravel S i = idx.get [o] ∧ ∀ k < S.length, U.get [o, k] = i.getD k 0 := by
  obtain ⟨U, e, s, v⟩ := unravelIndex_spec idx S hs hS
  refine ⟨U, e, s, fun o ho => ⟨unravel S (idx.get [o]), unravel_valid (hi o ho), ravel_unravel (hi o ho),
    fun k hk => ?_⟩⟩
  rw [v o ho k hk, Nat.mod_eq_of_lt (hi o ho)]

/-- **C44.** Out of range flat indices are not detected: they are taken modulo the number of positions. -/
theorem C44_unravel_index_wraps (idx : Tensor ℕ) (c : ℕ) (S : List ℕ) (hs : idx.shape = [c]) (hS : 0 < S.prod) :
    ∃ U, unravelIndex idx S = Except.ok U ∧ U.shape = [c, S.length] ∧
      ∀ o < c, ∃ i, Valid S i ∧ ravel S i = idx.get [o] % S.prod ∧ ∀ k < S.length, U.get [o, k] = i.getD k 0 := by
  obtain ⟨U, e, s, v⟩ := unravelIndex_spec idx S hs hS
  have hm : ∀ o, idx.get [o] % S.prod < S.prod := fun o => Nat.mod_lt _ hS
  exact ⟨U, e, s, fun o ho => ⟨unravel S (idx.get [o] % S.prod), unravel_valid (hm o), ravel_unravel (hm o),
    fun k hk => v o ho k hk⟩⟩

example : (unravelIndex ⟨[2], fun i => [17, 5].getD (i.headD 0) 0⟩ [2, 3, 4]).map
    (fun U => (U.shape, (List.range 3).map (fun k => U.get [0, k]))) = Except.ok ([2, 3], [1, 1, 1]) := by decide

/-! ## C18 -/

/-- Row `o` of a 2-d index array. -/
def idxRow (idx : Tensor ℕ) (n o : ℕ) : List ℕ := (List.range n).map fun k => idx.get [o, k]

omit [CommRing K] in
theorem idxRow_split {t : TT K} {row : List ℕ} (hl : row.length = t.ndims) (idx : Tensor ℕ) (o : ℕ) :
    idxRow idx (t.bpre ++ row).length o =
      rowBatch t idx o ++ (List.range t.ndims).map fun k => idx.get [o, t.bpre.length + k] := by
  cases hb : t.batch with
  | none => simp [idxRow, rowBatch, TT.isBatch, hb, TT.bpre, hl]
  | some n =>
    simp only [idxRow, rowBatch, TT.isBatch, hb, TT.bpre, Option.toList_some, List.length_cons,
      List.length_nil, zero_add, hl, Option.isSome_some, if_true, List.cons_append, List.nil_append]
    rw [List.range_succ_eq_map, List.map_cons, List.map_map]
    congr 1
    exact List.map_congr_left fun k _ => by simp [Nat.add_comm]

omit [CommRing K] in
theorem validRow_iff {t : TT K} {row : List ℕ} (hl : row.length = t.ndims) (idx : Tensor ℕ) (o : ℕ) :
    Valid (t.bpre ++ row) (idxRow idx (t.bpre ++ row).length o) ↔
      Valid t.bpre (rowBatch t idx o) ∧ ∀ k < t.ndims, idx.get [o, t.bpre.length + k] < row.getD k 0 := by
  rw [idxRow_split hl, valid_append_of_length (by cases hb : t.batch <;> simp [rowBatch, TT.isBatch, TT.bpre, hb]),
    valid_iff_getD row]
  refine and_congr_right fun _ => ⟨fun h k hk => ?_, fun h => ⟨by simp [hl], fun k hk => ?_⟩⟩
  · have := h.2 k (by omega)
    rwa [getD_range_map _ _ _ _ hk] at this
  · rw [getD_range_map _ _ _ _ (by omega)]
    exact h k (by omega)

/-- **C18.** `gather_nd(tt, indices)` of a TT-tensor or a batch of TT-tensors returns the elements of the
full tensor at the rows of `indices`. -/
theorem C18_gather_nd {t : TT K} (h : t.WF) (hm : ¬ t.isMatrix) (idx : Tensor ℕ) (c : ℕ) :
    ∃ F, full t = Except.ok F ∧
      (idx.shape = [c, F.shape.length] → (∀ o < c, Valid F.shape (idxRow idx F.shape.length o)) →
        ∃ G, ttGatherNd t idx = Except.ok G ∧ G.shape = [c] ∧
          ∀ o < c, G.get [o] = F.get (idxRow idx F.shape.length o)) := by
  obtain ⟨row, hr, hl⟩ := h.rawShape_tensor hm
  obtain ⟨F, eF, sF, vF⟩ := full_tensor h hr
  refine ⟨F, eF, fun hs hv => ?_⟩
  rw [sF] at hs hv ⊢
  have hv' := fun o ho => (validRow_iff hl idx o).1 (hv o ho)
  obtain ⟨G, eG, sG, vG⟩ := ttGatherNd_spec h hr (idx := idx) (c := c) (by rw [hs]; simp [hl])
    (fun o ho => (hv' o ho).1) (fun o ho => (hv' o ho).2)
  refine ⟨G, eG, sG, fun o ho => ?_⟩
  rw [vG o ho, idxRow_split hl, vF _ _ (hv' o ho).1 (by
    rw [valid_iff_getD]
    refine ⟨by simp [hl], fun k hk => ?_⟩
    rw [getD_range_map _ _ _ _ (by omega)]
    exact (hv' o ho).2 k (by omega))]
  refine lprod_congr' fun j hj => ?_
  funext a b
  simp only [TT.slice, rowModes, tIdx]
  rw [getD_range_map _ _ _ _ hj]

/-- **C18.** Out of range indices raise. -/
theorem C18_gather_nd_out_of_range {t : TT K} (h : t.WF) (hm : ¬ t.isMatrix) (idx : Tensor ℕ) (c : ℕ)
    {F : Tensor K} (hF : full t = Except.ok F) (hs : idx.shape = [c, F.shape.length])
    (hbad : ∃ o < c, ¬ Valid F.shape (idxRow idx F.shape.length o)) :
    ttGatherNd t idx = Except.error Err.tf := by
  obtain ⟨row, hr, hl⟩ := h.rawShape_tensor hm
  obtain ⟨F', eF, sF, -⟩ := full_tensor h hr
  obtain rfl : F' = F := by rw [hF] at eF; cases eF; rfl
  rw [sF] at hs hbad
  obtain ⟨o, ho, hb⟩ := hbad
  exact ttGatherNd_error h hr (idx := idx) (c := c) (by rw [hs]; simp [hl])
    fun hall => hb ((validRow_iff hl idx o).2 (hall o ho))

/-- **C18.** A wrong number of index columns raises ValueError, and TT-matrices NotImplementedError. -/
theorem C18_gather_nd_error (t : TT K) (idx : Tensor ℕ) :
    (t.isMatrix → ttGatherNd t idx = Except.error Err.notImpl) ∧
    (¬ t.isMatrix → ∀ c n, idx.shape = [c, n] → n ≠ t.ndims + t.batch.toList.length →
      ttGatherNd t idx = Except.error Err.value) := by
  constructor
  · intro hm
    unfold ttGatherNd
    rw [require_neg (not_not_intro hm)]
    rfl
  · intro hm c n hs hn
    have : ¬ n = if t.isBatch then t.ndims + 1 else t.ndims := by
      cases hb : t.batch <;> simp_all [TT.isBatch]
    unfold ttGatherNd
    rw [require_pos hm, hs]
    simp only [pyLast, R.ok_bind, List.getLast?_cons_cons, List.getLast?_singleton]
    rw [require_neg this]
    rfl

example : exBatch.WF ∧ ¬ exBatch.isMatrix := by decide
example : ((ttGatherNd exTensor ⟨[2, 2], fun i => [[1, 2], [0, 1]].getD (i.headD 0) [] |>.getD (i.getD 1 0) 0⟩).map
    fun G => (G.shape, G.get [0], G.get [1])) = Except.ok ([2], 25, 10) := by decide
example : ((ttGatherNd exBatch ⟨[1, 3], fun i => [1, 0, 2].getD (i.getD 1 0) 0⟩).map
    fun G => (G.shape, G.get [0])) = Except.ok ([1], 5 * 1 + 6 * 2) := by decide
example : ttGatherNd exTensor ⟨[1, 2], fun i => [1, 3].getD (i.getD 1 0) 0⟩ = Except.error Err.tf := by rfl

/-! ## C12 -/

/-- **C12.** `flat_inner(tt, sparse)` of a TT-tensor is the sum of the values times the elements of the full
tensor at the coordinates (which may repeat). -/
theorem C12_sparse_tensor {t : TT K} (h : t.WF) (hm : ¬ t.isMatrix) (hb : t.batch = none) (idx : Tensor ℕ)
    (v : Tensor K) (c : ℕ) :
    ∃ F, full t = Except.ok F ∧
      (idx.shape = [c, F.shape.length] → v.shape = [c] → (∀ o < c, Valid F.shape (idxRow idx F.shape.length o)) →
        flatInnerAny (.tt t) (.sparse idx v) =
          Except.ok (scalar (∑ o ∈ Finset.range c, F.get (idxRow idx F.shape.length o) * v.get [o]))) := by
  obtain ⟨row, hr, hl⟩ := h.rawShape_tensor hm
  obtain ⟨F, eF, sF, vF⟩ := full_tensor h hr
  have hbp := bpre_none hb
  refine ⟨F, eF, fun hs hv hval => ?_⟩
  rw [sF] at hs hval ⊢
  have hv' := fun o ho => (validRow_iff hl idx o).1 (hval o ho)
  have hbb : t.isBatch = false := by simp [TT.isBatch, hb]
  unfold flatInnerAny
  simp only [hbb, Bool.false_eq_true, if_false]
  rw [ttSparse_tensor h hr hb (by rw [hs, hbp]; simp [hl]) hv (fun o ho k hk => by
    have := (hv' o ho).2 k hk
    rwa [hbp, List.length_nil, zero_add] at this)]
  simp only [R.ok_bind, R.pure_eq]
  congr 2
  refine Finset.sum_congr rfl fun o ho => ?_
  have ho := Finset.mem_range.1 ho
  congr 1
  rw [idxRow_split hl, vF _ _ (hv' o ho).1 (by
    rw [valid_iff_getD]
    refine ⟨by simp [hl], fun k hk => ?_⟩
    rw [getD_range_map _ _ _ _ (by omega)]
    exact (hv' o ho).2 k (by omega))]
  have e1 : rowBatch t idx o = [] := by simp [rowBatch, hbb]
  rw [e1]
  refine lprod_congr' fun j hj => ?_
  funext a b
  simp only [TT.slice, tIdx]
  rw [getD_range_map _ _ _ _ hj, hbp, List.length_nil, zero_add]

/-- **C12.** The same for TT-matrices. -/
theorem C12_sparse_matrix {t : TT K} (h : t.WF) (hm : t.isMatrix) (hb : t.batch = none) (idx : Tensor ℕ)
    (v : Tensor K) (c : ℕ) :
    ∃ F, full t = Except.ok F ∧
      (idx.shape = [c, 2] → v.shape = [c] → F.shape.prod ≠ 0 →
        (∀ o < c, Valid F.shape [idx.get [o, 0], idx.get [o, 1]]) →
        flatInnerAny (.tt t) (.sparse idx v) =
          Except.ok (scalar (∑ o ∈ Finset.range c, F.get [idx.get [o, 0], idx.get [o, 1]] * v.get [o]))) := by
  obtain ⟨I, J, hr, hI, hJ⟩ := h.rawShape_matrix hm
  obtain ⟨F, eF, sF, vF⟩ := full_matrix h hr
  have hbp := bpre_none hb
  rw [hbp, List.nil_append] at sF
  refine ⟨F, eF, fun hs hv hpos hval => ?_⟩
  rw [sF] at hval hpos
  simp only [List.prod_cons, List.prod_nil, mul_one, ne_eq, mul_eq_zero, not_or] at hpos
  have hbb : t.isBatch = false := by simp [TT.isBatch, hb]
  unfold flatInnerAny
  simp only [hbb, Bool.false_eq_true, if_false]
  rw [ttSparse_matrix h hr hb (by omega) (by omega) hs hv]
  simp only [R.ok_bind, R.pure_eq]
  congr 2
  refine Finset.sum_congr rfl fun o ho => ?_
  obtain ⟨h1, h2, -⟩ := hval o (Finset.mem_range.1 ho)
  have := vF [] _ _ (by rw [hbp]; trivial) h1 h2
  rw [List.nil_append] at this
  rw [this, Nat.mod_eq_of_lt h1, Nat.mod_eq_of_lt h2]

/-- **C12.** Coordinates outside of the matrix are not detected, they wrap around. -/
theorem C12_sparse_matrix_wraps {t : TT K} (h : t.WF) (hm : t.isMatrix) (hb : t.batch = none) (idx : Tensor ℕ)
    (v : Tensor K) (c : ℕ) :
    ∃ F, full t = Except.ok F ∧
      (idx.shape = [c, 2] → v.shape = [c] → F.shape.prod ≠ 0 →
        flatInnerAny (.tt t) (.sparse idx v) =
          Except.ok (scalar (∑ o ∈ Finset.range c,
            F.get [idx.get [o, 0] % F.shape.getD 0 0, idx.get [o, 1] % F.shape.getD 1 0] * v.get [o]))) := by
  obtain ⟨I, J, hr, hI, hJ⟩ := h.rawShape_matrix hm
  obtain ⟨F, eF, sF, vF⟩ := full_matrix h hr
  have hbp := bpre_none hb
  rw [hbp, List.nil_append] at sF
  refine ⟨F, eF, fun hs hv hpos => ?_⟩
  rw [sF] at hpos ⊢
  simp only [List.prod_cons, List.prod_nil, mul_one, ne_eq, mul_eq_zero, not_or] at hpos
  have hbb : t.isBatch = false := by simp [TT.isBatch, hb]
  unfold flatInnerAny
  simp only [hbb, Bool.false_eq_true, if_false]
  rw [ttSparse_matrix h hr hb (by omega) (by omega) hs hv]
  simp only [R.ok_bind, R.pure_eq]
  congr 2
  refine Finset.sum_congr rfl fun o ho => ?_
  have := vF [] (idx.get [o, 0] % I.prod) (idx.get [o, 1] % J.prod) (by rw [hbp]; trivial)
    (Nat.mod_lt _ (by omega)) (Nat.mod_lt _ (by omega))
  rw [List.nil_append] at this
  simp only [List.getD_cons_zero, List.getD_cons_succ]
  rw [this]

/-- **C12.** Coordinates outside of a TT-tensor raise. -/
theorem C12_sparse_tensor_out_of_range {t : TT K} (h : t.WF) (hm : ¬ t.isMatrix) (hb : t.batch = none)
    (idx : Tensor ℕ) (v : Tensor K) (c : ℕ) {F : Tensor K} (hF : full t = Except.ok F)
    (hs : idx.shape = [c, F.shape.length])
    (hbad : ∃ o < c, ¬ Valid F.shape (idxRow idx F.shape.length o)) :
    flatInnerAny (.tt t) (.sparse idx v) = Except.error Err.tf := by
  have hbb : t.isBatch = false := by simp [TT.isBatch, hb]
  have q2 : pyGet idx.shape 0 = Except.ok c := by rw [hs]; rfl
  unfold flatInnerAny ttSparseFlatInner
  simp only [hbb, Bool.false_eq_true, if_false]
  rw [q2, R.ok_bind, if_neg hm, C18_gather_nd_out_of_range h hm idx c hF hs hbad]
  rfl

/-- **C12.** The documented mirrored call `flat_inner(sparse, tt)` raises NotImplementedError, and so do the
documented calls with a dense tensor; batches are rejected with ValueError. -/
theorem C12_unsupported (t : TT K) (idx : Tensor ℕ) (v D : Tensor K) :
    flatInnerAny (.sparse idx v) (.tt t) = Except.error (if t.isBatch then Err.value else Err.notImpl) ∧
    flatInnerAny (.dense D) (.tt t) = Except.error (if t.isBatch then Err.value else Err.notImpl) ∧
    flatInnerAny (.tt t) (.dense D) = Except.error (if t.isBatch then Err.value else Err.notImpl) ∧
    (t.isBatch → flatInnerAny (.tt t) (.sparse idx v) = Except.error Err.value) := by
  cases hb : t.isBatch <;> simp [flatInnerAny, hb]

/-- **C10, dispatch.** `matmul` with a sparse argument raises NotImplementedError for every TT-matrix (the
documentation lists sparse arguments), and ValueError for every batch; dense arguments with a batch raise
ValueError as well. -/
theorem C10_matmul_unsupported (t : TT K) (idx : Tensor ℕ) (v D : Tensor K) :
    matmulAny (.sparse idx v) (.tt t) = Except.error (if t.isBatch then Err.value else Err.notImpl) ∧
    matmulAny (.tt t) (.sparse idx v) = Except.error (if t.isBatch then Err.value else Err.notImpl) ∧
    (t.isBatch → matmulAny (.tt t) (.dense D) = Except.error Err.value) ∧
    (t.isBatch → matmulAny (.dense D) (.tt t) = Except.error Err.value) := by
  cases hb : t.isBatch <;> simp [matmulAny, hb]

example : exBatchMatrix.isBatch = true := by decide

example : exTensor.WF ∧ ¬ exTensor.isMatrix ∧ exTensor.batch = none := by decide
example : (flatInnerAny (.tt exTensor) (.sparse
      ⟨[3, 2], fun i => [[1, 2], [0, 1], [1, 2]].getD (i.headD 0) [] |>.getD (i.getD 1 0) 0⟩
      ⟨[3], fun i => [10, 100, 1000].getD (i.headD 0) 0⟩)).map (fun G => G.get []) =
    Except.ok (25 * 10 + 10 * 100 + 25 * 1000) := by decide
example : exMatrix.WF ∧ exMatrix.isMatrix ∧ exMatrix.batch = none := by decide
example : (flatInnerAny (.tt exMatrix) (.sparse
      ⟨[1, 2], fun i => [3, 1].getD (i.getD 1 0) 0⟩ ⟨[1], fun _ => 10⟩)).map (fun G => G.get []) =
    ((full exMatrix).map fun F => F.get [3, 1] * 10) := by decide

/-! ## C17 -/

/-- **C17.** `cast` acts elementwise on the represented tensor if the conversion is a ring
homomorphism. -/
theorem C17_cast {L : Type} [CommRing L] (f : K →+* L) {t : TT K} (h : t.WF) :
    ∃ c A C, ttCast f t = Except.ok c ∧ c.WF ∧ c.rawShape = t.rawShape ∧ c.ttRanks = t.ttRanks ∧
      c.batch = t.batch ∧ full t = Except.ok A ∧ full c = Except.ok C ∧ C ≃ₜ A.map f := by
  obtain ⟨c, ec, hc, h1, h2, h3, h4⟩ := ttCast_spec f h
  obtain ⟨A, C, eA, eC, hAC⟩ := full_map f h hc h1 h2 (fun p m _ _ => h4 p m)
  exact ⟨c, A, C, ec, hc, h1, h3, h2, eA, eC, hAC⟩

/-- The real number one half times two as a TT-tensor. -/
def exHalf : TT ℚ := ⟨[.ofList [1, 1, 1] [1 / 2], .ofList [1, 1, 1] [2]], [[1, 1]], [1, 1, 1], none⟩

/-- **C17.** For other conversions (here: to integers) the claim is false. -/
theorem C17_cast_truncation_wrong :
    ∃ t : TT ℚ, t.WF ∧ (full t).map (fun F => ⌊F.get [0, 0]⌋) = Except.ok 1 ∧
      (ttCast (fun x : ℚ => ⌊x⌋) t >>= full).map (fun F => F.get [0, 0]) = Except.ok 0 := by
  exact ⟨exHalf, by decide +kernel, by decide +kernel, by decide +kernel⟩

/-! ## C19 -/

/-- **C19.** `renormalize_tt_cores` does not change the represented tensor; if the sum of squares of every
core is at least `epsilon`, all cores of the result have the same norm. For batches this holds for each
element of the batch. -/
theorem C19_renormalize {t : TT ℝ} (h : t.WF) {eps : ℝ} (heps : 0 < eps) :
    ∃ c A C, renormalize t eps = Except.ok c ∧ c.WF ∧ c.rawShape = t.rawShape ∧ c.ttRanks = t.ttRanks ∧
      c.batch = t.batch ∧ full t = Except.ok A ∧ full c = Except.ok C ∧ C ≃ₜ A ∧
      ∀ p, Valid t.batch.toList p → (∀ k < t.ndims, eps ≤ t.coreNormSq p k) →
        ∀ k < t.ndims, ∀ l < t.ndims, c.coreNormSq p k = c.coreNormSq p l := by
  obtain ⟨c, ec, hc, h1, h2, h3, h4, h5⟩ := renormalize_spec h heps
  have hn : c.ndims = t.ndims := ndims_of_rows hc h h1
  have hbp : c.bpre = t.bpre := by unfold TT.bpre; rw [h2]
  obtain ⟨A, C, eA, eC, hAC⟩ := full_map (fun x => x) h hc h1 h2 (fun p m hp hm => h4 p m (hbp ▸ hp) (by
    rw [hn] at hm
    intro k hk
    have := hm k hk
    rwa [modes_of_rows h1] at this))
  refine ⟨c, A, C, ec, hc, h1, h3, h2, eA, eC, hAC, fun p hp hk k hk' l hl => ?_⟩
  obtain ⟨F, hF, hv⟩ := h5 p hp
  rw [hv k hk', hv l hl, max_eq_right (hk k hk'), max_eq_right (hk l hl), div_self (by linarith [hk k hk']),
    div_self (by linarith [hk l hl])]

/-- A tensor with a core of norm `1e-5`, below the square root of the default `epsilon`. -/
noncomputable def exTiny : TT ℝ :=
  ⟨[⟨[1, 1, 1], fun _ => 1 / 10 ^ 5⟩, ⟨[1, 1, 1], fun _ => 1⟩], [[1, 1]], [1, 1, 1], none⟩

theorem exTiny_wf : exTiny.WF where
  pos := by simp [exTiny, TT.ndims]
  ranks_len := by simp [exTiny, TT.ndims]
  rank_first := rfl
  rank_last := rfl
  rank_pos := by
    intro k hk
    have : k ≤ 2 := hk
    interval_cases k <;> decide
  rows := by simp [exTiny]
  rows_len := by simp [exTiny, TT.ndims]
  core_shape := by
    intro k hk
    have : k < 2 := hk
    interval_cases k <;> rfl
  batch_pos := by simp [exTiny]

/-- **C19.** With the default `epsilon = 1e-8` a small nonzero core is not balanced. -/
theorem C19_renormalize_small_core_wrong :
    ∃ t : TT ℝ, t.WF ∧ (∀ k < t.ndims, t.coreNormSq [] k ≠ 0) ∧
      ∃ c, renormalize t (1 / 10 ^ 8) = Except.ok c ∧ c.coreNormSq [] 0 ≠ c.coreNormSq [] 1 := by
  obtain ⟨c, ec, -, -, -, -, -, h5⟩ := renormalize_spec exTiny_wf (eps := 1 / 10 ^ 8) (by norm_num)
  have n0 : exTiny.coreNormSq [] 0 = 1 / 10 ^ 10 := by
    simp [TT.coreNormSq, TT.coreShape, exTiny, TT.rank, TT.modes, TT.core]; norm_num
  have n1 : exTiny.coreNormSq [] 1 = 1 := by
    simp [TT.coreNormSq, TT.coreShape, exTiny, TT.rank, TT.modes, TT.core]
  refine ⟨exTiny, exTiny_wf, fun k hk => ?_, c, ec, ?_⟩
  · have : k < 2 := hk
    interval_cases k
    · rw [n0]; norm_num
    · rw [n1]; norm_num
  · obtain ⟨F, hF, hv⟩ := h5 [] (by simp [exTiny, TT.bpre])
    rw [hv 0 (by simp [exTiny, TT.ndims]), hv 1 (by simp [exTiny, TT.ndims]), n0, n1]
    norm_num
    intro h
    have : (0 : ℝ) < F := hF
    linarith

example : exReal.WF := exReal_wf

end T3f
