import Verif.Proofs.Matmul
import Verif.Proofs.DenseMatmul
import Verif.Spec.Examples

/-!
# C09, C10, C14 — matrix products and transposition
-/

namespace T3f

variable {K : Type} [CommRing K]

/-- **C09.** For well-formed TT-matrices (or batches of them) whose inner mode sizes agree and whose
batch sizes are compatible, the product succeeds and represents, for every element of the broadcast
batch, the product of the dense matrices; the ranks are the products of the ranks. The result is a batch
of the broadcast size, except that a batch of size one is turned into a single TT-matrix. -/
theorem C09_matmul (a b : TT K) (ha : a.WF) (hb : b.WF) (I J L : List ℕ)
    (hra : a.rawShape = [I, J]) (hrb : b.rawShape = [J, L]) (hbatch : BCompat a.batch b.batch) :
    ∃ c A B C, ttTTMatmul a b = Except.ok c ∧ c.WF ∧ c.rawShape = [I, L] ∧
      c.batch = squeezed (bcast a.batch b.batch) ∧
      full a = Except.ok A ∧ full b = Except.ok B ∧ full c = Except.ok C ∧
      C.shape = c.batch.toList ++ [I.prod, L.prod] ∧
      (∀ o x y, o < (bcast a.batch b.batch).getD 1 → x < I.prod → y < L.prod →
        C.get (bsel c.batch o ++ [x, y]) = ∑ z ∈ Finset.range J.prod,
          A.get (bsel a.batch o ++ [x, z]) * B.get (bsel b.batch o ++ [z, y])) ∧
      c.ttRanks.length = a.ndims + 1 ∧ ∀ k ≤ a.ndims, c.rank k = a.rank k * b.rank k := by
  obtain ⟨c, e, w, r, bt, nd, rk, en⟩ := ttTTMatmul_spec ha hb hra hrb hbatch
  obtain ⟨A, eA, -, vA⟩ := full_matrix ha hra
  obtain ⟨B, eB, -, vB⟩ := full_matrix hb hrb
  obtain ⟨C, eC, sC, vC⟩ := full_matrix w r
  refine ⟨c, A, B, C, e, w, r, bt, eA, eB, eC, sC, ?_, by rw [w.ranks_len, nd], rk⟩
  intro o x y ho hx hy
  obtain ⟨v1, v2⟩ := bcast_valid hbatch ho
  have v3 : Valid c.bpre (bsel c.batch o) := by
    rw [bt, squeezed_bsel, TT.bpre, bt]
    exact lsel_valid (by rw [squeezed_getD]; exact ho)
  rw [vC _ x y v3 hx hy, en o _ _ ho (unravel_valid hx) (unravel_valid hy)]
  refine Finset.sum_congr rfl fun z hz => ?_
  have hz' : z < J.prod := by simpa using hz
  rw [vA _ x z v1 hx hz', vB _ z y v2 hz' hy]

/-- **C09, no batches.** The dense value of the product is the dense matrix product. -/
theorem C09_matmul_single (a b : TT K) (ha : a.WF) (hb : b.WF) (I J L : List ℕ)
    (hra : a.rawShape = [I, J]) (hrb : b.rawShape = [J, L]) (h1 : a.batch = none) (h2 : b.batch = none) :
    ∃ c A B C S, ttTTMatmul a b = Except.ok c ∧ c.WF ∧ c.rawShape = [I, L] ∧ c.batch = none ∧
      full a = Except.ok A ∧ full b = Except.ok B ∧ full c = Except.ok C ∧
      matmul A B = Except.ok S ∧ C ≃ₜ S := by
  obtain ⟨c, A, B, C, e, w, r, bt, eA, eB, eC, sC, vC, -⟩ :=
    C09_matmul a b ha hb I J L hra hrb (by rw [h1, h2]; trivial)
  have hbt : c.batch = none := by rw [bt, h1, h2]; rfl
  have sA : A.shape = [I.prod, J.prod] := by
    obtain ⟨A', eA', s, -⟩ := full_matrix ha hra
    rw [eA] at eA'; cases eA'; rw [s, bpre_none h1]; rfl
  have sB : B.shape = [J.prod, L.prod] := by
    obtain ⟨B', eB', s, -⟩ := full_matrix hb hrb
    rw [eB] at eB'; cases eB'; rw [s, bpre_none h2]; rfl
  obtain ⟨S, eS, sS, vS⟩ := matmul2 A B _ _ _ sA sB
  have sC' : C.shape = [I.prod, L.prod] := by rw [sC, hbt]; rfl
  refine ⟨c, A, B, C, S, e, w, r, hbt, eA, eB, eC, eS, by rw [sC', sS], fun i hi => ?_⟩
  rw [sC'] at hi
  obtain ⟨x, y, rfl, hx, hy⟩ := (valid_pair _ _ _).1 hi
  have := vC 0 x y (by rw [h1, h2]; simp [bcast]) hx hy
  rw [hbt, h1, h2] at this
  simp only [bsel, List.nil_append] at this
  rw [this, vS]

/-- **C09, errors.** If one of the operands is not a TT-matrix, or the numbers of dimensions differ, or
the batch sizes are incompatible, ValueError is raised. -/
theorem C09_matmul_error (a b : TT K)
    (h : ¬ (a.isMatrix ∧ b.isMatrix) ∨ ¬ BCompat a.batch b.batch ∨ b.ndims ≠ a.ndims) :
    ttTTMatmul a b = Except.error Err.value := by
  unfold ttTTMatmul
  by_cases h1 : a.isMatrix ∧ b.isMatrix
  · by_cases h2 : BCompat a.batch b.batch
    · have h3 : ¬ b.ndims = a.ndims := by tauto
      simp only [require_pos h1, require_pos ((isBroadcast_iff a b).2 h2), require_neg h3, R.ok_bind,
        R.error_bind]
    · simp only [require_pos h1, require_neg (fun h => h2 ((isBroadcast_iff a b).1 h)), R.ok_bind,
        R.error_bind]
  · simp only [require_neg h1, R.error_bind]

/-- **C09.** Inner mode sizes that differ are rejected (by TensorFlow). -/
theorem C09_matmul_inner_mismatch (a b : TT K) (ha : a.WF) (hb : b.WF) (hn : a.ndims = b.ndims)
    (hbatch : BCompat a.batch b.batch) (I J J' L : List ℕ)
    (hra : a.rawShape = [I, J]) (hrb : b.rawShape = [J', L]) (hJ : J ≠ J') :
    ttTTMatmul a b = Except.error Err.tf :=
  ttTTMatmul_inner_error ha hb hn hbatch hra hrb hJ

example : exMatrix.WF ∧ exMatrix'.WF ∧ exMatrix.rawShape = [[2, 2], [1, 2]] ∧
    exMatrix'.rawShape = [[1, 2], [2, 3]] ∧ exBatchMatrix.WF := by decide
example : BCompat exBatchMatrix.batch exMatrix'.batch := by simp [BCompat, exBatchMatrix, exMatrix']
example : ((ttTTMatmul exMatrix exMatrix') >>= full).map (fun F => (F.shape, F.get [3, 4])) =
    Except.ok ([4, 6], 26 * -12 + -9 * 8) := by decide
example : ((ttTTMatmul exBatchMatrix exMatrix') >>= full).map (fun F => F.shape) =
    Except.ok [2, 2, 6] := by decide
example : exMatrix.ndims = exMatrix.ndims ∧ BCompat exMatrix.batch exMatrix.batch ∧
    exMatrix.rawShape = [[2, 2], [1, 2]] ∧ ([1, 2] : List ℕ) ≠ [2, 2] :=
  ⟨rfl, by simp [BCompat, exMatrix], rfl, by decide⟩

/-! ## C10 -/

/-- **C10.** For a well-formed TT-matrix `a` (no batch) with nonzero column mode sizes and a dense matrix
with as many rows as `a` has columns, `tt_dense_matmul` is the product of the dense matrices. -/
theorem C10_tt_dense (a : TT K) (ha : a.WF) (I J : List ℕ) (hra : a.rawShape = [I, J])
    (hb : a.batch = none) (hJ : ∀ n ∈ J, 0 < n) (B : Tensor K) (c : ℕ) (hB : B.shape = [J.prod, c]) :
    ∃ D A S, ttDenseMatmul a B = Except.ok D ∧ D.shape = [I.prod, c] ∧ full a = Except.ok A ∧
      matmul A B = Except.ok S ∧ D ≃ₜ S := by
  have hJ' : 0 < J.prod := by
    rw [Nat.pos_iff_ne_zero, Ne, List.prod_eq_zero_iff]
    intro h; exact absurd (hJ 0 h) (by omega)
  obtain ⟨D, eD, sD, vD⟩ := ttDenseMatmul_spec ha hra hb hJ' hB
  obtain ⟨A, eA, sA, vA⟩ := full_matrix ha hra
  rw [bpre_none hb] at sA vA
  obtain ⟨S, eS, sS, vS⟩ := matmul2 A B _ _ _ sA hB
  refine ⟨D, A, S, eD, sD, eA, eS, by rw [sD, sS], fun i hi => ?_⟩
  rw [sD] at hi
  obtain ⟨x, y, rfl, hx, hy⟩ := (valid_pair _ _ _).1 hi
  have := vD (unravel I x) y (unravel_valid hx) hy
  rw [ravel_unravel hx] at this
  rw [this, vS]
  refine Finset.sum_congr rfl fun z hz => ?_
  rw [← vA [] x z trivial hx (by simpa using hz)]; rfl

/-- **C10.** Dense times TT-matrix. -/
theorem C10_dense_tt (b : TT K) (hb : b.WF) (I J : List ℕ) (hrb : b.rawShape = [I, J])
    (hbatch : b.batch = none) (hI : ∀ n ∈ I, 0 < n) (A : Tensor K) (r : ℕ) (hA : A.shape = [r, I.prod]) :
    ∃ D B S, denseTTMatmul A b = Except.ok D ∧ D.shape = [r, J.prod] ∧ full b = Except.ok B ∧
      matmul A B = Except.ok S ∧ D ≃ₜ S := by
  have hI' : 0 < I.prod := by
    rw [Nat.pos_iff_ne_zero, Ne, List.prod_eq_zero_iff]
    intro h; exact absurd (hI 0 h) (by omega)
  obtain ⟨At, eAt, sAt, vAt⟩ := transpose2 hA
  obtain ⟨bt, ebt, wbt, rbt, bbt, nbt, kbt, vbt⟩ := ttTranspose_spec hb hrb
  obtain ⟨E, eE, sE, vE⟩ := ttDenseMatmul_spec wbt rbt (bbt.trans hbatch) hI' sAt
  obtain ⟨D, eD, sD, vD⟩ := transpose2 sE
  obtain ⟨B, eB, sB, vB⟩ := full_matrix hb hrb
  rw [bpre_none hbatch] at sB vB
  obtain ⟨S, eS, sS, vS⟩ := matmul2 A B _ _ _ hA sB
  refine ⟨D, B, S, ?_, sD, eB, eS, by rw [sD, sS], fun i hi => ?_⟩
  · simp only [denseTTMatmul, eAt, ebt, eE, eD, R.ok_bind]
  · rw [sD] at hi
    obtain ⟨x, y, rfl, hx, hy⟩ := (valid_pair _ _ _).1 hi
    have := vE (unravel J y) x (unravel_valid hy) hx
    rw [ravel_unravel hy] at this
    rw [vD, this, vS]
    refine Finset.sum_congr rfl fun z hz => ?_
    have hz' : z < I.prod := by simpa using hz
    have e := vB [] z y trivial hz' hy
    rw [List.nil_append] at e
    rw [vAt, vbt [] _ _ (by rw [bpre_none hbatch]; trivial), e, mul_comm]

/-- **C10, errors.** A batch or a non-matrix raises ValueError. -/
theorem C10_tt_dense_error (a : TT K) (B : Tensor K) (h : a.batch ≠ none ∨ ¬ a.isMatrix) :
    ttDenseMatmul a B = Except.error Err.value := by
  have : ¬ (a.batch = none ∧ a.isMatrix) := by tauto
  simp only [ttDenseMatmul, require_neg this, R.error_bind]

/-- **C10, errors.** A dense matrix with a wrong number of rows raises TypeError (while building the
message of the intended ValueError). -/
theorem C10_tt_dense_mismatch (a : TT K) (ha : a.WF) (I J : List ℕ) (hra : a.rawShape = [I, J])
    (hb : a.batch = none) (B : Tensor K) (m c : ℕ) (hB : B.shape = [m, c]) (hm : m ≠ J.prod) :
    ttDenseMatmul a B = Except.error Err.type := by
  have hsh : a.getShape = Except.ok [I.prod, J.prod] := by
    rw [getShape_eq ha, denseShape_eq, hra, bpre_none hb]; rfl
  have q1 : pyGet [I.prod, J.prod] 1 = Except.ok J.prod := rfl
  have q3 : pyGet [m, c] 0 = Except.ok m := rfl
  have hmx : a.isMatrix := by simp [TT.isMatrix, hra]
  simp only [ttDenseMatmul, require_pos (show a.batch = none ∧ a.isMatrix from ⟨hb, hmx⟩), hsh,
    R.ok_bind, q1, hB, q3, require_neg (Ne.symm hm), R.error_bind]

/-- **C10, errors.** The same for a dense matrix times a TT-matrix: a wrong number of columns raises TypeError. -/
theorem C10_dense_tt_mismatch (b : TT K) (hb : b.WF) (I J : List ℕ) (hrb : b.rawShape = [I, J])
    (hbatch : b.batch = none) (A : Tensor K) (r m : ℕ) (hA : A.shape = [r, m]) (hm : m ≠ I.prod) :
    denseTTMatmul A b = Except.error Err.type := by
  obtain ⟨c, e, w, rs, bt, -⟩ := ttTranspose_spec hb hrb
  have hl : (List.range A.shape.length).reverse = [1, 0] := by rw [hA]; rfl
  obtain ⟨At, eAt, sAt⟩ : ∃ At, transpose A [1, 0] = Except.ok At ∧ At.shape = [m, r] := by
    refine ⟨_, by rw [transpose, if_pos (by rw [hA]; exact List.reverse_perm (List.range 2))], ?_⟩
    simp [hA]
  rw [denseTTMatmul, hl, eAt, R.ok_bind, e, R.ok_bind, C10_tt_dense_mismatch c w J I rs (bt.trans hbatch) At m r sAt hm]
  rfl

/-- **C10, errors.** A dense matrix times a batch or a TT-tensor raises ValueError. -/
theorem C10_dense_tt_error (b : TT K) (hb : b.WF) (A : Tensor K) (h : b.batch ≠ none ∨ ¬ b.isMatrix) :
    denseTTMatmul A b = Except.error Err.value := by
  rw [denseTTMatmul, transpose, if_pos (List.reverse_perm _), R.ok_bind]
  by_cases hm : b.isMatrix
  · obtain ⟨I, J, hr⟩ : ∃ I J, b.rawShape = [I, J] := by
      have : b.rawShape.length = 2 := by simpa [TT.isMatrix] using hm
      exact List.length_eq_two.1 this
    obtain ⟨c, e, w, rs, bt, -⟩ := ttTranspose_spec hb hr
    rw [e, R.ok_bind, C10_tt_dense_error c _ (Or.inl (by rw [bt]; tauto))]
    rfl
  · rw [ttTranspose, require_neg hm]
    rfl

example : exMatrix.WF ∧ exMatrix.rawShape = [[2, 2], [1, 2]] ∧ exMatrix.batch = none ∧
    (∀ n ∈ ([1, 2] : List ℕ), 0 < n) ∧
    (Tensor.ofList [2, 3] [1, 2, 3, 4, 5, (6 : ℤ)]).shape = [([1, 2] : List ℕ).prod, 3] := by decide
example : (ttDenseMatmul exMatrix (.ofList [2, 3] [1, 2, 3, 4, 5, 6])).map
    (fun F => (F.shape, F.get [3, 1])) = Except.ok ([4, 3], 26 * 2 + -9 * 5) := by decide

/-! ## C14 -/

/-- **C14.** `transpose` of a well-formed TT-matrix (or batch) represents the transposed dense matrix;
the ranks and the batch size do not change, the row and column mode sizes are exchanged. -/
theorem C14_transpose (a : TT K) (ha : a.WF) (I J : List ℕ) (hra : a.rawShape = [I, J]) :
    ∃ c A C, ttTranspose a = Except.ok c ∧ c.WF ∧ c.rawShape = [J, I] ∧ c.batch = a.batch ∧
      c.ttRanks = a.ttRanks ∧ full a = Except.ok A ∧ full c = Except.ok C ∧
      A.shape = a.bpre ++ [I.prod, J.prod] ∧ C.shape = a.bpre ++ [J.prod, I.prod] ∧
      ∀ p x y, Valid a.bpre p → x < I.prod → y < J.prod → C.get (p ++ [y, x]) = A.get (p ++ [x, y]) := by
  obtain ⟨c, e, w, r, bt, nd, rk, en⟩ := ttTranspose_spec ha hra
  obtain ⟨A, eA, sA, vA⟩ := full_matrix ha hra
  obtain ⟨C, eC, sC, vC⟩ := full_matrix w r
  have hbp : c.bpre = a.bpre := by simp [TT.bpre, bt]
  refine ⟨c, A, C, e, w, r, bt, rk, eA, eC, sA, by rw [sC, hbp], fun p x y hp hx hy => ?_⟩
  rw [vC p y x (by rw [hbp]; exact hp) hy hx, vA p x y hp hx hy, en p _ _ hp]

/-- **C14.** Transposing twice gives the same dense matrix, shape, ranks and batch size. -/
theorem C14_transpose_twice (a : TT K) (ha : a.WF) (hm : a.isMatrix) :
    ∃ c d A D, ttTranspose a = Except.ok c ∧ ttTranspose c = Except.ok d ∧ d.WF ∧
      d.rawShape = a.rawShape ∧ d.ttRanks = a.ttRanks ∧ d.batch = a.batch ∧
      full a = Except.ok A ∧ full d = Except.ok D ∧ D ≃ₜ A := by
  obtain ⟨I, J, hr, -, -⟩ := ha.rawShape_matrix hm
  obtain ⟨c, A, C, e, w, r, bt, rk, eA, eC, sA, sC, vC⟩ := C14_transpose a ha I J hr
  obtain ⟨d, C', D, e', w', r', bt', rk', eC', eD, sC', sD, vD⟩ := C14_transpose c w J I r
  rw [eC] at eC'; cases eC'
  have hbp : c.bpre = a.bpre := by simp [TT.bpre, bt]
  refine ⟨c, d, A, D, e, e', w', by rw [r', hr], rk'.trans rk, bt'.trans bt, eA, eD,
    by rw [sD, sA, hbp], fun i hi => ?_⟩
  rw [sD] at hi
  obtain ⟨p, q, rfl, hp, hq⟩ := valid_append_iff.1 hi
  obtain ⟨x, y, rfl, hx, hy⟩ := (valid_pair _ _ _).1 hq
  rw [vD p y x hp hy hx, vC p x y (by rw [← hbp]; exact hp) hx hy]

omit [CommRing K] in
/-- **C14, error.** -/
theorem C14_transpose_error (a : TT K) (h : ¬ a.isMatrix) : ttTranspose a = Except.error Err.value := by
  simp only [ttTranspose, require_neg h, R.error_bind]

example : exBatchMatrix.WF ∧ exBatchMatrix.isMatrix ∧ ¬ exTensor.isMatrix := by decide
example : ((ttTranspose exMatrix) >>= full).map (fun F => (F.shape, F.get [1, 3])) =
    (full exMatrix).map (fun F => ([2, 4], F.get [3, 1])) := by decide

end T3f
