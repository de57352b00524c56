import Verif.Proofs.Add
import Verif.Spec.Examples

/-!
# C04, C05 — `add` is elementwise addition; when it fails
-/

namespace T3f

variable {K : Type} [CommRing K]

/-- **C04.** For well-formed operands of equal raw shape with at least two dimensions and supported
batch sizes, `add` succeeds, and the dense value of the sum is the elementwise sum (with numpy
broadcasting over the batch axis) of the dense values. The ranks of the sum are
`1, ra_1 + rb_1, ..., ra_{d-1} + rb_{d-1}, 1`. -/
theorem C04_add (a b : TT K) (ha : a.WF) (hb : b.WF) (hd : 2 ≤ a.ndims) (hr : a.rawShape = b.rawShape)
    (hbatch : AddBatches a.batch b.batch) :
    ∃ c A B C S, add a b = Except.ok c ∧ c.WF ∧ c.rawShape = a.rawShape ∧
      full a = Except.ok A ∧ full b = Except.ok B ∧ full c = Except.ok C ∧
      binop (· + ·) A B = Except.ok S ∧ C ≃ₜ S ∧
      c.ttRanks.length = a.ndims + 1 ∧ c.rank 0 = 1 ∧ c.rank a.ndims = 1 ∧
      ∀ k, 1 ≤ k → k < a.ndims → c.rank k = a.rank k + b.rank k := by
  obtain ⟨c, e, w, r, bt, nd, rk, en⟩ := add_spec ha hb hd hr hbatch
  obtain ⟨A, B, C, S, eA, eB, eC, eS, eqv⟩ := full_binop (· + ·) ha hb w hr r bt en
  refine ⟨c, A, B, C, S, e, w, r, eA, eB, eC, eS, eqv, by rw [w.ranks_len, nd], w.rank_first, ?_, ?_⟩
  · rw [← nd]; exact w.rank_last
  · intro k h1 h2
    rw [rk k h2.le, addRk, if_neg (by omega)]

/-- **C04, non-batch operands, entry by entry.** -/
theorem C04_add_entries (a b : TT K) (ha : a.WF) (hb : b.WF) (hd : 2 ≤ a.ndims)
    (hr : a.rawShape = b.rawShape) (h1 : a.batch = none) (h2 : b.batch = none) :
    ∃ c A B C, add a b = Except.ok c ∧ full a = Except.ok A ∧ full b = Except.ok B ∧
      full c = Except.ok C ∧ C.shape = A.shape ∧ C.shape = B.shape ∧
      ∀ i, Valid C.shape i → C.get i = A.get i + B.get i := by
  obtain ⟨c, A, B, C, S, e, w, r, eA, eB, eC, eS, eqv, _⟩ := C04_add a b ha hb hd hr (Or.inl ⟨h1, h2⟩)
  obtain ⟨A', eA', sA⟩ := full_dense ha
  obtain ⟨B', eB', sB⟩ := full_dense hb
  rw [eA] at eA'; rw [eB] at eB'; cases eA'; cases eB'
  have hAB : A.shape = B.shape := by
    rw [sA.1, sB.1]
    change a.denseShape = b.denseShape
    rw [denseShape_eq, denseShape_eq, hr]; simp [TT.bpre, h1, h2]
  obtain ⟨S', eS', sS, vS⟩ := binop_ok (· + ·) A B A.shape (by rw [hAB, bshape_self])
  rw [eS] at eS'; cases eS'
  have hCA : C.shape = A.shape := eqv.1.trans sS
  refine ⟨c, A, B, C, e, eA, eB, eC, hCA, hCA.trans hAB, fun i hi => ?_⟩
  rw [eqv.2 i hi, vS, bproj_valid (hCA ▸ hi), bproj_valid (hAB ▸ hCA ▸ hi)]

example : AddBatches exTensor.batch exTensor'.batch ∧ exTensor.rawShape = exTensor'.rawShape ∧
    exTensor.WF ∧ exTensor'.WF ∧ 2 ≤ exTensor.ndims := ⟨Or.inl ⟨rfl, rfl⟩, by decide⟩
example : AddBatches exBatch.batch exBatch1.batch ∧ exBatch.rawShape = exBatch1.rawShape ∧
    exBatch.WF ∧ exBatch1.WF ∧ 2 ≤ exBatch.ndims :=
  ⟨Or.inr (Or.inr (Or.inr (Or.inl ⟨2, rfl, rfl⟩))), by decide⟩
example : ((add exTensor exTensor') >>= full).map (fun F => (F.shape, F.get [1, 2])) =
    Except.ok ([2, 3], (3 * -1 + 4 * 7) + (-2 * 9)) := by decide

/-! ## C05 -/

omit [CommRing K] in
/-- **C05.** Exactly one operand is a TT-matrix. -/
theorem C05_add_mixed_matrix [CommRing K] (a b : TT K) (h : ¬ (a.isMatrix ↔ b.isMatrix)) :
    add a b = Except.error Err.value := by
  simp only [add, require_neg h, R.error_bind]

/-- **C05.** Different raw shapes. -/
theorem C05_add_shape_mismatch (a b : TT K) (h : a.rawShape ≠ b.rawShape) :
    add a b = Except.error Err.value := by
  by_cases hm : a.isMatrix ↔ b.isMatrix
  · simp only [add, require_pos hm, require_neg h, R.error_bind, R.ok_bind]
  · exact C05_add_mixed_matrix a b hm

/-- **C05.** Incompatible batch sizes. -/
theorem C05_add_batch_mismatch (a b : TT K) (m n : ℕ) (ha : a.batch = some m) (hb : b.batch = some n)
    (h : m ≠ n) (hm : m ≠ 1) (hn : n ≠ 1) : add a b = Except.error Err.value := by
  by_cases h1 : a.rawShape = b.rawShape
  · have hmx : a.isMatrix ↔ b.isMatrix := by unfold TT.isMatrix; rw [h1]
    have hbc : ¬ isBatchBroadcastingPossible a b = true := by
      simp [isBatchBroadcastingPossible, ha, hb, h, hm, hn]
    simp only [add, require_pos hmx, require_pos h1, require_neg hbc, R.error_bind, R.ok_bind]
  · exact C05_add_shape_mismatch a b h1

/-- **C05 (undocumented failure).** `TensorTrain + TensorTrainBatch` always raises ValueError, as does
`TensorTrainBatch` of size one `+ TensorTrain`, although batch broadcasting is announced. -/
theorem C05_add_broken_broadcast (a b : TT K)
    (h : (a.batch = none ∧ ∃ n, b.batch = some n) ∨ (a.batch = some 1 ∧ b.batch = none)) :
    add a b = Except.error Err.value := by
  by_cases h1 : a.rawShape = b.rawShape
  · have hmx : a.isMatrix ↔ b.isMatrix := by unfold TT.isMatrix; rw [h1]
    have hbc : isBatchBroadcastingPossible a b = true := by
      rcases h with ⟨h2, n, h3⟩ | ⟨h2, h3⟩ <;> simp [isBatchBroadcastingPossible, h2, h3]
    have hbb : (a.isBatch || b.isBatch) = true := by
      rcases h with ⟨h2, n, h3⟩ | ⟨h2, h3⟩ <;> simp [TT.isBatch, h2, h3]
    have hs : addBatchSize a b = Except.error Err.value := by
      rcases h with ⟨h2, n, h3⟩ | ⟨h2, h3⟩ <;> simp [addBatchSize, TT.lazyBatchSize, h2, h3]
    simp only [add, require_pos hmx, require_pos h1, require_pos hbc, R.ok_bind, hbb, if_true,
      addBatchMatrixCores, addBatchTensorCores, hs, R.error_bind, ite_self]
  · exact C05_add_shape_mismatch a b h1

/-- **C05 (undocumented failure).** One-dimensional operands cannot be added. -/
theorem C05_add_one_dim (a b : TT K) (ha : a.WF) (hb : b.WF) (hd : a.ndims = 1) :
    add a b = Except.error Err.value := by
  by_cases h1 : a.rawShape = b.rawShape
  · exact add_one_dim ha hb hd h1
  · exact C05_add_shape_mismatch a b h1

/-- **C05.** `add` succeeds exactly in the situations of `C04_add`; in all others it raises
ValueError. -/
theorem C05_add_ok_iff (a b : TT K) (ha : a.WF) (hb : b.WF) :
    ((∃ c, add a b = Except.ok c) ↔
      2 ≤ a.ndims ∧ a.rawShape = b.rawShape ∧ AddBatches a.batch b.batch) ∧
    ((¬ ∃ c, add a b = Except.ok c) → add a b = Except.error Err.value) := by
  have bad : ¬ (2 ≤ a.ndims ∧ a.rawShape = b.rawShape ∧ AddBatches a.batch b.batch) →
      add a b = Except.error Err.value := by
    intro h
    by_cases hd : 2 ≤ a.ndims
    · by_cases hr : a.rawShape = b.rawShape
      · have hB : ¬ AddBatches a.batch b.batch := fun h' => h ⟨hd, hr, h'⟩
        rcases h1 : a.batch with _ | m <;> rcases h2 : b.batch with _ | n
        · exact absurd (Or.inl ⟨h1, h2⟩) hB
        · exact C05_add_broken_broadcast a b (Or.inl ⟨h1, n, h2⟩)
        · have : m = 1 := by
            by_contra hm
            exact hB (Or.inr (Or.inr (Or.inr (Or.inr ⟨m, hm, h1, h2⟩))))
          exact C05_add_broken_broadcast a b (Or.inr ⟨this ▸ h1, h2⟩)
        · refine C05_add_batch_mismatch a b m n h1 h2 ?_ ?_ ?_ <;> rintro rfl <;> apply hB
          · exact Or.inr (Or.inl ⟨m, h1, h2⟩)
          · exact Or.inr (Or.inr (Or.inl ⟨n, h1, h2⟩))
          · exact Or.inr (Or.inr (Or.inr (Or.inl ⟨m, h1, h2⟩)))
      · exact C05_add_shape_mismatch a b hr
    · have := ha.pos
      exact C05_add_one_dim a b ha hb (by omega)
  have good : 2 ≤ a.ndims ∧ a.rawShape = b.rawShape ∧ AddBatches a.batch b.batch →
      ∃ c, add a b = Except.ok c := by
    rintro ⟨h1, h2, h3⟩
    obtain ⟨c, _, _, _, _, e, _⟩ := C04_add a b ha hb h1 h2 h3
    exact ⟨c, e⟩
  constructor
  · constructor
    · rintro ⟨c, e⟩
      by_contra h
      rw [bad h] at e
      exact absurd e (by simp)
    · exact good
  · intro h
    exact bad fun h' => h (good h')

/-- A one-dimensional tensor. -/
def exTensor1 : TT ℤ where
  cores := [.ofList [1, 3, 1] [1, 2, 3]]
  rawShape := [[3]]
  ttRanks := [1, 1]
  batch := none

example : exTensor1.WF ∧ exTensor1.ndims = 1 := by decide
example : exTensor.batch = none ∧ ∃ n, exBatch.batch = some n := ⟨rfl, 2, rfl⟩
example : ¬ (exMatrix.isMatrix ↔ exTensor.isMatrix) := by decide
example : exTensor.rawShape ≠ exTensor3.rawShape := by decide

end T3f
