import Verif.Proofs.Full
import Verif.Spec.Examples

/-!
# C01 — `full` returns the dense tensor whose entries are products of core slices
-/

namespace T3f

variable {K : Type} [CommRing K]

/-- **C01, tensors.** For every well-formed TT-tensor `full` succeeds, the result has the advertised
shape, and its entry at each multi-index `i` is the matrix product `A₀[i₀] A₁[i₁] ⋯ A_{d-1}[i_{d-1}]`
of the selected slices of the cores. -/
theorem C01_full_tensor (t : TT K) (h : t.WF) (hm : ¬ t.isMatrix) (hb : t.batch = none) :
    ∃ F shape, full t = Except.ok F ∧ t.rawShape = [shape] ∧ F.shape = shape ∧
      ∀ i, Valid shape i → F.get i = lprod t.rank (fun k a b => (t.core k).get [a, i.getD k 0, b]) t.ndims 0 := by
  obtain ⟨F, eF, hs, hv⟩ := full_dense h
  obtain ⟨row, hrow, hlen⟩ := h.rawShape_tensor hm
  have hsh : F.shape = row := by rw [hs]; simp [TT.dense, TT.denseShape, hm, hrow, TT.bpre, hb]
  refine ⟨F, row, eF, hrow, hsh, fun i hi => ?_⟩
  rw [hv i (by rw [hsh]; exact hi)]
  simp only [TT.dense, TT.decode, hm, if_false, TT.entry, TT.bpre, hb]
  rfl

/-- **C01, matrices.** The entry of `full(t)` in the row numbered (row-major) by the multi-index `i`
and the column numbered by `j` is the product of the slices `A_k[i_k, j_k]`. -/
theorem C01_full_matrix (t : TT K) (h : t.WF) (hm : t.isMatrix) (hb : t.batch = none) :
    ∃ F rows cols, full t = Except.ok F ∧ t.rawShape = [rows, cols] ∧ F.shape = [rows.prod, cols.prod] ∧
      ∀ i j, Valid rows i → Valid cols j → F.get [ravel rows i, ravel cols j] =
        lprod t.rank (fun k a b => (t.core k).get [a, i.getD k 0, j.getD k 0, b]) t.ndims 0 := by
  obtain ⟨F, eF, hs, hv⟩ := full_dense h
  obtain ⟨row0, row1, hrow, hl0, hl1⟩ := h.rawShape_matrix hm
  have hsh : F.shape = [row0.prod, row1.prod] := by
    rw [hs]; simp [TT.dense, TT.denseShape, hm, hrow, TT.bpre, hb]
  refine ⟨F, row0, row1, eF, hrow, hsh, fun i j hi hj => ?_⟩
  rw [hv _ (by rw [hsh]; simp [ravel_lt hi, ravel_lt hj])]
  simp only [TT.dense, TT.decode, hm, if_true, TT.entry, TT.bpre, hb, hrow]
  simp only [Option.toList_none, List.length_nil, List.drop_zero, List.getD_cons_zero,
    List.getD_cons_succ, unravel_ravel hi, unravel_ravel hj]
  rfl

/-- **C01, batches of tensors.** -/
theorem C01_full_batch_tensor (t : TT K) (h : t.WF) (hm : ¬ t.isMatrix) (n : ℕ) (hb : t.batch = some n) :
    ∃ F shape, full t = Except.ok F ∧ t.rawShape = [shape] ∧ F.shape = n :: shape ∧
      ∀ o i, o < n → Valid shape i → F.get (o :: i) =
        lprod t.rank (fun k a b => (t.core k).get [o, a, i.getD k 0, b]) t.ndims 0 := by
  obtain ⟨F, eF, hs, hv⟩ := full_dense h
  obtain ⟨row, hrow, hlen⟩ := h.rawShape_tensor hm
  have hsh : F.shape = n :: row := by rw [hs]; simp [TT.dense, TT.denseShape, hm, hrow, TT.bpre, hb]
  refine ⟨F, row, eF, hrow, hsh, fun o i ho hi => ?_⟩
  rw [hv (o :: i) (by rw [hsh]; exact ⟨ho, hi⟩)]
  simp only [TT.dense, TT.decode, hm, if_false, TT.entry, TT.bpre, hb]
  rfl

/-- **C01, batches of matrices.** -/
theorem C01_full_batch_matrix (t : TT K) (h : t.WF) (hm : t.isMatrix) (n : ℕ) (hb : t.batch = some n) :
    ∃ F rows cols, full t = Except.ok F ∧ t.rawShape = [rows, cols] ∧
      F.shape = [n, rows.prod, cols.prod] ∧
      ∀ o i j, o < n → Valid rows i → Valid cols j → F.get [o, ravel rows i, ravel cols j] =
        lprod t.rank (fun k a b => (t.core k).get [o, a, i.getD k 0, j.getD k 0, b]) t.ndims 0 := by
  obtain ⟨F, eF, hs, hv⟩ := full_dense h
  obtain ⟨row0, row1, hrow, hl0, hl1⟩ := h.rawShape_matrix hm
  have hsh : F.shape = [n, row0.prod, row1.prod] := by
    rw [hs]; simp [TT.dense, TT.denseShape, hm, hrow, TT.bpre, hb]
  refine ⟨F, row0, row1, eF, hrow, hsh, fun o i j ho hi hj => ?_⟩
  rw [hv _ (by rw [hsh]; simp [ho, ravel_lt hi, ravel_lt hj])]
  simp only [TT.dense, TT.decode, hm, if_true, TT.entry, TT.bpre, hb, hrow]
  simp only [Option.toList_some, List.length_cons, List.length_nil, List.drop_succ_cons,
    List.drop_zero, List.getD_cons_zero, List.take_succ_cons, List.take_zero,
    List.getD_cons_succ, unravel_ravel hi, unravel_ravel hj]
  rfl

/-! The hypotheses hold for concrete objects, and the values are the expected ones. -/

example : exTensor.WF ∧ ¬ exTensor.isMatrix ∧ exTensor.batch = none := by decide
example : exMatrix.WF ∧ exMatrix.isMatrix ∧ exMatrix.batch = none := by decide
example : exBatch.WF ∧ ¬ exBatch.isMatrix ∧ exBatch.batch = some 2 := by decide
example : exBatchMatrix.WF ∧ exBatchMatrix.isMatrix ∧ exBatchMatrix.batch = some 2 := by decide

example : (full exTensor).map (fun F => (F.shape, F.get [0, 0], F.get [1, 2])) =
    Except.ok ([2, 3], 1 * 1 + 2 * 2, 3 * -1 + 4 * 7) := by decide

end T3f
