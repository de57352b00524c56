import Verif.Proofs.Norm
import Verif.Proofs.Inner
import Verif.Spec.Kron

/-!
# C13: Frobenius norms
-/

namespace T3f

/-- **C13.** `frobenius_norm_squared`, with or without `differentiable`, is for every element of the batch the sum of the squares of the dense
values. `qr` is any correct QR routine. -/
theorem C13_frobenius_norm_squared {qr : QRRoutine} (hqr : qr.Correct) {t : TT ℝ} (h : t.WF) (hm : t.ModesPos) (differentiable : Bool) :
    ∃ F A s, frobeniusNormSquared qr t differentiable = Except.ok F ∧ full t = Except.ok A ∧ A.shape = t.batch.toList ++ s ∧
      F.shape = t.batch.toList ∧
      ∀ p, Valid t.batch.toList p → F.get p = ∑ n ∈ Finset.range s.prod, A.get (p ++ unravel s n) ^ 2 := by
  obtain ⟨A, eA, sA, vA⟩ := full_ok h
  obtain ⟨F, e, sF, vF⟩ : ∃ F, frobeniusNormSquared qr t differentiable = Except.ok F ∧ F.shape = t.bpre ∧
      ∀ p, Valid t.bpre p → F.get p = entryDot t t p := by
    cases differentiable with
    | false => exact frobeniusQR_ok hqr h hm
    | true => exact frobeniusDiff_spec h
  refine ⟨F, A, restShape t.rawShape, e, eA, sA, sF, fun p hp => ?_⟩
  rw [vF p hp]
  exact (dense_norm h eA hp).symm

/-- **C13.** `frobenius_norm` is `sqrt(‖t‖² + epsilon)` for every element of the batch. -/
theorem C13_frobenius_norm {qr : QRRoutine} (hqr : qr.Correct) {t : TT ℝ} (h : t.WF) (hm : t.ModesPos) {eps : ℝ} (he : 0 ≤ eps)
    (differentiable : Bool) :
    ∃ F A s, frobeniusNorm qr t eps differentiable = Except.ok F ∧ full t = Except.ok A ∧ A.shape = t.batch.toList ++ s ∧
      F.shape = t.batch.toList ∧
      ∀ p, Valid t.batch.toList p → 0 ≤ F.get p ∧ F.get p ^ 2 = ∑ n ∈ Finset.range s.prod, A.get (p ++ unravel s n) ^ 2 + eps := by
  obtain ⟨F, A, s, e, eA, sA, sF, vF⟩ := C13_frobenius_norm_squared hqr h hm differentiable
  refine ⟨F.map fun x => Real.sqrt (x + eps), A, s, by unfold frobeniusNorm; rw [e]; rfl, eA, sA, sF, fun p hp => ⟨Real.sqrt_nonneg _, ?_⟩⟩
  show Real.sqrt (F.get p + eps) ^ 2 = _
  rw [vF p hp, Real.sq_sqrt (add_nonneg (Finset.sum_nonneg fun _ _ => sq_nonneg _) he)]

example : (∃ qr : QRRoutine, qr.Correct) ∧ exTensor3.toReal.WF ∧ exTensor3.toReal.ModesPos ∧ exBatchMatrix.toReal.WF ∧
    exBatchMatrix.toReal.ModesPos ∧ (0 : ℝ) ≤ 1 / 100000 :=
  ⟨qrRoutine_exists, TT.WF.toReal (by decide), by simp [TT.ModesPos, TT.toReal, exTensor3], TT.WF.toReal (by decide),
    by simp [TT.ModesPos, TT.toReal, exBatchMatrix], by norm_num⟩

/-- **C13.** With the default `epsilon` the norm of a zero tensor is not zero; in general the result is not below `sqrt(epsilon)`. -/
theorem C13_frobenius_norm_floor {qr : QRRoutine} (hqr : qr.Correct) {t : TT ℝ} (h : t.WF) (hm : t.ModesPos) {eps : ℝ} (he : 0 < eps)
    (differentiable : Bool) :
    ∃ F, frobeniusNorm qr t eps differentiable = Except.ok F ∧ ∀ p, Valid t.batch.toList p → 0 < F.get p ∧ eps ≤ F.get p ^ 2 := by
  obtain ⟨F, A, s, e, -, -, -, v⟩ := C13_frobenius_norm hqr h hm he.le differentiable
  refine ⟨F, e, fun p hp => ?_⟩
  obtain ⟨h1, h2⟩ := v p hp
  have h3 : eps ≤ F.get p ^ 2 := by
    rw [h2]; have : 0 ≤ ∑ n ∈ Finset.range s.prod, A.get (p ++ unravel s n) ^ 2 := Finset.sum_nonneg fun _ _ => sq_nonneg _
    linarith
  refine ⟨lt_of_le_of_ne h1 fun h0 => ?_, h3⟩
  rw [← h0] at h3
  norm_num at h3
  linarith

end T3f
