import Verif.Proofs.NormErr
import Verif.Proofs.OrthoErrRL
import Verif.Model.Rounded
import Verif.Spec.Kron
/-!
# A QR routine with a backward error, and the run of the orthogonalization on two cores that cancel
-/

namespace T3f

/-- A routine whose first column of `R` is too large by the factor `1 + ε`. -/
def skewR (qr : QRRoutine) (ε : ℝ) : QRRoutine := ⟨qr.q, fun n m A i j => (if (j : ℕ) = 0 then 1 + ε else 1) * qr.r n m A i j⟩

/-- The zero tensor of shape (1, 1) as the product of `[1, 1]` and `[1, -1]`. -/
def exVanish : TT ℤ where
  cores := [.ofList [1, 1, 2] [1, 1], .ofList [2, 1, 1] [1, -1]]
  rawShape := [[1, 1]]
  ttRanks := [1, 2, 1]
  batch := none

/-- The first core of `exVanish` as a matrix, as the code reshapes it. -/
noncomputable def cancelMat : Matrix (Fin 1) (Fin 2) ℝ :=
  (⟨[1, 2], fun idx => (exVanish.toReal.core 0).get (unravel [1, 1, 2] (ravel [1, 2] idx))⟩ : Tensor ℝ).mat [] 1 2

theorem cancelMat_apply (j : Fin 2) : cancelMat 0 j = 1 := by
  have : cancelMat 0 j = (([1, 1] : List ℤ).getD j 0 : ℤ) := by
    fin_cases j <;> rfl
  rw [this]
  fin_cases j <;> simp

theorem skew_run (qr : QRRoutine) (ε : ℝ) : ∃ o, orthoLRF exactRoutines (skewR qr ε) exVanish.toReal = Except.ok o ∧
    (o.core 0).get [0, 0, 0] = qr.q 1 2 cancelMat 0 ⟨0, by decide⟩ ∧
    (o.core 1).get [0, 0, 0] = ∑ l ∈ Finset.range 2, (ofMats [] (min 1 2) 2 fun _ => (skewR qr ε).r 1 2 cancelMat).get [0, l] * (([1, -1] : List ℤ).getD l 0 : ℤ) := by
  refine ⟨_, rfl, ?_, ?_⟩
  · rfl
  · rfl

end T3f
