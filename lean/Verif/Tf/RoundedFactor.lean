import Verif.Tf.Factor
import Mathlib.Analysis.Real.Sqrt

/-!
# Decompositions and norms in floating point arithmetic

What numerical analysis proves of the algorithms behind `tf.linalg.qr` (Householder reflections; Higham, Accuracy and Stability of Numerical Algorithms,
Theorem 19.4 and equation 19.13): the computed factor `r` is the exact one for a matrix close to the given one, and the computed factor `q` is close to the
exact one for that matrix. The constant `ε` is a modest multiple of the unit roundoff that depends on the size of the matrix. The same is known of the
algorithms behind `tf.linalg.svd` (LAPACK Users' Guide, section 4.9): the computed singular values are the exact ones of a matrix close to the given one, and
the computed singular vectors are close to exact ones of that matrix.
-/

namespace T3f

open Matrix

/-- Frobenius norm. -/
noncomputable def matNorm {n m : ℕ} (A : Matrix (Fin n) (Fin m) ℝ) : ℝ := √(∑ i, ∑ j, A i j ^ 2)

/-- For every matrix `A` with at most `M` elements there is a matrix `P` with orthonormal columns such that `P r` is `A` up to a relative error of `ε`, and
`q` is `P` up to an error of `ε`. -/
def QRRoutine.Backward (qr : QRRoutine) (ε : ℝ) (M : ℕ) : Prop :=
  ∀ n m, n * m ≤ M → ∀ A, ∃ P : Matrix (Fin n) (Fin (min n m)) ℝ, Pᵀ * P = 1 ∧ matNorm (P * qr.r n m A - A) ≤ ε * matNorm A ∧
    matNorm (qr.q n m A - P) ≤ ε

/-- For every matrix `A` with at most `M` elements there are matrices `P` and `T` with orthonormal columns such that `P diag(s) Tᵀ` is `A` up to a relative
error of `ε`, and `u` is `P` and `v` is `T` up to an error of `ε`. The singular values are nonnegative and in non-increasing order. -/
def SVDRoutine.Backward (svd : SVDRoutine) (ε : ℝ) (M : ℕ) : Prop :=
  ∀ n m, n * m ≤ M → ∀ A, ∃ (P : Matrix (Fin n) (Fin (min n m)) ℝ) (T : Matrix (Fin m) (Fin (min n m)) ℝ), Pᵀ * P = 1 ∧ Tᵀ * T = 1 ∧
    (∀ i, 0 ≤ svd.s n m A i) ∧ Antitone (svd.s n m A) ∧ matNorm (P * diagonal (svd.s n m A) * Tᵀ - A) ≤ ε * matNorm A ∧
    matNorm (svd.u n m A - P) ≤ ε ∧ matNorm (svd.v n m A - T) ≤ ε

/-- `tf.norm` of `n` numbers and `x ** 2` of a computer. -/
structure NormRoutine where
  norm : (n : ℕ) → (ℕ → ℝ) → ℝ
  square : ℝ → ℝ

/-- The relative error of the norm of at most `M` numbers and of the square is at most `η`. -/
def NormRoutine.Accurate (nr : NormRoutine) (η : ℝ) (M : ℕ) : Prop :=
  (∀ n ≤ M, ∀ x, |nr.norm n x - √(∑ i ∈ Finset.range n, x i ^ 2)| ≤ η * √(∑ i ∈ Finset.range n, x i ^ 2)) ∧
    ∀ x, |nr.square x - x ^ 2| ≤ η * x ^ 2

/-- The routine without errors. -/
noncomputable def exactNorm : NormRoutine := ⟨fun n x => √(∑ i ∈ Finset.range n, x i ^ 2), fun x => x ^ 2⟩

end T3f
