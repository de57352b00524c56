import Mathlib.LinearAlgebra.Matrix.Symmetric

/-! # The symmetric matrix with a given lower triangle -/

namespace T3f

/-- The symmetric matrix that has the lower triangle of `M`. -/
def lowerSym {n : ℕ} (M : Matrix (Fin n) (Fin n) ℝ) : Matrix (Fin n) (Fin n) ℝ := Matrix.of fun i j => if j ≤ i then M i j else M j i

end T3f
