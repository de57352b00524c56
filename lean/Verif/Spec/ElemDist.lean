import Verif.Tf.Index
import Mathlib.Analysis.Real.Sqrt
import Mathlib.Algebra.BigOperators.Group.Finset.Basic

/-! # Frobenius norm and distance of tensors given by their elements -/

namespace T3f

/-- Frobenius norm of the tensor of shape `s` with the elements `X i`. -/
noncomputable def elemNorm (s : List ℕ) (X : List ℕ → ℝ) : ℝ := √(∑ n ∈ Finset.range s.prod, X (unravel s n) ^ 2)

/-- Frobenius distance of the tensors of shape `s` with the elements `X i` and `Y i`. -/
noncomputable def elemDist (s : List ℕ) (X Y : List ℕ → ℝ) : ℝ := √(∑ n ∈ Finset.range s.prod, (X (unravel s n) - Y (unravel s n)) ^ 2)

end T3f
