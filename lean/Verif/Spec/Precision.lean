import Mathlib.Data.Real.Basic
import Mathlib.Tactic.NormNum
import Mathlib.Tactic.Positivity

/-! # Numbers of single precision -/

namespace T3f

/-- A number with a mantissa of 24 bits. Every finite `float32` is one (the bounds of the exponent are left out, so there are more). -/
def IsFloat32 (x : ℝ) : Prop := ∃ m e : ℤ, |m| < 2 ^ 24 ∧ x = m * (2 : ℝ) ^ e

/-- A way to convert numbers to single precision: the result has single precision, and numbers of single precision are kept. -/
structure ToFloat32 (f : ℝ → ℝ) : Prop where
  single : ∀ x, IsFloat32 (f x)
  keep : ∀ x, IsFloat32 x → f x = x

end T3f
