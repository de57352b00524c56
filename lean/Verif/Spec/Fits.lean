import Verif.Spec.Entry

/-! # Arrays that are broadcast against the cores -/

namespace T3f

/-- An array of shape `σ` can be broadcast to shape `s`: it has at most as many axes, and aligned at the right end every axis of `σ` has length one or the length of
the axis of `s`. -/
def Fits (σ s : List ℕ) : Prop :=
  σ.length ≤ s.length ∧ ∀ t < σ.length, σ.getD t 0 = 1 ∨ σ.getD t 0 = s.getD (t + (s.length - σ.length)) 0

/-- The entry of an array that meets the entries of a core with batch index `p` and mode indices `m`, when the array has length one along the rank axes. -/
def arrayAt (A : Tensor ℝ) (p m : List ℕ) : ℝ := A.get (bproj A.shape (p ++ 0 :: (m ++ [0])))

end T3f
