import Verif.Model.Full
import Verif.Spec.Tangent
import Mathlib.Analysis.Calculus.Deriv.Basic

/-! # Functions of the elements of a tensor, and their derivatives -/

namespace T3f

/-- `func` returns the value of the function `φ` of the elements, for all TT-objects with the shape of `x`. -/
structure ElementFunction (x : TT ℝ) (func : TT ℝ → R ℝ) (φ : (List ℕ → ℝ) → ℝ) : Prop where
  /-- only the elements of the tensor matter -/
  ext : ∀ f g, (∀ i, Valid x.dense.shape i → f i = g i) → φ f = φ g
  value : ∀ y Y, y.WF → y.batch = none → y.rawShape = x.rawShape → full y = Except.ok Y → func y = Except.ok (φ Y.get)

/-- `g` is the gradient of `φ` at `X`: the derivative in every direction is the inner product with `g`. -/
def GradAt (s : List ℕ) (φ : (List ℕ → ℝ) → ℝ) (X g : List ℕ → ℝ) : Prop :=
  ∀ e : List ℕ → ℝ, HasDerivAt (fun t : ℝ => φ (fun i => X i + t * e i)) (dot s g e) 0

/-- `grad` is the gradient of `φ` near `X` (on every line through `X`), and `H v` is the derivative at `X` of the inner product of the gradient and `v`: the
product of the Hessian and `v`. -/
structure HessAt (s : List ℕ) (φ : (List ℕ → ℝ) → ℝ) (grad : (List ℕ → ℝ) → List ℕ → ℝ) (X : List ℕ → ℝ) (H : (List ℕ → ℝ) → List ℕ → ℝ) : Prop where
  near : ∀ e : List ℕ → ℝ, ∀ᶠ t in nhds (0 : ℝ), GradAt s φ (fun i => X i + t * e i) (grad fun i => X i + t * e i)
  hess : ∀ v e : List ℕ → ℝ, HasDerivAt (fun t : ℝ => dot s (grad fun i => X i + t * e i) v) (dot s (H v) e) 0

end T3f
