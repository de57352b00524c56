import Verif.Tf.Tensor
import Mathlib.Analysis.Calculus.Deriv.Basic

/-!
# Automatic differentiation

`tf.GradientTape` is a parameter of the model: a routine that returns the value and the gradient of a function of a list of tensors. Its specification says that it
returns the gradient of every function that has one. What the tape does for functions whose recorded computation does not contain one of the arguments (it returns
`None`) is not modelled.
-/

namespace T3f

/-- The tensors `a_k + t e_k`. -/
def axpy (ds es : List (Tensor ℝ)) (t : ℝ) : List (Tensor ℝ) := List.zipWith (fun a e => ⟨a.shape, fun i => a.get i + t * e.get i⟩) ds es

/-- The sum of all products of corresponding elements. -/
def innerAll (gs es : List (Tensor ℝ)) : ℝ :=
  (List.zipWith (fun g e => ∑ n ∈ Finset.range g.shape.prod, g.get (unravel g.shape n) * e.get (unravel g.shape n)) gs es).sum

/-- `gs` is the gradient of `f` at `ds`: the derivative in every direction is the inner product with it. -/
def IsGradient (f : List (Tensor ℝ) → R ℝ) (ds gs : List (Tensor ℝ)) : Prop :=
  gs.map (·.shape) = ds.map (·.shape) ∧ ∀ es : List (Tensor ℝ), es.map (·.shape) = ds.map (·.shape) →
    ∃ F : ℝ → ℝ, (∀ᶠ t in nhds 0, f (axpy ds es t) = Except.ok (F t)) ∧ HasDerivAt F (innerAll gs es) 0

/-- A routine for the value and the gradient of a function. -/
structure GradRoutine where
  run : (List (Tensor ℝ) → R ℝ) → List (Tensor ℝ) → R (ℝ × List (Tensor ℝ))

/-- Exceptions of the function are passed on; otherwise the value is returned, and the gradient if there is one. -/
def GradRoutine.Correct (ad : GradRoutine) : Prop :=
  ∀ f ds, (∀ e, f ds = Except.error e → ad.run f ds = Except.error e) ∧
    ∀ v gs, f ds = Except.ok v → IsGradient f ds gs →
      ∃ gs', ad.run f ds = Except.ok (v, gs') ∧ gs'.length = gs.length ∧
        ∀ k < gs.length, (gs'.getD k default).shape = (gs.getD k default).shape ∧
          ∀ i, Valid (gs.getD k default).shape i → (gs'.getD k default).get i = (gs.getD k default).get i

end T3f
