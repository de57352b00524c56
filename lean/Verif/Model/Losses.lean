import Verif.Model.Norm
import Verif.Model.Inner
import Verif.Model.Multiply

/-!
# Functions to differentiate

Functions of a TT-object that users pass to `gradients` and `hessian_vector_product`, written with the operations of the library. The objects are not batches, so
the tensors returned by `flat_inner`, `bilinear_form` and `frobenius_norm_squared` have shape `[]`.
-/

namespace T3f

/-- autodiff_test.py:29-30, 64-65: `0.5 * ops.flat_inner(x, w) ** 2`. -/
noncomputable def halfSquareInner (w x : TT ℝ) : R ℝ := do
  let c ← flatInner x w
  pure (0.5 * c.get [] ^ 2)

/-- autodiff_test.py:35-36, 73-74: `ops.bilinear_form(A, x, x)`. -/
def quadraticLoss (A x : TT ℝ) : R ℝ := do
  let c ← bilinearForm A x x
  pure (c.get [])

/-- The function of `docs/tutorials/riemannian.ipynb`, `0.5 * t3f.frobenius_norm_squared(x - w, differentiable=True)` (the tutorial does not differentiate it, and
calls it without `differentiable`). -/
noncomputable def halfDistance (qr : QRRoutine) (w x : TT ℝ) : R ℝ := do
  let d ← sub x w
  let c ← frobeniusNormSquared qr d true
  pure (0.5 * c.get [])

end T3f
