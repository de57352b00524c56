import Verif.Model.Tangent
import Verif.Tf.Autodiff
import Verif.Tf.Gather

/-!
# Riemannian automatic differentiation

Models `/repo/t3f/autodiff.py` in eager mode. `GradientTape` is the parameter `ad` (`Tf/Autodiff.lean`). Data types and the names of operations are not modelled.
-/

namespace T3f

/-- autodiff.py:25-35: the block `i` of `_enforce_gauge_conditions`. -/
def gaugeStep (left : TT ℝ) (deltas : List (Tensor ℝ)) (i : ℕ) : R (Tensor ℝ) := do
  let rr ← pyGet left.ttRanks (i + 1)
  let lc ← pyGet left.cores i
  let q ← reshape lc [none, some rr]
  let delta ← pyGet deltas i
  if i < left.ndims - 1 then do
    let m ← reshape delta [none, some rr]
    let qt ← transpose q [1, 0]
    let c ← matmul qt m
    let c ← matmul q c
    let m ← binop (· - ·) m c
    reshape m (lc.shape.map some)
  else pure delta

/-- autodiff.py:21-36 `_enforce_gauge_conditions`. -/
def enforceGauge (deltas : List (Tensor ℝ)) (left : TT ℝ) : R (List (Tensor ℝ)) := mapRange left.ndims (gaugeStep left deltas)

/-- autodiff.py:39-67 `_is_invariant_to_input_transforms`. If `f_value_1` is zero the quotient is not finite, and the comparison is false. -/
noncomputable def checkInvariant (v1 v2 : ℝ) : R Unit := by
  classical exact require (v1 ≠ 0 ∧ |(v1 - v2) / v1| < 1 / 100000) Err.tf

/-- autodiff.py:117-121, 185-189: the check, if it is wanted. -/
noncomputable def runtimeCheck (func : TT ℝ → R ℝ) (x : TT ℝ) (check : Bool) (v : ℝ) : R Unit :=
  if check then do
    let v2 ← func x
    checkInvariant v v2
  else pure ()

/-- autodiff.py:109-110, 174-175: the blocks of the point itself. -/
def pointDeltas (right : TT ℝ) : R (List (Tensor ℝ)) := do
  let c ← pyGet right.cores 0
  pure (c :: (right.cores.drop 1).map fun cc => zeros cc.shape)

/-- autodiff.py:112-114, 179-182: the function of the blocks. -/
noncomputable def augmentedFunc (qr : QRRoutine) (func : TT ℝ → R ℝ) (x left right : TT ℝ) (d : List (Tensor ℝ)) : R ℝ := do
  let p ← deltasToTangent qr d x (some left) (some right)
  func p

/-- autodiff.py:70-123 `gradients`. -/
noncomputable def gradients (qr : QRRoutine) (ad : GradRoutine) (func : TT ℝ → R ℝ) (x : TT ℝ) (check : Bool) : R (TT ℝ) := do
  let left ← orthogonalize qr x true
  let right ← orthogonalize qr left false
  let deltas ← pointDeltas right
  let (v, g) ← ad.run (augmentedFunc qr func x left right) deltas
  runtimeCheck func x check v
  let deltas ← enforceGauge g left
  deltasToTangent qr deltas x (some left) (some right)

/-- autodiff.py:192-193: the sum of the products of two lists of tensors. -/
def sumProducts (a b : List (Tensor ℝ)) : R ℝ := do
  let products ← (List.zip a b).mapM fun c => do
    let p ← binop (· * ·) c.1 c.2
    pure (reduceSum p)
  pure products.sum

/-- autodiff.py:177-193 `augmented_outer_func`. -/
noncomputable def augmentedOuter (qr : QRRoutine) (ad : GradRoutine) (func : TT ℝ → R ℝ) (x left right vector : TT ℝ) (check : Bool)
    (d : List (Tensor ℝ)) : R ℝ := do
  let (v, g) ← ad.run (augmentedFunc qr func x left right) d
  runtimeCheck func x check v
  let p ← project qr vector x
  let vec ← tangentSpaceToDeltas ⟨p, some 0⟩
  sumProducts g vec

/-- autodiff.py:126-197 `hessian_vector_product`. -/
noncomputable def hessianVectorProduct (qr : QRRoutine) (ad : GradRoutine) (func : TT ℝ → R ℝ) (x vector : TT ℝ) (check : Bool) : R (TT ℝ) := do
  let left ← orthogonalize qr x true
  let right ← orthogonalize qr left false
  let deltas ← pointDeltas right
  let (_, g) ← ad.run (augmentedOuter qr ad func x left right vector check) deltas
  let deltas ← enforceGauge g left
  deltasToTangent qr deltas x (some left) (some right)

end T3f
