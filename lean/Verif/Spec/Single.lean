import Verif.Spec.Precision
import Verif.Tf.Rounding

/-! # Arithmetic of single precision -/

namespace T3f

/-- Rounding to a nearest number of single precision (ties in any direction). -/
structure Nearest32 (rnd : ℝ → ℝ) : Prop where
  single : ∀ x, IsFloat32 (rnd x)
  nearest : ∀ x y, IsFloat32 y → |rnd x - x| ≤ |y - x|

/-- Every operation returns a nearest number of single precision to the exact result, without overflow and underflow. -/
structure Arith.Single (A : Arith) (rnd : ℝ → ℝ) : Prop where
  near : Nearest32 rnd
  unit : A.u = 2⁻¹ ^ 24
  add : ∀ x y, A.add x y = rnd (x + y)
  mul : ∀ x y, A.mul x y = rnd (x * y)
  fma : ∀ x y z, A.fma x y z = rnd (x * y + z)

end T3f
