import Verif.Model.Multiply

/-! # `ops.multiply` by an array -/

namespace T3f

/-- ops.py:777-797 and 914-920 `multiply(tt, right)` for a `right` that is not a TT object. The code assumes that `right` is a number but does not check it; for an
array the two multiplications of every core (`fact * core`, `core * sign`) are elementwise with broadcasting, and the constructor is called with the old raw shape,
TT-ranks and batch size. The scalars are the reals. -/
noncomputable def multiplyArray (a : TT ℝ) (right : Tensor ℝ) : R (TT ℝ) := do
  let fact := right.map fun x => |x| ^ (1 / (a.ndims : ℝ))
  let sign := right.map fun x => ((SignType.sign x : SignType) : ℝ)
  let cores ← a.cores.mapM (binop (· * ·) fact)
  let c0 ← pyGet cores 0
  let c0 ← binop (· * ·) c0 sign
  mkLike a.batch (cores.set 0 c0) a.rawShape a.ttRanks

end T3f
