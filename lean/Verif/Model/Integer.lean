import Verif.Model.Add
import Verif.Model.Multiply
import Mathlib.Data.BitVec

/-!
# TT objects with integer cores

`TensorTrain` accepts cores of any data type (tensor_train.py:38-48), so a user can have TT objects of `tf.int32` or `tf.int64`. Their
elements are modelled by `BitVec w` with `w = 32, 64`: sums and products of the kernels of TensorFlow wrap around modulo `2 ^ w`, and
`BitVec.toInt` is the number a user sees. The functions of the library that only add, multiply and rearrange elements (`add`, `multiply` of two
TT objects, `matmul`, `transpose`, `full`, `flat_inner`, ...) are the definitions of the other files for the ring `BitVec w`. Multiplication by a
number is different.
-/

namespace T3f

variable {w : ℕ}

/-- `tf.pow(x, y)` with an integer tensor `x` and a Python float `y`: the number cannot be converted to the data type of `x`, TypeError. -/
def powIntFloat (_x : BitVec w) (_y : ℚ) : R (BitVec w) := Except.error Err.type

/-- ops.py:777-797 and 914-920 `multiply` of a TT object with integer cores by a number `c` (given here by the integer that the casts to the data
type of the cores produce): the exponent `1.0 / ndims` of line 786 is a Python float. -/
def multiplyNumberInt (a : TT (BitVec w)) (c : ℤ) : R (TT (BitVec w)) := do
  let fact ← powIntFloat (BitVec.ofNat w c.natAbs) (1 / (a.ndims : ℚ))
  let cores := a.cores.map (smul fact)
  let c0 ← pyGet cores 0
  let cores := cores.set 0 (c0.map (· * BitVec.ofInt w c.sign))
  mkLike a.batch cores a.rawShape a.ttRanks

/-- tensor_train_base.py:144-154 `__sub__` of TT objects with integer cores. -/
def subInt (a b : TT (BitVec w)) : R (TT (BitVec w)) := do add a (← multiplyNumberInt b (-1))

/-- tensor_train_base.py:156-164 `__neg__` of a TT object with integer cores. -/
def negInt (a : TT (BitVec w)) : R (TT (BitVec w)) := multiplyNumberInt a (-1)

end T3f
