import Mathlib.Data.Nat.Notation
import Mathlib.Data.Int.Notation

/-! # Integers of fixed size -/

namespace T3f

/-- The value of a sum or product computed with 32 bit integers, as in `tf.reduce_prod` of a shape: known modulo `2 ^ 32` only. -/
def int32 (n : ℕ) : ℤ := Int.bmod n (2 ^ 32)

/-- The value of a sum or product computed with 64 bit integers, as in `np.prod` of a list of integers: known modulo `2 ^ 64` only. -/
def int64 (n : ℤ) : ℤ := Int.bmod n (2 ^ 64)

end T3f
