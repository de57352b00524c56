import Verif.Model.Multiply

/-!
# The type of the number in `multiply`

Everything else in the model is over the reals. Here one conversion is taken into account: TensorFlow converts a Python float without a stated type to `float32`.
-/

namespace T3f

/-- The number on the right of `multiply`. -/
inductive Number where
  /-- a Python float (also a literal such as `0.1`) -/
  | python (c : ℝ)
  /-- a number with a type of its own (`np.float64`, a tensor) of at most the precision of the TT-object -/
  | typed (c : ℝ)

/-- ops.py:786, 787: what `tf.abs(right)` and `tf.sign(right)` work on. Neither is given a type, so a Python float becomes a `float32`; `f` is that conversion. The
`tf.cast` to the type of the TT-object comes after. -/
def Number.converted (f : ℝ → ℝ) : Number → ℝ
  | python c => f c
  | typed c => c

/-- ops.py:777-797 `multiply` of an object of type `float64` by a number. The arithmetic of type `float64` is that of the reals. -/
noncomputable def multiplyNumber (f : ℝ → ℝ) (a : TT ℝ) (c : Number) : R (TT ℝ) := multiplyScalar a (c.converted f)

/-- tensor_train_base.py:156-164 `__neg__` with `-1.` -/
noncomputable def negNumber (f : ℝ → ℝ) (a : TT ℝ) : R (TT ℝ) := multiplyNumber f a (.python (-1))

end T3f
