import Verif.Model.Norm

/-!
# Regularizers

Models `/repo/t3f/regularizers.py`. The module is written for the API of TensorFlow 1: `tf.logging` does not exist in TensorFlow 2, and `tf.name_scope` takes one
argument there. The version of the API is a parameter (`/repo/.travis.yml` tests with TensorFlow 2.4). Names and data types are not modelled.
-/

namespace T3f

/-- The API of the imported module `tensorflow`. -/
inductive TfApi where
  | v1 | v2
  deriving DecidableEq, Repr

/-- The argument `scale`: a Python integer, a Python (or NumPy) real number other than NaN, or a 0-d tensor. -/
inductive ScaleArg where
  | integer (n : ℤ)
  | real (x : ℝ)
  | tensor (x : ℝ)

/-- regularizers.py:28, 63: `tf.logging.info(...)`. -/
def tfLogging : TfApi → R Unit
  | .v1 => pure ()
  | .v2 => throw Err.attr

/-- regularizers.py:33, 68: `tf.name_scope(scope, 'l2_regularizer')`. -/
def tfNameScope2 : TfApi → R Unit
  | .v1 => pure ()
  | .v2 => throw Err.type

/-- A regularizer: a function of a TT-object; `none` is the Python value `None`. -/
abbrev Regularizer := TT ℝ → R (Option (Tensor ℝ))

/-- regularizers.py:21-29, 56-64: the checks of `scale`, and the regularizer that is returned. `penalty` is the function for a given scale. -/
noncomputable def withScale (api : TfApi) (penalty : ℝ → Regularizer) : ScaleArg → R Regularizer
  | .integer _ => throw Err.value
  | .real x => by
      classical exact
        if x < 0 then throw Err.value
        else if x = 0 then do
          tfLogging api
          pure fun _ => pure none
        else pure (penalty x)
  | .tensor x => pure (penalty x)

/-- regularizers.py:31-35: the inner function `l2`. -/
noncomputable def l2Penalty (qr : QRRoutine) (api : TfApi) (scale : ℝ) : Regularizer := fun t => do
  tfNameScope2 api
  let n ← frobeniusNormSquared qr t false
  let p ← binop (· * ·) (scalar scale) n
  pure (some p)

/-- regularizers.py:8-37 `l2_regularizer`. -/
noncomputable def l2Regularizer (qr : QRRoutine) (api : TfApi) (scale : ScaleArg) : R Regularizer := withScale api (l2Penalty qr api) scale

/-- regularizers.py:70-72: the sum of the penalties of the cores. -/
def corePenalties (reg : Tensor ℝ → R (Tensor ℝ)) (t : TT ℝ) : R (Tensor ℝ) :=
  (List.range t.ndims).foldlM (fun penalty i => do
    let c ← pyGet t.cores i
    let p ← reg c
    binop (· + ·) penalty p) (scalar 0)

/-- regularizers.py:66-73: the inner function `regularizer`. -/
def coresPenalty (api : TfApi) (reg : Tensor ℝ → R (Tensor ℝ)) (scale : ℝ) : Regularizer := fun t => do
  tfNameScope2 api
  let penalty ← corePenalties reg t
  let p ← binop (· * ·) (scalar scale) penalty
  pure (some p)

/-- regularizers.py:40-75 `cores_regularizer`. `reg` is a function that returns a tensor or raises (regularizers of cores that return `None` are not modelled). -/
noncomputable def coresRegularizer (api : TfApi) (reg : Tensor ℝ → R (Tensor ℝ)) (scale : ScaleArg) : R Regularizer :=
  withScale api (coresPenalty api reg) scale

end T3f
