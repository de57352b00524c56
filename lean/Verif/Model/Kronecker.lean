import Verif.Model.TensorTrain
import Verif.Tf.Linalg
import Mathlib.Data.Real.Sign

/-!
# Kronecker-factorized matrices

Models `/repo/t3f/kronecker.py`. Static shapes are known in eager mode, so `shapes_defined` is true.
-/

namespace T3f

/-- kronecker.py:232-243 `_is_kron`. `max` of an empty sequence raises ValueError. -/
def isKron {K : Type} (t : TT K) : R Bool :=
  if t.isMatrix then
    match t.ttRanks.max? with
    | none => Except.error Err.value
    | some m => Except.ok (decide (m = 1))
  else Except.ok false

/-- kronecker.py:27-44, 80-97, 136-153, 194-211: the checks made by all four functions. Returns the row sizes. -/
def kronCheck {K : Type} (t : TT K) : R (List ℕ) := do
  let k ← isKron t
  require (k = true) Err.value
  let i ← pyGet t.rawShape 0
  let j ← pyGet t.rawShape 1
  require (i = j) Err.value
  pure i

/-- kronecker.py:51-54, 106-109, 160-164, 218-222: `core[0, :, :, 0]`, for batches `core[:, 0, :, :, 0]`. -/
def kronCore {K : Type} (t : TT K) (k : ℕ) : R (Tensor K) := do
  let core ← pyGet t.cores k
  if t.isBatch then getItem core [.all, .int 0, .all, .all, .int 0]
  else getItem core [.int 0, .all, .all, .int 0]

/-- kronecker.py:8-58 `determinant`. `tf.pow` of a negative number with an integral exponent is the integer power, as for
the power function of Mathlib. (The product of line 46 is computed with 32 bit integers and
then converted to the data type of the matrix, which is exact for `float64`. Not modelled: factors of size zero, where `core_pow` is not a number,
and, for matrices of size `2 ^ 31` or more, negative powers of zero and broken powers of negative numbers.) -/
noncomputable def kronDeterminant (t : TT ℝ) : R (Tensor ℝ) := do
  let is ← kronCheck t
  let pows : ℝ := (int32 is.prod : ℤ)
  forRange (fun k det => do
    let core ← kronCore t k
    let coreDet ← linalgDet core
    let n ← pyGet is k
    let corePow := pows / (n : ℝ)
    binop (· * ·) det (coreDet.map (· ^ corePow))) 0 t.ndims (scalar 1)

/-- kronecker.py:61-114 `slog_determinant`. The logarithm may be `-inf`. (The same cases as for `determinant` are not modelled.) -/
noncomputable def kronSlogDeterminant (t : TT ℝ) : R (Tensor ℝ × Tensor EReal) := do
  let is ← kronCheck t
  let pows : ℝ := (int32 is.prod : ℤ)
  forRange (fun k (s : Tensor ℝ × Tensor EReal) => do
    let core ← kronCore t k
    let coreDet ← linalgDet core
    let n ← pyGet is k
    let corePow := pows / (n : ℝ)
    let logdet ← binop (· + ·) s.2 (coreDet.map fun x => tfLog |x| * ((corePow : ℝ) : EReal))
    let sign ← binop (· * ·) s.1 (coreDet.map fun x => Real.sign x ^ corePow)
    pure (sign, logdet)) 0 t.ndims (scalar 1, scalar 0)

/-- kronecker.py:155-171, 213-229: apply `f` to the matrix of each core and put the results in cores again. -/
noncomputable def kronMap (f : Tensor ℝ → R (Tensor ℝ)) (t : TT ℝ) : R (TT ℝ) := do
  let _ ← kronCheck t
  let cores ← mapRange t.ndims fun k => do
    let core ← kronCore t k
    let x ← f core
    if t.isBatch then do
      let y ← expandDims x 1
      expandDims y y.shape.length
    else do
      let y ← expandDims x 0
      expandDims y y.shape.length
  if t.isBatch then mkBatch cores (.shapes t.rawShape) (some t.ttRanks) none
  else mkTT cores (.shapes t.rawShape) (some t.ttRanks)

/-- kronecker.py:117-171 `inv`. -/
noncomputable def kronInv (t : TT ℝ) : R (TT ℝ) := kronMap linalgInv t

/-- kronecker.py:174-229 `cholesky`. -/
noncomputable def kronCholesky (t : TT ℝ) : R (TT ℝ) := kronMap linalgCholesky t

end T3f
