import Verif.Tf.Rounding
import Verif.Spec.Expr
import Verif.Model.Full
import Verif.Model.Multiply
import Verif.Model.Inner
import Verif.Model.Gather

/-!
# The operations in floating point arithmetic

The functions of `ops.py` with `tf.matmul`, `tf.einsum` and the scaling of the cores by a number replaced by routines that round (`Tf/Rounding.lean`). Everything else these functions do moves
elements without changing them. With the exact routines they are the functions of the other modules (`Props/C68Accuracy.lean`).
-/

namespace T3f

/-- The routines without rounding. -/
noncomputable def exactRoutines : FloatRoutines where
  matmul := T3f.matmul
  einsum := T3f.einsum
  mul x y := x * y
  root c n := |c| ^ (1 / (n : ℝ))
  rootRounds := 0

/-- ops.py:33-66 `_full_tt`. -/
def fullTTF (F : FloatRoutines) (t : TT ℝ) : R (Tensor ℝ) := do
  let shape ← t.getShape
  let res ← pyGet t.cores 0
  let res ← forRange (fun i res => do
      let ri ← pyGet t.ttRanks i
      let res ← reshape res [none, some ri]
      let core ← pyGet t.cores i
      let currCore ← reshape core [some ri, none]
      F.matmul res currCore) 1 (t.ndims - 1) res
  if t.isMatrix then
    let inter ← interleavedShape t
    let res ← reshape res (inter.map some)
    let res ← transpose res (evenOddPerm t.ndims)
    reshape res (shape.map some)
  else
    reshape res (shape.map some)

/-- ops.py:69-103 `_full_tt_batch`. -/
def fullBatchF (F : FloatRoutines) (t : TT ℝ) : R (Tensor ℝ) := do
  let shape ← t.getShape
  let res ← pyGet t.cores 0
  let bs ← t.lazyBatchSize
  let res ← forRange (fun i res => do
      let ri ← pyGet t.ttRanks i
      let res ← reshape res [some bs, none, some ri]
      let core ← pyGet t.cores i
      let currCore ← reshape core [some bs, some ri, none]
      F.einsum (ein! "oqb,obw->oqw") [res, currCore]) 1 (t.ndims - 1) res
  if t.isMatrix then
    let inter ← interleavedShape t
    let res ← reshape res ((bs :: inter).map some)
    let res ← transpose res (0 :: (evenOddPerm t.ndims).map (· + 1))
    reshape res (shape.map some)
  else
    reshape res (shape.map some)

/-- ops.py:14-30 `full`. -/
def fullF (F : FloatRoutines) (t : TT ℝ) : R (Tensor ℝ) :=
  if t.isBatch then fullBatchF F t else fullTTF F t

/-- ops.py:892-909: one core of the elementwise product. -/
def mulCoreF (F : FloatRoutines) (a b : TT ℝ) (i : ℕ) : R (Tensor ℝ) := do
  let ac ← pyGet a.cores i
  let bc ← pyGet b.cores i
  let lr := (← pyGet a.ttRanks i) * (← pyGet b.ttRanks i)
  let rr := (← pyGet a.ttRanks (i + 1)) * (← pyGet b.ttRanks (i + 1))
  let (l, r, o) := mulLabels a.batch b.batch
  let c ← if a.isMatrix then do
      let e ← F.einsum ([l ++ chars! "aijb", r ++ chars! "cijd"], o ++ chars! "acijbd") [ac, bc]
      let row0 ← pyGet a.rawShape 0
      let row1 ← pyGet a.rawShape 1
      reshape e [none, some lr, some (← pyGet row0 i), some (← pyGet row1 i), some rr]
    else do
      let e ← F.einsum ([l ++ chars! "aib", r ++ chars! "cid"], o ++ chars! "acibd") [ac, bc]
      let row0 ← pyGet a.rawShape 0
      reshape e [none, some lr, some (← pyGet row0 i), some rr]
  if a.isBatch || b.isBatch then pure c else squeezeAxis c 0

/-- ops.py:749-920 `multiply` for two TT objects. -/
def multiplyF (F : FloatRoutines) (a b : TT ℝ) : R (TT ℝ) := do
  require (a.isMatrix ↔ b.isMatrix) Err.value
  require (a.rawShape = b.rawShape) Err.value
  require (isBatchBroadcastingPossible a b = true) Err.value
  let cores ← mapRange a.ndims (mulCoreF F a b)
  mkLike (mulOutBatch a.batch b.batch) cores a.rawShape (List.zipWith (· * ·) a.ttRanks b.ttRanks)

/-- ops.py:777-797 and 914-920 `multiply` by a number. The products with the sign are exact. -/
noncomputable def multiplyScalarF (F : FloatRoutines) (a : TT ℝ) (c : ℝ) : R (TT ℝ) := do
  let fact := F.root c a.ndims
  let cores := a.cores.map fun t => t.map (F.mul fact)
  let c0 ← pyGet cores 0
  let cores := cores.set 0 (c0.map (· * SignType.sign c))
  mkLike a.batch cores a.rawShape a.ttRanks

/-- ops.py:162-177: one core of the product. -/
def matmulCoreF (F : FloatRoutines) (a b : TT ℝ) (i : ℕ) : R (Tensor ℝ) := do
  let ac ← pyGet a.cores i
  let bc ← pyGet b.cores i
  let e ← F.einsum ([bLabel 'o' a.batch ++ chars! "aijb", bLabel 'o' b.batch ++ chars! "cjkd"],
    bLabel 'o' (resBatch a.batch b.batch) ++ chars! "acikbd") [ac, bc]
  let lr := (← pyGet a.ttRanks i) * (← pyGet b.ttRanks i)
  let rr := (← pyGet a.ttRanks (i + 1)) * (← pyGet b.ttRanks (i + 1))
  let arow ← pyGet a.rawShape 0
  let lm ← pyGet arow i
  let brow ← pyGet b.rawShape 1
  let rm ← pyGet brow i
  reshape e ((resBatch a.batch b.batch).toList.map some ++ [some lr, some lm, some rm, some rr])

/-- ops.py:106-185 `tt_tt_matmul`. -/
def ttTTMatmulF (F : FloatRoutines) (a b : TT ℝ) : R (TT ℝ) := do
  require (a.isMatrix ∧ b.isMatrix) Err.value
  require (isBatchBroadcastingPossible a b = true) Err.value
  require (b.ndims = a.ndims) Err.value
  let n := a.ndims
  let a ← squeezeBatchDim a
  let b ← squeezeBatchDim b
  let cores ← mapRange n (matmulCoreF F a b)
  let arow ← pyGet a.rawShape 0
  let brow ← pyGet b.rawShape 1
  mkLike (resBatch a.batch b.batch) cores [arow, brow] (List.zipWith (· * ·) a.ttRanks b.ttRanks)

/-- ops.py:380-399: the contraction of two core lists with batch letters `la`, `lb`, `lr`. -/
def innerLoopF (F : FloatRoutines) (a b : TT ℝ) (n : ℕ) (ax la lb lr : List Char) : R (Tensor ℝ) := do
  let a0 ← pyGet a.cores 0
  let b0 ← pyGet b.cores 0
  let res ← F.einsum (innerSpec true ax la lb lr) [a0, b0]
  forRange (fun k res => do
    let ac ← pyGet a.cores k
    let bc ← pyGet b.cores k
    F.einsum (innerSpec false ax la lb lr) [res, ac, bc]) 1 (n - 1) res

/-- ops.py:321-400 `tt_tt_flat_inner`. -/
def flatInnerF (F : FloatRoutines) (a b : TT ℝ) : R (Tensor ℝ) := do
  require (a.isMatrix ↔ b.isMatrix) Err.value
  require (isBatchBroadcastingPossible a b = true) Err.value
  require (b.ndims = a.ndims) Err.value
  let n := a.ndims
  let ax := modeLabels a
  let a ← squeezeBatchDim a
  let b ← squeezeBatchDim b
  let res ← innerLoopF F a b n ax (bLabel 'o' a.batch) (bLabel 'o' b.batch)
    (bLabel 'o' (resBatch a.batch b.batch))
  pure (squeezeAll res)

/-- ops.py:940-963: `frobenius_norm_squared(tt, differentiable=True)`. -/
def frobeniusNormSquaredDiffF (F : FloatRoutines) (t : TT ℝ) : R (Tensor ℝ) := do
  let l := bLabel 'n' t.batch
  let res ← innerLoopF F t t t.ndims (modeLabels t) l l l
  let r1 ← squeezeAxis res (res.shape.length - 1)
  squeezeAxis r1 (r1.shape.length - 1)

/-- ops.py:996-997: `frobenius_norm(tt, epsilon, differentiable=True)`, where `add` is the addition and `sqrt` the square root of the computer. The square root
of a negative number is NaN (`none`). -/
noncomputable def frobeniusNormDiffF (F : FloatRoutines) (add : ℝ → ℝ → ℝ) (sqrt : ℝ → ℝ) (t : TT ℝ) (epsilon : ℝ) : R (Tensor (Option ℝ)) := do
  let s ← frobeniusNormSquaredDiffF F t
  pure (s.map fun x => if add x epsilon < 0 then none else some (sqrt (add x epsilon)))

/-- Running a program. The factor 1 and the sign by which `-a` multiplies the cores (ops.py:777-797) are exact, so `-a` and `a - b` are as in exact
arithmetic. The orthogonalization (see `Model/RoundedOrtho.lean`) and the renormalization are not part of these programs. -/
noncomputable def Expr.runF (F : FloatRoutines) : Expr → R (TT ℝ)
  | .obj t => pure t
  | .add a b => do T3f.add (← a.runF F) (← b.runF F)
  | .sub a b => do T3f.sub (← a.runF F) (← b.runF F)
  | .neg a => do T3f.neg (← a.runF F)
  | .mul a b => do multiplyF F (← a.runF F) (← b.runF F)
  | .smul c a => do multiplyScalarF F (← a.runF F) c
  | .matmul a b => do ttTTMatmulF F (← a.runF F) (← b.runF F)
  | .transpose a => do T3f.ttTranspose (← a.runF F)
  | .orthogonalize _ _ => Except.error Err.notImpl
  | .renormalize _ _ => Except.error Err.notImpl
  | .expand a => do T3f.expandBatchDim (← a.runF F)
  | .squeeze a => do T3f.squeezeBatchDim (← a.runF F)
  | .pick k a => do Expr.pickItem k (← a.runF F)

end T3f
