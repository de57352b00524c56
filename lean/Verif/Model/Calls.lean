import Verif.Model.Approximate
import Verif.Model.Dispatch
import Verif.Model.Full
import Verif.Model.Initializers
import Verif.Model.Kronecker
import Verif.Model.Multiply
import Verif.Model.Norm
import Verif.Model.Tangent

/-!
# Programs that call the functions of the library

A program is a list of calls. The results of a call are appended to the list of values, and later calls take their arguments from there by position. All tensors
are real and eager.
-/

namespace T3f

/-- What a program computes with. A TT-object carries its attribute `projection_on` (the position of the point of the tangent space, see `Projected`). -/
inductive PyVal where
  | tt (t : TT ℝ) (on : Option ℕ)
  | tensor (x : Tensor ℝ)
  | log (x : Tensor EReal)
  | num (x : ℝ)

/-- The calls. Arguments of type `ℕ` named `a`, `b`, ... are positions of values; the other arguments are written in the program. -/
inductive PyCall where
  /-- `TensorTrain(cores, shape, tt_ranks)`, `TensorTrainBatch(cores, shape, tt_ranks, batch_size)` -/
  | newTT (cores : List ℕ) (shape : ShapeArg) (ranks : Option (List ℕ))
  | newBatch (cores : List ℕ) (shape : ShapeArg) (ranks : Option (List ℕ)) (bs : Option ℕ)
  /-- `a.tt_cores[k]` -/
  | core (a k : ℕ)
  /-- arithmetic of TensorFlow with tensors and numbers: an elementwise function of one or two tensors, the number in a 0-d tensor -/
  | elementwise (f : ℝ → ℝ) (a : ℕ)
  | elementwise2 (f : ℝ → ℝ → ℝ) (a b : ℕ)
  | item (a : ℕ)
  /-- `ops.py` and the operators of `tensor_train_base.py` -/
  | full (a : ℕ)
  | add (a b : ℕ)
  | sub (a b : ℕ)
  | neg (a : ℕ)
  | multiply (a b : ℕ)
  | multiplyNumber (a c : ℕ)
  | matmul (a b : ℕ)
  | matmulDense (a B : ℕ)
  | denseMatmul (A b : ℕ)
  | transpose (a : ℕ)
  | flatInner (a b : ℕ)
  | flatInnerSparse (a : ℕ) (indices : Tensor ℕ) (values : ℕ)
  | normSquared (a : ℕ) (differentiable : Bool)
  | norm (a : ℕ) (eps : ℝ) (differentiable : Bool)
  | bilinearForm (A b c : ℕ)
  | bilinearFormTwoMat (x A B y : ℕ)
  | cast (f : ℝ → ℝ) (a : ℕ)
  | gatherNd (a : ℕ) (indices : Tensor ℕ)
  | renormalize (a : ℕ) (eps : ℝ)
  /-- subscripts -/
  | getItem (a : ℕ) (spec : List Ix)
  | batchGetItem (a : ℕ) (b0 : Ix) (spec : List Ix)
  /-- `shapes.py` -/
  | expand (a : ℕ)
  | squeeze (a : ℕ)
  /-- `batch_ops.py` -/
  | concatBatch (as : List ℕ)
  | multiplyBatch (a w : ℕ)
  | gram (a : ℕ)
  | pairwise (a b : ℕ)
  | pairwiseMatrix (a b M : ℕ)
  /-- `initializers.py` -/
  | tensorOnes (shape : List ℤ)
  | tensorZeros (shape : List ℤ)
  | matrixOnes (a b : Option (List ℤ))
  | matrixZeros (a b : Option (List ℤ))
  | eye (shape : List ℤ)
  | onesLike (a : ℕ)
  | zerosLike (a : ℕ)
  | tensorRandomCores (shape : List ℤ) (rank : RankArg) (mean stddev : ℝ)
  | tensorBatchRandomCores (shape : List ℤ) (rank : RankArg) (bs : ℤ) (mean stddev : ℝ)
  | matrixRandomCores (a b : Option (List ℤ)) (rank : RankArg) (mean stddev : ℝ)
  | matrixBatchRandomCores (a b : Option (List ℤ)) (rank : RankArg) (bs : ℤ) (mean stddev : ℝ)
  | randomTensor (shape : List ℤ) (rank : RankArg) (mean stddev : ℝ)
  | randomTensorBatch (shape : List ℤ) (rank : RankArg) (bs : ℤ) (mean stddev : ℝ)
  | randomMatrix (a b : Option (List ℤ)) (rank : RankArg) (mean stddev : ℝ)
  | randomMatrixBatch (a b : Option (List ℤ)) (rank : RankArg) (bs : ℤ) (mean stddev : ℝ)
  | glorot (a b : Option (List ℤ)) (rank : RankArg)
  | he (a b : Option (List ℤ)) (rank : RankArg)
  | lecun (a b : Option (List ℤ)) (rank : RankArg)
  /-- `decompositions.py` -/
  | orthogonalize (a : ℕ) (leftToRight : Bool)
  | round (a : ℕ) (maxRank : MaxRank) (eps : Option ℝ)
  | toTTTensor (a : ℕ) (maxRank : MaxRank) (eps : Option ℝ)
  | toTTMatrix (a : ℕ) (rows cols : Option (List ℕ)) (maxRank : MaxRank) (eps : Option ℝ)
  /-- `approximate.py` -/
  | addN (as : List ℕ) (maxRank : MaxRank)
  | reduceSumBatch (a : ℕ) (maxRank : MaxRank) (coef : Option ℕ)
  /-- `riemannian.py` -/
  | project (a whr : ℕ)
  | projectSum (a whr : ℕ) (weights : Option ℕ)
  | projectMatmul (a whr A : ℕ)
  | pairwiseProjected (a b : ℕ)
  | addNProjected (as : List ℕ) (coef : Option ℕ)
  | toDeltas (a : ℕ)
  | fromDeltas (ds : List ℕ) (a : ℕ) (left right : Option ℕ)
  /-- `kronecker.py` -/
  | determinant (a : ℕ)
  | slogDeterminant (a : ℕ)
  | inv (a : ℕ)
  | cholesky (a : ℕ)

/-- The TT-object at a position. A position that does not exist is a NameError and a value of another type an AttributeError, both written as `Err.attr`. -/
def getTT (env : List PyVal) (a : ℕ) : R (TT ℝ) :=
  match env[a]? with
  | some (.tt t _) => Except.ok t
  | _ => Except.error Err.attr

/-- The TT-object at a position, with its attribute `projection_on`. -/
def getProjected (env : List PyVal) (a : ℕ) : R Projected :=
  match env[a]? with
  | some (.tt t on) => Except.ok ⟨t, on⟩
  | _ => Except.error Err.attr

/-- The tensor at a position. -/
def getTensor (env : List PyVal) (a : ℕ) : R (Tensor ℝ) :=
  match env[a]? with
  | some (.tensor x) => Except.ok x
  | _ => Except.error Err.attr

/-- The number at a position. -/
def getNum (env : List PyVal) (a : ℕ) : R ℝ :=
  match env[a]? with
  | some (.num x) => Except.ok x
  | _ => Except.error Err.attr

/-- An optional argument. -/
def getOpt {α : Type} (get : ℕ → R α) : Option ℕ → R (Option α)
  | none => Except.ok none
  | some a => some <$> get a

/-- A new TT-object; it has no attribute `projection_on`. -/
def retTT (x : R (TT ℝ)) : R (List PyVal) := do pure [.tt (← x) none]

/-- A tensor. -/
def retTensor (x : R (Tensor ℝ)) : R (List PyVal) := do pure [.tensor (← x)]

/-- riemannian.py:195, 367, 528, 886: an element of the tangent space at the object with position `whr`. -/
def retOn (whr : ℕ) (x : R (TT ℝ)) : R (List PyVal) := do pure [.tt (← x) (some whr)]

/-- The values that a call returns. `z` are the numbers drawn by the random initializers in this call. The functions of `shapes.py` return their argument if there is
nothing to do (shapes.py:282-286, 301), with its attribute. -/
noncomputable def PyCall.run (qr : QRRoutine) (svd : SVDRoutine) (z : ℕ → List ℕ → ℝ) (env : List PyVal) : PyCall → R (List PyVal)
  | newTT cores shape ranks => do retTT (mkTT (← cores.mapM (getTensor env)) shape ranks)
  | newBatch cores shape ranks bs => do retTT (mkBatch (← cores.mapM (getTensor env)) shape ranks bs)
  | core a k => do retTensor (pyGet (← getTT env a).cores k)
  | elementwise f a => do retTensor (pure ((← getTensor env a).map f))
  | elementwise2 f a b => do retTensor (binop f (← getTensor env a) (← getTensor env b))
  | item a => do
      let x ← getTensor env a
      require (x.shape = []) Err.type
      pure [.num (x.get [])]
  | full a => do retTensor (T3f.full (← getTT env a))
  | add a b => do retTT (T3f.add (← getTT env a) (← getTT env b))
  | sub a b => do retTT (T3f.sub (← getTT env a) (← getTT env b))
  | neg a => do retTT (T3f.neg (← getTT env a))
  | multiply a b => do retTT (T3f.multiply (← getTT env a) (← getTT env b))
  | multiplyNumber a c => do retTT (multiplyScalar (← getTT env a) (← getNum env c))
  | matmul a b => do retTT (ttTTMatmul (← getTT env a) (← getTT env b))
  | matmulDense a B => do retTensor (ttDenseMatmul (← getTT env a) (← getTensor env B))
  | denseMatmul A b => do retTensor (denseTTMatmul (← getTensor env A) (← getTT env b))
  | transpose a => do retTT (ttTranspose (← getTT env a))
  | flatInner a b => do retTensor (T3f.flatInner (← getTT env a) (← getTT env b))
  | flatInnerSparse a indices values => do retTensor (flatInnerAny (.tt (← getTT env a)) (.sparse indices (← getTensor env values)))
  | normSquared a differentiable => do retTensor (frobeniusNormSquared qr (← getTT env a) differentiable)
  | norm a eps differentiable => do retTensor (frobeniusNorm qr (← getTT env a) eps differentiable)
  | bilinearForm A b c => do retTensor (T3f.bilinearForm (← getTT env A) (← getTT env b) (← getTT env c))
  | bilinearFormTwoMat x A B y => do retTensor (T3f.bilinearFormTwoMat (← getTT env x) (← getTT env A) (← getTT env B) (← getTT env y))
  | cast f a => do retTT (ttCast f (← getTT env a))
  | gatherNd a indices => do retTensor (ttGatherNd (← getTT env a) indices)
  | renormalize a eps => do retTT (T3f.renormalize (← getTT env a) eps)
  | getItem a spec => do retTT (ttGetItem (← getTT env a) spec)
  | batchGetItem a b0 spec => do retTT (T3f.batchGetItem (← getTT env a) b0 spec)
  | expand a => do
      let t ← getProjected env a
      let r ← expandBatchDim t.tt
      pure [.tt r (if t.tt.isBatch then t.on else none)]
  | squeeze a => do
      let t ← getProjected env a
      let r ← squeezeBatchDim t.tt
      pure [.tt r (if t.tt.batch = some 1 then none else t.on)]
  | concatBatch as => do retTT (concatAlongBatchDim (← as.mapM (getTT env)))
  | multiplyBatch a w => do retTT (multiplyAlongBatchDim (← getTT env a) (← getTensor env w))
  | gram a => do retTensor (gramMatrix (← getTT env a))
  | pairwise a b => do retTensor (pairwiseFlatInner (← getTT env a) (← getTT env b))
  | pairwiseMatrix a b M => do retTensor (pairwiseFlatInnerMatrix (← getTT env a) (← getTT env b) (← getTT env M))
  | tensorOnes shape => retTT (T3f.tensorOnes shape)
  | tensorZeros shape => retTT (T3f.tensorZeros shape)
  | matrixOnes a b => retTT (T3f.matrixOnes a b)
  | matrixZeros a b => retTT (T3f.matrixZeros a b)
  | eye shape => retTT (T3f.eye shape)
  | onesLike a => do retTT (T3f.onesLike (← getTT env a))
  | zerosLike a => do retTT (T3f.zerosLike (← getTT env a))
  | tensorRandomCores shape rank mean stddev => retTT (tensorWithRandomCores z shape rank mean stddev)
  | tensorBatchRandomCores shape rank bs mean stddev => retTT (tensorBatchWithRandomCores z shape rank bs mean stddev)
  | matrixRandomCores a b rank mean stddev => retTT (matrixWithRandomCores z a b rank mean stddev)
  | matrixBatchRandomCores a b rank bs mean stddev => retTT (matrixBatchWithRandomCores z a b rank bs mean stddev)
  | randomTensor shape rank mean stddev => retTT (T3f.randomTensor z shape rank mean stddev)
  | randomTensorBatch shape rank bs mean stddev => retTT (T3f.randomTensorBatch z shape rank bs mean stddev)
  | randomMatrix a b rank mean stddev => retTT (T3f.randomMatrix z a b rank mean stddev)
  | randomMatrixBatch a b rank bs mean stddev => retTT (T3f.randomMatrixBatch z a b rank bs mean stddev)
  | glorot a b rank => retTT (glorotInitializer z a b rank)
  | he a b rank => retTT (heInitializer z a b rank)
  | lecun a b rank => retTT (lecunInitializer z a b rank)
  | orthogonalize a leftToRight => do retTT (T3f.orthogonalize qr (← getTT env a) leftToRight)
  | round a maxRank eps => do retTT (ttRound qr svd (← getTT env a) maxRank eps)
  | toTTTensor a maxRank eps => do retTT (T3f.toTTTensor svd (← getTensor env a) maxRank eps)
  | toTTMatrix a rows cols maxRank eps => do retTT (T3f.toTTMatrix svd (← getTensor env a) rows cols maxRank eps)
  | addN as maxRank => do retTT (T3f.addN qr svd (← as.mapM (getTT env)) maxRank)
  | reduceSumBatch a maxRank coef => do retTT (T3f.reduceSumBatch qr svd (← getTT env a) maxRank (← getOpt (getTensor env) coef))
  | project a whr => do retOn whr (T3f.project qr (← getTT env a) (← getTT env whr))
  | projectSum a whr weights => do retOn whr (T3f.projectSum qr (← getTT env a) (← getTT env whr) (← getOpt (getTensor env) weights))
  | projectMatmul a whr A => do retOn whr (T3f.projectMatmul qr (← getTT env a) (← getTT env whr) (← getTT env A))
  | pairwiseProjected a b => do retTensor (T3f.pairwiseProjected (← getProjected env a) (← getProjected env b))
  | addNProjected as coef => do
      let r ← T3f.addNProjected (← as.mapM (getProjected env)) (← getOpt (getTensor env) coef)
      pure [.tt r.tt r.on]
  | toDeltas a => do
      let ds ← tangentSpaceToDeltas (← getProjected env a)
      pure (ds.map .tensor)
  | fromDeltas ds a left right => do
      retOn a (deltasToTangent qr (← ds.mapM (getTensor env)) (← getTT env a) (← getOpt (getTT env) left) (← getOpt (getTT env) right))
  | determinant a => do retTensor (kronDeterminant (← getTT env a))
  | slogDeterminant a => do
      let (s, l) ← kronSlogDeterminant (← getTT env a)
      pure [.tensor s, .log l]
  | inv a => do retTT (kronInv (← getTT env a))
  | cholesky a => do retTT (kronCholesky (← getTT env a))

/-- A run of a program that starts with the values `env`. `z n` are the numbers drawn by the call number `n` from the end. -/
noncomputable def runCalls (qr : QRRoutine) (svd : SVDRoutine) (z : ℕ → ℕ → List ℕ → ℝ) : List PyCall → List PyVal → R (List PyVal)
  | [], env => Except.ok env
  | c :: p, env => do
      let vs ← c.run qr svd (z p.length) env
      runCalls qr svd z p (env ++ vs)

end T3f
