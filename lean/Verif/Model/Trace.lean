import Verif.Model.Full
import Verif.Model.Inner
import Verif.Model.Multiply

/-!
# Tracing a `tf.function`: batches whose size is not known statically

Models the branches of `/repo/t3f/ops.py` (`full`, `tt_tt_matmul`, `tt_tt_flat_inner`, `add`, `multiply`,
lines 20-185, 321-400, 572-611, 644-746, 749-920) and of `/repo/t3f/shapes.py:181-308`
that depend on the attribute `batch_size` when it is `None` or a `tf.Tensor`, and `tt_dense_matmul`
(ops.py:188-247) for a dense matrix whose static shape is not fully known.

Simplifications. Mode sizes and TT-ranks are known statically. The static size of the batch axis of the
cores is known exactly when the attribute `batch_size` is a number. An error while tracing and an error
while the traced function runs are not distinguished: both make the call fail. The run-time objects are
those the traced graph computes for given arguments.
-/

namespace T3f

variable {K : Type}

/-- tensor_train_batch.py:60-63: the attribute `batch_size` while tracing: a number, `None`, or a `tf.Tensor`. -/
inductive BSize
  | known (n : ℕ)
  | unknown
  | tensor
  deriving DecidableEq

/-- An object inside a traced function: the object it stands for when the function runs, and the static
attribute `batch_size` (`none`: a `TensorTrain`, which has no such attribute). -/
structure Traced (K : Type) where
  obj : TT K
  size : Option BSize

/-- Python `batch_size == 1` as a condition; a symbolic tensor cannot be used as a condition (with
AutoGraph the branches of the conditionals in question return t3f objects or raise, which fails too). -/
def BSize.eqOne : BSize → R Bool
  | .known n => pure (n = 1)
  | .unknown => pure false
  | .tensor => throw Err.tf

/-- Python `batch_size > 1` as a condition; `None > 1` raises TypeError. -/
def BSize.gtOne : BSize → R Bool
  | .known n => pure (1 < n)
  | .unknown => throw Err.type
  | .tensor => throw Err.tf

/-- Python `a.batch_size == b.batch_size` as a condition. -/
def BSize.eqCond : BSize → BSize → R Bool
  | .known m, .known n => pure (m = n)
  | .known _, .unknown => pure false
  | .unknown, .known _ => pure false
  | .unknown, .unknown => pure true
  | .tensor, .unknown => pure false
  | .unknown, .tensor => pure false
  | _, _ => throw Err.tf

/-- shapes.py:234-262 `is_batch_broadcasting_possible`. -/
def broadcastTraced : Option BSize → Option BSize → R Bool
  | some a, some b =>
    if a = .unknown ∧ b = .unknown then pure false else do
      if ← a.eqCond b then pure true else do
        if ← a.eqOne then pure true else b.eqOne
  | _, _ => pure true

/-- shapes.py:181-199 `lazy_batch_size`: the number or a tensor, and its value when the function runs. -/
def Traced.lazySize (t : Traced K) : R (BSize × ℕ) :=
  match t.size, t.obj.batch with
  | some (.known n), _ => pure (.known n, n)
  | some _, some n => pure (.tensor, n)
  | _, _ => throw Err.value

/-- shapes.py:265-286 `squeeze_batch_dim`. -/
def Traced.squeeze (t : Traced K) : R (Traced K) :=
  match t.size with
  | none => pure t
  | some s => do
    if ← s.eqOne then pure ⟨← squeezeBatchDim t.obj, none⟩ else pure t

/-- shapes.py:289-308 `expand_batch_dim`: a `TensorTrain` becomes a batch of the static size one. -/
def Traced.expand (t : Traced K) : R (TT K × BSize) :=
  match t.size with
  | none => do pure (← expandBatchDim t.obj, .known 1)
  | some s => pure (t.obj, s)

/-- The constructor call that ends most functions, with `batch_size` a number, `None` or a tensor
(tensor_train_batch.py:15-66). For `None` the attribute is the static size of the first core; `inf` tells
whether TensorFlow could infer that size. -/
def tracedLike (inf : Bool) (s : Option BSize) (cores : List (Tensor K)) (rows : List (List ℕ)) (ranks : List ℕ) :
    R (Traced K) :=
  match s with
  | none => do pure ⟨← mkTT cores (.shapes rows) (some ranks), none⟩
  | some (.known n) => do pure ⟨← mkBatch cores (.shapes rows) (some ranks) (some n), some (.known n)⟩
  | some .tensor => do pure ⟨← mkBatch cores (.shapes rows) (some ranks) none, some .tensor⟩
  | some .unknown => do
    let t ← mkBatch cores (.shapes rows) (some ranks) none
    pure ⟨t, some (if inf then .known (t.batch.getD 0) else .unknown)⟩

variable [CommRing K]

/-- ops.py:20-103 `full`. `lazy_shape` calls `get_shape`, where `np.hstack` of a symbolic batch size raises
NotImplementedError (tensor_train_batch.py:68-77); all other sizes are handled dynamically. -/
def fullTraced (t : Traced K) : R (Tensor K) :=
  if t.size = some .tensor then throw Err.notImpl else full t.obj

/-- ops.py:582-587 and 654-659: the batch size of a sum. -/
def addSizeTraced (a b : Traced K) : R (BSize × ℕ) := do
  let one ← match a.size with
    | none => pure false
    | some s => s.eqOne
  if one = true then b.lazySize else a.lazySize

/-- ops.py:572-611 and 644-683: the cores of the sum if a batch is involved, and its batch size. -/
def addBatchTraced (a b : Traced K) : R (List (Tensor K) × BSize) := do
  let (s, bs) ← addSizeTraced a b
  let (a', sa) ← a.expand
  let (b', sb) ← b.expand
  let ta ← sa.eqOne
  let tb ← sb.eqOne
  let cores ← if a.obj.isMatrix then addBatchMatrixBody bs ta tb a.obj b.obj a' b'
    else addBatchTensorBody bs ta tb a.obj b.obj a' b'
  pure (cores, s)

/-- ops.py:686-746 `add`. -/
def addTraced (inf : Bool) (a b : Traced K) : R (Traced K) := do
  require (a.obj.isMatrix ↔ b.obj.isMatrix) Err.value
  require (a.obj.rawShape = b.obj.rawShape) Err.value
  let ok ← broadcastTraced a.size b.size
  require (ok = true) Err.value
  if a.size.isSome || b.size.isSome then do
    let (cores, s) ← addBatchTraced a b
    let ranks ← addRanks a.obj b.obj
    tracedLike inf (some s) cores a.obj.rawShape ranks
  else do
    let cores ← if a.obj.isMatrix then addMatrixCores a.obj b.obj else addTensorCores a.obj b.obj
    let ranks ← addRanks a.obj b.obj
    tracedLike inf none cores a.obj.rawShape ranks

/-- ops.py:807-816 `can_determine_if_broadcast`. -/
def canDetermine : Option BSize → Option BSize → R Bool
  | some .unknown, some .unknown => pure false
  | some .unknown, some s => do pure (!(← s.gtOne))
  | some s, some .unknown => do pure (!(← s.gtOne))
  | _, _ => pure true

/-- ops.py:846-882: the letters of the batch axes and the batch size of the result. -/
def mulPlan (det : Bool) : Option BSize → Option BSize → R ((List Char × List Char × List Char) × Option BSize)
  | none, none => pure (([], [], []), none)
  | some s, none => pure ((['n'], [], ['n']), some s)
  | none, some s => pure (([], ['n'], ['n']), some s)
  | some sa, some sb => do
    if (← sa.eqCond sb) || !det then
      pure ((['n'], ['n'], ['n']), some (if det then sa else .unknown))
    else if sa = .unknown then pure ((['n'], ['m'], ['n', 'm']), some sa)
    else do
      if ← sa.gtOne then pure ((['n'], ['m'], ['n', 'm']), some sa) else pure ((['n'], ['m'], ['n', 'm']), some sb)

/-- ops.py:749-920 `multiply` for two TT objects. If it cannot be determined whether to broadcast, the
sizes are asserted to be equal when the function runs (ops.py:818-833). -/
def multiplyTraced (inf : Bool) (a b : Traced K) : R (Traced K) := do
  require (a.obj.isMatrix ↔ b.obj.isMatrix) Err.value
  require (a.obj.rawShape = b.obj.rawShape) Err.value
  let det ← canDetermine a.size b.size
  let ok ← broadcastTraced a.size b.size
  require (ok = true ∨ det = false) Err.value
  require (det = true ∨ a.obj.batch = b.obj.batch) Err.tf
  let (labels, s) ← mulPlan det a.size b.size
  let cores ← mapRange a.obj.ndims (mulCoreWith labels a.obj b.obj)
  tracedLike inf s cores a.obj.rawShape (List.zipWith (· * ·) a.obj.ttRanks b.obj.ttRanks)

/-- ops.py:157-161: the batch size of a product of TT-matrices. -/
def matmulSize (a b : Traced K) : R (Option BSize) :=
  if b.size.isSome then do pure (some (← b.lazySize).1)
  else if a.size.isSome then do pure (some (← a.lazySize).1)
  else pure none

/-- ops.py:106-185 `tt_tt_matmul`. -/
def matmulTraced (inf : Bool) (a b : Traced K) : R (Traced K) := do
  require (a.obj.isMatrix ∧ b.obj.isMatrix) Err.value
  let ok ← broadcastTraced a.size b.size
  require (ok = true) Err.value
  require (b.obj.ndims = a.obj.ndims) Err.value
  let n := a.obj.ndims
  let a ← a.squeeze
  let b ← b.squeeze
  let s ← matmulSize a b
  let cores ← mapRange n (matmulCore a.obj b.obj)
  let arow ← pyGet a.obj.rawShape 0
  let brow ← pyGet b.obj.rawShape 1
  tracedLike inf s cores [arow, brow] (List.zipWith (· * ·) a.obj.ttRanks b.obj.ttRanks)

/-- ops.py:321-400 `tt_tt_flat_inner`. -/
def flatInnerTraced (a b : Traced K) : R (Tensor K) := do
  require (a.obj.isMatrix ↔ b.obj.isMatrix) Err.value
  let ok ← broadcastTraced a.size b.size
  require (ok = true) Err.value
  require (b.obj.ndims = a.obj.ndims) Err.value
  let n := a.obj.ndims
  let ax := modeLabels a.obj
  let a ← a.squeeze
  let b ← b.squeeze
  let res ← innerLoop a.obj b.obj n ax (bLabel 'o' a.obj.batch) (bLabel 'o' b.obj.batch)
    (bLabel 'o' (resBatch a.obj.batch b.obj.batch))
  pure (squeezeAll res)

/-- ops.py:188-231 `tt_dense_matmul` for a matrix `B` of the static shape `static` (`none`: unknown number of
axes; `none` inside: unknown size). `as_list` of an unknown shape raises ValueError; the check of ops.py:202-206 is
made only if the number of rows is known. The sizes used afterwards are those of `B`, static or dynamic. -/
def ttDenseMatmulTraced (a : TT K) (static : Option (List (Option ℕ))) (B : Tensor K) : R (Tensor K) := do
  require (a.batch = none ∧ a.isMatrix) Err.value
  let sh ← a.getShape
  let cols ← pyGet sh 1
  let st ← match static with
    | none => throw Err.value
    | some st => pure st
  let brows ← pyGet st 0
  require (brows = none ∨ brows = some cols) Err.type
  let rows ← pyGet sh 0
  let data ← transpose B (List.range B.shape.length).reverse
  let row1 ← pyGet a.rawShape 1
  let data ← reshape data [none, some (← pyLast row1), some 1]
  let data ← forReversed (denseStep a) a.ndims data
  reshape data [some rows, some (← pyGet B.shape 1)]

/-- ops.py:234-247 `dense_tt_matmul` for a matrix of the static shape `static`; `tf.transpose` reverses it. -/
def denseTTMatmulTraced (static : Option (List (Option ℕ))) (A : Tensor K) (b : TT K) : R (Tensor K) := do
  let at' ← transpose A (List.range A.shape.length).reverse
  let bt ← ttTranspose b
  let r ← ttDenseMatmulTraced bt (static.map List.reverse) at'
  transpose r (List.range r.shape.length).reverse

end T3f
