import Verif.Model.TensorTrain

/-!
# `ops.add`

Models `/repo/t3f/ops.py:542-746`.
-/

namespace T3f

variable {K : Type} [CommRing K]

/-- The loop body shared by the four functions below (ops.py:555-567, 593-609, 628-640, 667-682):
concatenate along the right rank axis for the first core, along the left rank axis for the last, and
build a block diagonal core otherwise. `upperShape`, `lowerShape` are the shapes of the zero blocks. -/
def addCore (axL axR d i : ℕ) (upperShape lowerShape : R (List ℕ)) (a b : Tensor K) : R (Tensor K) :=
  if i = 0 then concat axR [a, b]
  else if i = d - 1 then concat axL [a, b]
  else do
    let us ← upperShape
    let ls ← lowerShape
    let upper ← concat axR [a, zeros us]
    let lower ← concat axR [zeros ls, b]
    concat axL [upper, lower]

/-- ops.py:542-569 `_add_tensor_cores`. -/
def addTensorCores (a b : TT K) : R (List (Tensor K)) := do
  let row ← pyGet a.rawShape 0
  mapRange a.ndims fun i => do
    let ac ← pyGet a.cores i
    let bc ← pyGet b.cores i
    addCore 0 2 a.ndims i
      (do pure [← pyGet a.ttRanks i, ← pyGet row i, ← pyGet b.ttRanks (i + 1)])
      (do pure [← pyGet b.ttRanks i, ← pyGet row i, ← pyGet a.ttRanks (i + 1)]) ac bc

/-- ops.py:614-641 `_add_matrix_cores`. -/
def addMatrixCores (a b : TT K) : R (List (Tensor K)) := do
  let row0 ← pyGet a.rawShape 0
  let row1 ← pyGet a.rawShape 1
  mapRange a.ndims fun i => do
    let ac ← pyGet a.cores i
    let bc ← pyGet b.cores i
    addCore 0 3 a.ndims i
      (do pure [← pyGet a.ttRanks i, ← pyGet row0 i, ← pyGet row1 i, ← pyGet b.ttRanks (i + 1)])
      (do pure [← pyGet b.ttRanks i, ← pyGet row0 i, ← pyGet row1 i, ← pyGet a.ttRanks (i + 1)]) ac bc

/-- ops.py:582-587, 654-659: the batch size of the result; ValueError from `lazy_batch_size` if the
chosen object is not a batch. -/
def addBatchSize (a b : TT K) : R ℕ :=
  if a.batch = some 1 then b.lazyBatchSize else a.lazyBatchSize

/-- ops.py:588-611, the loop of `_add_batch_tensor_cores` for the batch size `bs` of the result and the operands
`a'`, `b'` after `expand_batch_dim`; `ta`, `tb` say whether their cores are tiled (lines 593, 596). -/
def addBatchTensorBody (bs : ℕ) (ta tb : Bool) (a b a' b' : TT K) : R (List (Tensor K)) := do
  let row ← pyGet a.rawShape 0
  mapRange a.ndims fun i => do
    let ac ← pyGet a'.cores i
    let ac ← if ta = true then tile ac [bs, 1, 1, 1] else pure ac
    let bc ← pyGet b'.cores i
    let bc ← if tb = true then tile bc [bs, 1, 1, 1] else pure bc
    addCore 1 3 a.ndims i
      (do pure [bs, ← pyGet a.ttRanks i, ← pyGet row i, ← pyGet b.ttRanks (i + 1)])
      (do pure [bs, ← pyGet b.ttRanks i, ← pyGet row i, ← pyGet a.ttRanks (i + 1)]) ac bc

/-- ops.py:572-611 `_add_batch_tensor_cores`. -/
def addBatchTensorCores (a b : TT K) : R (List (Tensor K) × ℕ) := do
  let bs ← addBatchSize a b
  let a' ← expandBatchDim a
  let b' ← expandBatchDim b
  let cores ← addBatchTensorBody bs (a'.batch = some 1) (b'.batch = some 1) a b a' b'
  pure (cores, bs)

/-- ops.py:660-683, the loop of `_add_batch_matrix_cores`; see `addBatchTensorBody`. -/
def addBatchMatrixBody (bs : ℕ) (ta tb : Bool) (a b a' b' : TT K) : R (List (Tensor K)) := do
  let row0 ← pyGet a.rawShape 0
  let row1 ← pyGet a.rawShape 1
  mapRange a.ndims fun i => do
    let ac ← pyGet a'.cores i
    let ac ← if ta = true then tile ac [bs, 1, 1, 1, 1] else pure ac
    let bc ← pyGet b'.cores i
    let bc ← if tb = true then tile bc [bs, 1, 1, 1, 1] else pure bc
    addCore 1 4 a.ndims i
      (do pure [bs, ← pyGet a.ttRanks i, ← pyGet row0 i, ← pyGet row1 i, ← pyGet b.ttRanks (i + 1)])
      (do pure [bs, ← pyGet b.ttRanks i, ← pyGet row0 i, ← pyGet row1 i, ← pyGet a.ttRanks (i + 1)])
      ac bc

/-- ops.py:644-683 `_add_batch_matrix_cores`. -/
def addBatchMatrixCores (a b : TT K) : R (List (Tensor K) × ℕ) := do
  let bs ← addBatchSize a b
  let a' ← expandBatchDim a
  let b' ← expandBatchDim b
  let cores ← addBatchMatrixBody bs (a'.batch = some 1) (b'.batch = some 1) a b a' b'
  pure (cores, bs)

/-- ops.py:734-740: `[1, ra_1 + rb_1, ..., ra_{d-1} + rb_{d-1}, 1]`. -/
def addRanks (a b : TT K) : R (List ℕ) := do
  let inner ← mapRange (a.ndims - 1) fun i => do
    pure ((← pyGet a.ttRanks (i + 1)) + (← pyGet b.ttRanks (i + 1)))
  pure (1 :: inner ++ [1])

/-- ops.py:686-746 `add`. -/
def add (a b : TT K) : R (TT K) := do
  require (a.isMatrix ↔ b.isMatrix) Err.value
  require (a.rawShape = b.rawShape) Err.value
  require (isBatchBroadcastingPossible a b = true) Err.value
  if a.isBatch || b.isBatch then
    let (cores, bs) ← if a.isMatrix then addBatchMatrixCores a b else addBatchTensorCores a b
    let ranks ← addRanks a b
    mkBatch cores (.shapes a.rawShape) (some ranks) (some bs)
  else
    let cores ← if a.isMatrix then addMatrixCores a b else addTensorCores a b
    let ranks ← addRanks a b
    mkTT cores (.shapes a.rawShape) (some ranks)

end T3f
