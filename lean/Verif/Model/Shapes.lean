import Verif.Model.TensorTrain
import Verif.Tf.Int

/-!
# Dynamic and lazy shape accessors

Models `/repo/t3f/shapes.py:6-199` (`tt_ranks`, `shape`, `raw_shape`, `batch_size`, and their `lazy_` versions). The functions without `lazy_` look at the
cores, the stored attributes are not used except for the number of mode axes. `known` says whether the static shape is fully defined (always, in eager mode).
-/

namespace T3f

variable {K : Type}

/-- `tf.shape(c)[i]`. -/
def dimAt (shape : List ℕ) (i : ℕ) : R ℕ :=
  match shape[i]? with
  | some n => pure n
  | none => throw Err.tf

/-- `tf.shape(c)[-1]`. -/
def dimLast (shape : List ℕ) : R ℕ :=
  match shape.getLast? with
  | some n => pure n
  | none => throw Err.tf

/-- shapes.py:6-25 `tt_ranks`. -/
def dynTTRanks (t : TT K) : R (List ℕ) := do
  let ranks ← mapRange t.ndims fun i => do
    let c ← pyGet t.cores i
    dimAt c.shape t.leftRankDim
  let c ← pyLast t.cores
  let r ← dimLast c.shape
  pure (ranks ++ [r])

/-- shapes.py:59-87 `raw_shape`. -/
def dynRawShape (t : TT K) : R (List (List ℕ)) :=
  mapRange t.rawShape.length fun ax => mapRange t.ndims fun i => do
    let c ← pyGet t.cores i
    dimAt c.shape (ax + if t.isBatch then 2 else 1)

/-- shapes.py:90-108 `batch_size`. -/
def dynBatchSize (t : TT K) : R ℕ :=
  if t.isBatch then do
    let c ← pyGet t.cores 0
    dimAt c.shape 0
  else throw Err.value

/-- shapes.py:28-56 `shape`, with the products of line 47 in 32 bit integers. (Mode sizes are below `2 ^ 31`.) -/
def dynShape (t : TT K) : R (List ℤ) := do
  let raw ← dynRawShape t
  let res ← if t.isMatrix then pure (raw.map fun row => int32 row.prod) else (pyGet raw 0).map fun row => row.map Int.ofNat
  if t.isBatch then do
    let n ← dynBatchSize t
    pure (Int.ofNat n :: res)
  else pure res

/-- shapes.py:111-130 `lazy_tt_ranks`. -/
def lazyTTRanks (known : Bool) (t : TT K) : R (List ℕ) := if known then pure t.ttRanks else dynTTRanks t

/-- shapes.py:133-152 `lazy_shape`. -/
def lazyShape (known : Bool) (t : TT K) : R (List ℤ) := if known then t.getShape.map fun s => s.map Int.ofNat else dynShape t

/-- shapes.py:155-178 `lazy_raw_shape`. -/
def lazyRawShape (known : Bool) (t : TT K) : R (List (List ℕ)) := if known then pure t.rawShape else dynRawShape t

/-- shapes.py:181-199 `lazy_batch_size`. -/
def lazyBatchSizeOf (known : Bool) (t : TT K) : R ℕ := if known then t.lazyBatchSize else dynBatchSize t

end T3f
