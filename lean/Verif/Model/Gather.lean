import Verif.Model.Inner
import Verif.Tf.Gather
import Mathlib.Analysis.SpecialFunctions.Log.Basic
import Mathlib.Analysis.SpecialFunctions.Pow.Real

/-!
# Reading elements, sparse inner products, casts and renormalization

Models `/repo/t3f/utils.py:7-13` (`unravel_index`), `/repo/t3f/ops.py:419-469`
(`tt_sparse_flat_inner`), `1190-1215` (`cast`), `1218-1273` (`gather_nd`) and `1276-1326`
(`renormalize_tt_cores`).
-/

namespace T3f

variable {K : Type} [CommRing K]

/-- utils.py:7-13 `unravel_index`. -/
def unravelIndex (indices : Tensor ℕ) (shape : List ℕ) : R (Tensor ℕ) := do
  let idx ← expandDims indices 0
  let q ← intBinop (· / ·) idx (cumprodExclRev shape)
  let res ← intBinop (· % ·) q shape
  transpose res [1, 0]

/-- ops.py:1259-1271, one step of the loop of `gather_nd` for the core `k`. -/
def gatherStep (t : TT K) (indices : Tensor ℕ) (k : ℕ) (el : Tensor K) : R (Tensor K) := do
  let core ← pyGet t.cores k
  if t.isBatch then do
    let core ← transpose core [0, 2, 1, 3]
    let idx ← stack1 (← column indices 0) (← column indices (k + 1))
    matmul el (← gatherNd2 core idx)
  else do
    let core ← transpose core [1, 0, 2]
    matmul el (← gather core (← column indices k))

/-- ops.py:1218-1273 `gather_nd`, for index arrays with any number of axes (the code subscripts `indices[:, k]`). Negative
subscripts are not modelled. -/
def ttGatherNd (t : TT K) (indices : Tensor ℕ) : R (Tensor K) := do
  require (¬ t.isMatrix) Err.notImpl
  let last ← pyLast indices.shape
  require (last = if t.isBatch then t.ndims + 1 else t.ndims) Err.value
  let el : Tensor K := ones indices.shape.dropLast
  let el ← reshape el [none, some 1, some 1]
  let el ← forRange (gatherStep t indices) 0 t.ndims el
  reshape el (indices.shape.dropLast.map some)

/-- ops.py:449-463, one step of the loop of `tt_sparse_flat_inner` for a TT-matrix. -/
def sparseStep (t : TT K) (rowIdx colIdx : Tensor ℕ) (k : ℕ) (el : Tensor K) : R (Tensor K) := do
  let core ← pyGet t.cores k
  let lr ← pyGet t.ttRanks k
  let rr ← pyGet t.ttRanks (k + 1)
  let core ← transpose core [1, 2, 0, 3]
  let row0 ← pyGet t.rawShape 0
  let row1 ← pyGet t.rawShape 1
  let n ← pyGet row0 k
  let m ← pyGet row1 k
  let core ← reshape core [some (n * m), some lr, some rr]
  let r ← column rowIdx k
  let c ← column colIdx k
  let idx ← binop (· + ·) (r.map (· * m)) c
  matmul el (← gather core idx)

/-- ops.py:419-469 `tt_sparse_flat_inner`: a sparse tensor is given by its `indices` (one row for each
element) and `values`; its `dense_shape` is not used by the code. -/
def ttSparseFlatInner (t : TT K) (indices : Tensor ℕ) (values : Tensor K) : R K := do
  let num ← pyGet indices.shape 0
  let el ← if t.isMatrix then do
      let row0 ← pyGet t.rawShape 0
      let row1 ← pyGet t.rawShape 1
      let rowIdx ← unravelIndex (← column indices 0) row0
      let colIdx ← unravelIndex (← column indices 1) row1
      forRange (sparseStep t rowIdx colIdx) 0 t.ndims (ones [num, 1, 1])
    else ttGatherNd t indices
  let el ← reshape el [some 1, none]
  let v ← reshape values [none, some 1]
  let res ← matmul el v
  let res ← getItem res [.int 0, .int 0]
  pure (res.get [])

/-- ops.py:1190-1215 `cast`; `f` is the conversion of the elements. -/
def ttCast {L : Type} (f : K → L) (t : TT K) : R (TT L) := do
  let cores ← mapRange t.ndims fun i => do
    let c ← pyGet t.cores i
    pure (c.map f)
  mkLike t.batch cores t.rawShape t.ttRanks

/-- ops.py:1297-1312: `renormalize_tt_cores` of a `TensorTrain`. -/
noncomputable def renormalizeTT (t : TT ℝ) (eps : ℝ) : R (TT ℝ) := do
  let norms := t.cores.map fun c => Real.sqrt (max (reduceSum (c.map (· ^ 2))) eps)
  let logs := (norms.map Real.log).sum / (t.ndims : ℝ)
  let fact := Real.exp logs
  let cores ← mapRange t.ndims fun i => do
    let c ← pyGet t.cores i
    let n ← pyGet norms i
    pure (c.map fun x => x * fact / n)
  mkTT cores

/-- ops.py:1313-1326: `renormalize_tt_cores` of a `TensorTrainBatch`. The running sum of logarithms
starts with zeros of shape `(batch_size, 1, ..., 1)`. -/
noncomputable def renormalizeBatch (t : TT ℝ) (eps : ℝ) : R (TT ℝ) := do
  let bs ← t.lazyBatchSize
  let c0 ← pyGet t.cores 0
  let start : Tensor ℝ := zeros (bs :: List.replicate (c0.shape.length - 1) 1)
  let norms ← mapRange t.ndims fun i => do
    let c ← pyGet t.cores i
    let nsq ← reduceSumKeepFirst (c.map (· ^ 2))
    pure (nsq.map fun x => Real.sqrt (max eps x))
  let logs ← forRange (fun i s => do
    let n ← pyGet norms i
    binop (· + ·) s (n.map Real.log)) 0 t.ndims start
  let fact := logs.map fun x => Real.exp (x / (t.ndims : ℝ))
  let cores ← mapRange t.ndims fun i => do
    let c ← pyGet t.cores i
    let n ← pyGet norms i
    let f ← binop (· / ·) fact n
    binop (· * ·) c f
  mkBatch cores

/-- ops.py:1276-1326 `renormalize_tt_cores`. -/
noncomputable def renormalize (t : TT ℝ) (eps : ℝ) : R (TT ℝ) :=
  if t.isBatch then renormalizeBatch t eps else renormalizeTT t eps

end T3f
