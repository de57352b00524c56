import Verif.Model.TensorTrain
import Mathlib.Algebra.BigOperators.Group.List.Basic

/-!
# `concat_along_batch_dim`, `multiply_along_batch_dim`

Models `/repo/t3f/batch_ops.py:9-81`.
-/

namespace T3f

variable {K : Type}

/-- batch_ops.py:9-54 `concat_along_batch_dim` for a Python list of TT objects (passing a single TT
object instead of a list returns it and is not modelled). `tt_list[0]` of an empty list raises
IndexError. Batch sizes are known, so their sum is. -/
def concatAlongBatchDim (ts : List (TT K)) : R (TT K) := do
  let first ← pyGet ts 0
  let _ ← mapRange ts.length fun i => do
    let t ← pyGet ts i
    require (t.isBatch = true) Err.value
  let _ ← forRange (fun i (_ : Unit) => do
    let t ← pyGet ts i
    require (t.rawShape = first.rawShape) Err.value
    require (t.ttRanks = first.ttRanks) Err.value) 1 (ts.length - 1) ()
  let cores ← mapRange first.ndims fun k => do
    let cs ← mapRange ts.length fun i => do
      let t ← pyGet ts i
      pyGet t.cores k
    concat 0 cs
  let n := (ts.map fun t => t.batch.getD 0).sum
  mkBatch cores (.shapes first.rawShape) (some first.ttRanks) (some n)

/-- batch_ops.py:72-75: `weights[:, tf.newaxis, ...]` with `e` new axes. A 0-d tensor raises. -/
def expandWeights (e : ℕ) (w : Tensor K) : R (Tensor K) :=
  match w.shape with
  | [] => throw Err.tf
  | n :: rest => pure ⟨n :: (List.replicate e 1 ++ rest), fun i => w.get (i.headD 0 :: i.drop (e + 1))⟩

/-- batch_ops.py:57-81 `multiply_along_batch_dim`. The batch size is that of a
`TensorTrainBatch` (a `TensorTrain` has no attribute `batch_size`: AttributeError after the
multiplication). -/
def multiplyAlongBatchDim [Mul K] (t : TT K) (w : Tensor K) : R (TT K) := do
  let w' ← expandWeights (if t.isMatrix then 4 else 3) w
  let c0 ← pyGet t.cores 0
  let c0' ← binop (· * ·) w' c0
  match t.batch with
  | none => throw Err.attr
  | some bs => mkBatch (t.cores.set 0 c0') (.shapes t.rawShape) (some t.ttRanks) (some bs)

end T3f
