import Verif.Model.Decompositions
import Verif.Model.Add
import Verif.Model.BatchOps
import Verif.Model.Indexing

/-!
# Approximate sums

Models `/repo/t3f/approximate.py`. The arithmetic is exact; `qr` and `svd` are the routines used by `round`. The tensors `coef` are already
converted (approximate.py:86).
-/

namespace T3f

/-- approximate.py:34-40: one level of the summation tree of `add_n`; `curr + other` is `t3f.add` for two tensor trains. -/
noncomputable def addNLevel (qr : QRRoutine) (svd : SVDRoutine) (m : MaxRank) (prev : List (TT ℝ)) : R (List (TT ℝ)) :=
  mapRange ((prev.length + 1) / 2) fun j => do
    let curr ← pyGet prev (2 * j)
    if 2 * j + 1 < prev.length then do
      let other ← pyGet prev (2 * j + 1)
      let sum ← add curr other
      ttRound qr svd sum m none
    else pure curr

/-- approximate.py:33-40: the loop `while len(prev_level) > 1`. A level halves the length, so `fuel` = length of the list is never used up. -/
noncomputable def addNLoop (qr : QRRoutine) (svd : SVDRoutine) (m : MaxRank) : ℕ → List (TT ℝ) → R (List (TT ℝ))
  | 0, prev => pure prev
  | fuel + 1, prev =>
      if 1 < prev.length then do
        let next ← addNLevel qr svd m prev
        addNLoop qr svd m fuel next
      else pure prev

/-- approximate.py:9-41 `add_n`. -/
noncomputable def addN (qr : QRRoutine) (svd : SVDRoutine) (ts : List (TT ℝ)) (m : MaxRank) : R (TT ℝ) := do
  let last ← addNLoop qr svd m ts.length ts
  pyGet last 0

/-- approximate.py:101-117: the core `idx` of the batch with every element repeated `N` times, multiplied by `coef` for `idx = 0`. -/
noncomputable def repeatCore (coef core : Tensor ℝ) (N idx : ℕ) : R (Tensor ℝ) := do
  let n ← pyGet core.shape 0
  let expanded ← reshape core ((n :: 1 :: core.shape.tail).map some)
  let tiled ← tile expanded (1 :: N :: List.replicate core.shape.tail.length 1)
  let weighted ← if idx = 0 then do
      let shaped : Tensor ℝ := ⟨coef.shape ++ List.replicate (tiled.shape.length - coef.shape.length) 1, fun i => coef.get (i.take coef.shape.length)⟩
      binop (· * ·) tiled shaped
    else pure tiled
  reshape weighted (((n * N) :: core.shape.tail).map some)

/-- approximate.py:85-123: the batch whose levels are summed, and `output_size` in case `coef` is a matrix. -/
noncomputable def weightBatch (t : TT ℝ) : Option (Tensor ℝ) → R (TT ℝ × Option ℕ)
  | none => pure (t, none)
  | some coef =>
      match coef.shape with
      | [_] => do
          let w ← multiplyAlongBatchDim t coef
          pure (w, none)
      | [n, N] => do
          require (t.batch = some n) Err.value
          let cores ← mapRange t.ndims fun idx => do
            let core ← pyGet t.cores idx
            repeatCore coef core N idx
          let w ← mkBatch cores (.shapes t.rawShape) (some t.ttRanks)
          pure (w, some N)
      | _ => throw Err.value

/-- approximate.py:133-139: split the first axis in two if the output is a batch. -/
def splitFirst (out : Option ℕ) (core : Tensor ℝ) : R (Tensor ℝ) :=
  match out with
  | none => pure core
  | some N => do
      let n ← pyGet core.shape 0
      reshape core (((n / N) :: N :: core.shape.tail).map some)

/-- approximate.py:152-161: merge the first two axes if the output is a batch. -/
def mergeFirst (out : Option ℕ) (core : Tensor ℝ) : R (Tensor ℝ) :=
  match out with
  | none => pure core
  | some _ => do
      let n ← pyGet core.shape 0
      let N ← pyGet core.shape 1
      reshape core (((n * N) :: core.shape.drop 2).map some)

/-- approximate.py:144-150: append a zero core to `b` in case of an odd number of elements. -/
def padOdd (a b : Tensor ℝ) : R (Tensor ℝ) := do
  let na ← pyGet a.shape 0
  let nb ← pyGet b.shape 0
  if nb < na then concat 0 [b, zeros (b.shape.set 0 1)] else pure b

/-- approximate.py:132-161: the cores of the elements with even and odd numbers. -/
def halves (out : Option ℕ) (core : Tensor ℝ) : R (Tensor ℝ × Tensor ℝ) := do
  let core ← splitFirst out core
  let a ← getItem core [.slice none none 2]
  let b ← getItem core [.slice (some 1) none 2]
  let b ← padOdd a b
  let a ← mergeFirst out a
  let b ← mergeFirst out b
  pure (a, b)

/-- approximate.py:130-174: add neighbours and round. -/
noncomputable def reduceLevel (qr : QRRoutine) (svd : SVDRoutine) (m : MaxRank) (out : Option ℕ) (t : TT ℝ) : R (TT ℝ) := do
  let cores ← mapRange t.ndims fun idx => do
    let core ← pyGet t.cores idx
    let (a, b) ← halves out core
    addCore 1 (if t.isMatrix then 4 else 3) t.ndims idx (pure b.shape) (pure b.shape) a b
  let sum ← mkBatch cores (.shapes t.rawShape)
  ttRound qr svd sum m none

/-- approximate.py:129-174: the loop `while prev_level.batch_size > output_size`. A level makes the batch smaller, so `fuel` = size of the batch
is never used up. -/
noncomputable def reduceLoop (qr : QRRoutine) (svd : SVDRoutine) (m : MaxRank) (out : Option ℕ) : ℕ → TT ℝ → R (TT ℝ)
  | 0, t => pure t
  | fuel + 1, t =>
      if out.getD 1 < t.batch.getD 0 then do
        let next ← reduceLevel qr svd m out t
        reduceLoop qr svd m out fuel next
      else pure t

/-- approximate.py:44-178 `reduce_sum_batch`, for a `TensorTrainBatch`. -/
noncomputable def reduceSumBatch (qr : QRRoutine) (svd : SVDRoutine) (t : TT ℝ) (m : MaxRank) (coef : Option (Tensor ℝ)) : R (TT ℝ) := do
  let (w, out) ← weightBatch t coef
  let last ← reduceLoop qr svd m out (w.batch.getD 0) w
  match out with
  | some _ => pure last
  | none => batchGetItem last (.int 0) []

end T3f
