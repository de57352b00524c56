import Verif.Model.Typed
import Verif.Model.Approximate

/-!
# Sums with data types

`/repo/t3f/approximate.py` with the data types of the tensors; see `Model/Approximate.lean`.
-/

namespace T3f.Dt

/-- approximate.py:34-40 -/
noncomputable def addNLevel (qr : QRRoutine) (svd : SVDRoutine) (m : MaxRank) (prev : List (TT ℝ)) : R (List (TT ℝ)) :=
  mapRange ((prev.length + 1) / 2) fun j => do
    let curr ← pyGet prev (2 * j)
    if 2 * j + 1 < prev.length then do
      let other ← pyGet prev (2 * j + 1)
      let sum ← add curr other
      ttRound qr svd sum m none
    else pure curr

/-- approximate.py:33-40, see `T3f.addNLoop` -/
noncomputable def addNLoop (qr : QRRoutine) (svd : SVDRoutine) (m : MaxRank) : ℕ → List (TT ℝ) → R (List (TT ℝ))
  | 0, prev => pure prev
  | fuel + 1, prev =>
      if 1 < prev.length then do
        let next ← addNLevel qr svd m prev
        addNLoop qr svd m fuel next
      else pure prev

/-- approximate.py:9-41 `add_n` -/
noncomputable def addN (qr : QRRoutine) (svd : SVDRoutine) (ts : List (TT ℝ)) (m : MaxRank) : R (TT ℝ) := do
  let last ← addNLoop qr svd m ts.length ts
  pyGet last 0

/-- approximate.py:101-117 -/
noncomputable def repeatCore (coef core : Tensor ℝ) (N idx : ℕ) : R (Tensor ℝ) := do
  let n ← pyGet core.val.shape 0
  let expanded ← reshape core ((n :: 1 :: core.val.shape.tail).map some)
  let tiled ← tile expanded (1 :: N :: List.replicate core.val.shape.tail.length 1)
  let weighted ← if idx = 0 then do
      let shaped : Tensor ℝ :=
        ⟨coef.dtype, ⟨coef.val.shape ++ List.replicate (tiled.val.shape.length - coef.val.shape.length) 1, fun i => coef.val.get (i.take coef.val.shape.length)⟩⟩
      binop (· * ·) tiled shaped
    else pure tiled
  reshape weighted (((n * N) :: core.val.shape.tail).map some)

/-- approximate.py:85-123; the coefficients are converted to the data type of the batch (line 86). -/
noncomputable def weightBatch (t : TT ℝ) : Option (Arg ℝ) → R (TT ℝ × Option ℕ)
  | none => pure (t, none)
  | some coef => do
      let coef ← convertToTensor (← t.dtype) coef
      match coef.val.shape with
      | [_] => do
          let w ← multiplyAlongBatchDim t (.tensor coef)
          pure (w, none)
      | [n, N] => do
          require (t.batch = some n) Err.value
          let cores ← mapRange t.erase.ndims fun idx => do
            let core ← pyGet t.cores idx
            repeatCore coef core N idx
          let w ← mkBatch cores (.shapes t.rawShape) (some t.ttRanks)
          pure (w, some N)
      | _ => throw Err.value

/-- approximate.py:133-139 -/
def splitFirst (out : Option ℕ) (core : Tensor ℝ) : R (Tensor ℝ) := lift (T3f.splitFirst out) core

/-- approximate.py:152-161 -/
def mergeFirst (out : Option ℕ) (core : Tensor ℝ) : R (Tensor ℝ) := lift (T3f.mergeFirst out) core

/-- approximate.py:144-150; the zeros have the data type of the batch (lines 78, 149). -/
def padOdd (d : DType) (a b : Tensor ℝ) : R (Tensor ℝ) := do
  let na ← pyGet a.val.shape 0
  let nb ← pyGet b.val.shape 0
  if nb < na then concat 0 [b, zeros d (b.val.shape.set 0 1)] else pure b

/-- approximate.py:132-161 -/
def halves (d : DType) (out : Option ℕ) (core : Tensor ℝ) : R (Tensor ℝ × Tensor ℝ) := do
  let core ← splitFirst out core
  let a ← getItem core [.slice none none 2]
  let b ← getItem core [.slice (some 1) none 2]
  let b ← padOdd d a b
  let a ← mergeFirst out a
  let b ← mergeFirst out b
  pure (a, b)

/-- approximate.py:130-174; `d` is the data type of the argument of `reduce_sum_batch` (lines 78, 168). -/
noncomputable def reduceLevel (qr : QRRoutine) (svd : SVDRoutine) (m : MaxRank) (d : DType) (out : Option ℕ) (t : TT ℝ) : R (TT ℝ) := do
  let cores ← mapRange t.erase.ndims fun idx => do
    let core ← pyGet t.cores idx
    let (a, b) ← halves d out core
    addCore d 1 (if t.erase.isMatrix then 4 else 3) t.erase.ndims idx (pure b.val.shape) (pure b.val.shape) a b
  let sum ← mkBatch cores (.shapes t.rawShape)
  ttRound qr svd sum m none

/-- approximate.py:129-174, see `T3f.reduceLoop` -/
noncomputable def reduceLoop (qr : QRRoutine) (svd : SVDRoutine) (m : MaxRank) (d : DType) (out : Option ℕ) : ℕ → TT ℝ → R (TT ℝ)
  | 0, t => pure t
  | fuel + 1, t =>
      if out.getD 1 < t.batch.getD 0 then do
        let next ← reduceLevel qr svd m d out t
        reduceLoop qr svd m d out fuel next
      else pure t

/-- approximate.py:44-178 `reduce_sum_batch` -/
noncomputable def reduceSumBatch (qr : QRRoutine) (svd : SVDRoutine) (t : TT ℝ) (m : MaxRank) (coef : Option (Arg ℝ)) : R (TT ℝ) := do
  let d ← t.dtype
  let (w, out) ← weightBatch t coef
  let last ← reduceLoop qr svd m d out (w.batch.getD 0) w
  match out with
  | some _ => pure last
  | none => batchGetItem last (.int 0) []

end T3f.Dt
