import Verif.Model.TensorTrain

/-!
# `ops.full`

Models `/repo/t3f/ops.py:14-103`.
-/

namespace T3f

variable {K : Type} [CommRing K]

/-- ops.py:52-56, 90-94: `[raw_shape[0][0], raw_shape[1][0], raw_shape[0][1], ...]`. -/
def interleavedShape (t : TT K) : R (List ℕ) := do
  let row0 ← pyGet t.rawShape 0
  let row1 ← pyGet t.rawShape 1
  let l ← mapRange t.ndims fun i => do
    let a ← pyGet row0 i
    let b ← pyGet row1 i
    pure [a, b]
  pure l.flatten

/-- ops.py:58-62: `range(0, 2*d, 2)` followed by `range(1, 2*d, 2)`. -/
def evenOddPerm (d : ℕ) : List ℕ :=
  (List.range d).map (fun k => 2 * k) ++ (List.range d).map (fun k => 2 * k + 1)

/-- ops.py:33-66 `_full_tt`. -/
def fullTT (t : TT K) : R (Tensor K) := do
  let shape ← t.getShape
  let res ← pyGet t.cores 0
  let res ← forRange (fun i res => do
      let ri ← pyGet t.ttRanks i
      let res ← reshape res [none, some ri]
      let core ← pyGet t.cores i
      let currCore ← reshape core [some ri, none]
      matmul res currCore) 1 (t.ndims - 1) res
  if t.isMatrix then
    let inter ← interleavedShape t
    let res ← reshape res (inter.map some)
    let res ← transpose res (evenOddPerm t.ndims)
    reshape res (shape.map some)
  else
    reshape res (shape.map some)

/-- ops.py:69-103 `_full_tt_batch`. -/
def fullBatch (t : TT K) : R (Tensor K) := do
  let shape ← t.getShape
  let res ← pyGet t.cores 0
  let bs ← t.lazyBatchSize
  let res ← forRange (fun i res => do
      let ri ← pyGet t.ttRanks i
      let res ← reshape res [some bs, none, some ri]
      let core ← pyGet t.cores i
      let currCore ← reshape core [some bs, some ri, none]
      einsum (ein! "oqb,obw->oqw") [res, currCore]) 1 (t.ndims - 1) res
  if t.isMatrix then
    let inter ← interleavedShape t
    let res ← reshape res ((bs :: inter).map some)
    let res ← transpose res (0 :: (evenOddPerm t.ndims).map (· + 1))
    reshape res (shape.map some)
  else
    reshape res (shape.map some)

/-- ops.py:14-30 `full`. -/
def full (t : TT K) : R (Tensor K) :=
  if t.isBatch then fullBatch t else fullTT t

end T3f
