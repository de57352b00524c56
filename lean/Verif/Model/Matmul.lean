import Verif.Model.Indexing

/-!
# Matrix products and transposition

Models `/repo/t3f/ops.py:106-318` (`tt_tt_matmul`, `tt_dense_matmul`, `dense_tt_matmul`, `matmul`) and
`/repo/t3f/ops.py:1000-1036` (`transpose`). Products with sparse matrices raise NotImplementedError
(ops.py:250-274) and are not modelled.
-/

namespace T3f

variable {K : Type} [CommRing K]

/-- The letter of the batch axis in an einsum string, e.g. ops.py:144-146. -/
def bLabel (c : Char) (b : Option ℕ) : List Char := if b.isSome then [c] else []

/-- ops.py:157-161: the batch size of the result; the one of `b` wins (they are equal if both exist,
because batches of size one were squeezed). -/
def resBatch (a b : Option ℕ) : Option ℕ := if b.isSome then b else a

/-- ops.py:162-177: one core of the product. -/
def matmulCore (a b : TT K) (i : ℕ) : R (Tensor K) := do
  let ac ← pyGet a.cores i
  let bc ← pyGet b.cores i
  let e ← einsum ([bLabel 'o' a.batch ++ chars! "aijb", bLabel 'o' b.batch ++ chars! "cjkd"],
    bLabel 'o' (resBatch a.batch b.batch) ++ chars! "acikbd") [ac, bc]
  let lr := (← pyGet a.ttRanks i) * (← pyGet b.ttRanks i)
  let rr := (← pyGet a.ttRanks (i + 1)) * (← pyGet b.ttRanks (i + 1))
  let arow ← pyGet a.rawShape 0
  let lm ← pyGet arow i
  let brow ← pyGet b.rawShape 1
  let rm ← pyGet brow i
  reshape e ((resBatch a.batch b.batch).toList.map some ++ [some lr, some lm, some rm, some rr])

/-- ops.py:106-185 `tt_tt_matmul`. -/
def ttTTMatmul (a b : TT K) : R (TT K) := do
  require (a.isMatrix ∧ b.isMatrix) Err.value
  require (isBatchBroadcastingPossible a b = true) Err.value
  require (b.ndims = a.ndims) Err.value
  let n := a.ndims
  let a ← squeezeBatchDim a
  let b ← squeezeBatchDim b
  let cores ← mapRange n (matmulCore a b)
  let arow ← pyGet a.rawShape 0
  let brow ← pyGet b.rawShape 1
  mkLike (resBatch a.batch b.batch) cores [arow, brow] (List.zipWith (· * ·) a.ttRanks b.ttRanks)

/-- ops.py:1000-1036 `transpose`. -/
def ttTranspose (t : TT K) : R (TT K) := do
  require t.isMatrix Err.value
  let cores ← mapRange t.ndims fun i => do
    let c ← pyGet t.cores i
    if t.isBatch then transpose c [0, 1, 3, 2, 4] else transpose c [0, 2, 1, 3]
  let row0 ← pyGet t.rawShape 0
  let row1 ← pyGet t.rawShape 1
  mkLike t.batch cores [row1, row0] t.ttRanks

/-- ops.py:220-229, one iteration of the loop of `tt_dense_matmul` for the core `k`. -/
def denseStep (a : TT K) (k : ℕ) (data : Tensor K) : R (Tensor K) := do
  let core ← pyGet a.cores k
  let data ← einsum (ein! "aijb,rjb->ira") [core, data]
  if 0 < k then do
    let row1 ← pyGet a.rawShape 1
    reshape data [none, some (← pyGet row1 (k - 1)), some (← pyGet a.ttRanks k)]
  else pure data

/-- `for core_idx in reversed(range(n))`. -/
def forReversed {σ : Type} (f : ℕ → σ → R σ) : ℕ → σ → R σ
  | 0, s => Except.ok s
  | n + 1, s => f n s >>= forReversed f n

/-- ops.py:188-231 `tt_dense_matmul` (static shapes known). A mismatch of the sizes raises TypeError,
because the message is formatted with `%d` from shapes. -/
def ttDenseMatmul (a : TT K) (B : Tensor K) : R (Tensor K) := do
  require (a.batch = none ∧ a.isMatrix) Err.value
  let sh ← a.getShape
  let cols ← pyGet sh 1
  let brows ← pyGet B.shape 0
  require (cols = brows) Err.type
  let rows ← pyGet sh 0
  -- `tf.transpose` without `perm` reverses the axes
  let data ← transpose B (List.range B.shape.length).reverse
  let row1 ← pyGet a.rawShape 1
  let data ← reshape data [none, some (← pyLast row1), some 1]
  let data ← forReversed (denseStep a) a.ndims data
  reshape data [some rows, some (← pyGet B.shape 1)]

/-- ops.py:234-247 `dense_tt_matmul`. -/
def denseTTMatmul (A : Tensor K) (b : TT K) : R (Tensor K) := do
  let at' ← transpose A (List.range A.shape.length).reverse
  let bt ← ttTranspose b
  let r ← ttDenseMatmul bt at'
  transpose r (List.range r.shape.length).reverse

end T3f
