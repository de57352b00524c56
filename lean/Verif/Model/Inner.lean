import Verif.Model.Matmul

/-!
# Inner products, norms and bilinear forms

Models `/repo/t3f/ops.py:321-400` (`tt_tt_flat_inner`), `922-973` (`frobenius_norm_squared` with
`differentiable=True`), `1039-1187` (`quadratic_form`, `bilinear_form`, `bilinear_form_two_mat`) and
`/repo/t3f/batch_ops.py:84-235` (`gram_matrix`, `pairwise_flat_inner`).
-/

namespace T3f

variable {K : Type} [CommRing K]

/-- ops.py:370: labels of the mode axes. -/
def modeLabels (t : TT K) : List Char := if t.isMatrix then chars! "ij" else chars! "i"

/-- The einsum strings ops.py:380-382 (`first = true`) and ops.py:390-392. -/
def innerSpec (first : Bool) (ax la lb lr : List Char) : List (List Char) × List Char :=
  ((if first then [] else [lr ++ chars! "ac"]) ++
    [la ++ 'a' :: (ax ++ ['b']), lb ++ 'c' :: (ax ++ ['d'])], lr ++ chars! "bd")

/-- ops.py:380-399: the contraction of two core lists with batch letters `la`, `lb`, `lr`. -/
def innerLoop (a b : TT K) (n : ℕ) (ax la lb lr : List Char) : R (Tensor K) := do
  let a0 ← pyGet a.cores 0
  let b0 ← pyGet b.cores 0
  let res ← einsum (innerSpec true ax la lb lr) [a0, b0]
  forRange (fun k res => do
    let ac ← pyGet a.cores k
    let bc ← pyGet b.cores k
    einsum (innerSpec false ax la lb lr) [res, ac, bc]) 1 (n - 1) res

/-- ops.py:321-400 `tt_tt_flat_inner`. -/
def flatInner (a b : TT K) : R (Tensor K) := do
  require (a.isMatrix ↔ b.isMatrix) Err.value
  require (isBatchBroadcastingPossible a b = true) Err.value
  require (b.ndims = a.ndims) Err.value
  let n := a.ndims
  let ax := modeLabels a
  let a ← squeezeBatchDim a
  let b ← squeezeBatchDim b
  let res ← innerLoop a b n ax (bLabel 'o' a.batch) (bLabel 'o' b.batch)
    (bLabel 'o' (resBatch a.batch b.batch))
  pure (squeezeAll res)

/-- ops.py:940-963: `frobenius_norm_squared(tt, differentiable=True)`. `tf.squeeze(t, [-1, -2])` is
modelled by squeezing the last axis and then the new last axis. -/
def frobeniusNormSquaredDiff (t : TT K) : R (Tensor K) := do
  let l := bLabel 'n' t.batch
  let res ← innerLoop t t t.ndims (modeLabels t) l l l
  let r1 ← squeezeAxis res (res.shape.length - 1)
  squeezeAxis r1 (r1.shape.length - 1)

/-- ops.py:1046-1118 `bilinear_form(A, b, c)`; `c_is_batch` is computed from `b` (line 1086). -/
def bilinearForm (A b c : TT K) : R (Tensor K) := do
  require A.isMatrix Err.value
  require b.isMatrix Err.value
  require c.isMatrix Err.value
  let l := bLabel 'p' b.batch
  let b0 ← pyGet b.cores 0
  let c0 ← pyGet c.cores 0
  let A0 ← pyGet A.cores 0
  let res ← einsum ([l ++ chars! "aikb", chars! "cijd", l ++ chars! "ejkf"], l ++ chars! "bdf") [b0, A0, c0]
  let res ← forRange (fun k res => do
    let bc ← pyGet b.cores k
    let cc ← pyGet c.cores k
    let Ac ← pyGet A.cores k
    einsum ([l ++ chars! "ace", l ++ chars! "aikb", chars! "cijd", l ++ chars! "ejkf"], l ++ chars! "bdf")
      [res, bc, Ac, cc]) 1 (A.ndims - 1) res
  pure (squeezeAll res)

/-- ops.py:1039-1043 `quadratic_form(A, b, c)`. -/
def quadraticForm (A b c : TT K) : R (Tensor K) := bilinearForm A b c

/-- ops.py:1121-1187 `bilinear_form_two_mat(x, A, B, y)`; `y_is_batch` is computed from `x` (line 1151)
and the letter `p` stands both for the batch axis and for the inner mode of the two matrices. -/
def bilinearFormTwoMat (x A B y : TT K) : R (Tensor K) := do
  require A.isMatrix Err.value
  require B.isMatrix Err.value
  require x.isMatrix Err.value
  require y.isMatrix Err.value
  let l := bLabel 'p' x.batch
  let x0 ← pyGet x.cores 0
  let y0 ← pyGet y.cores 0
  let A0 ← pyGet A.cores 0
  let B0 ← pyGet B.cores 0
  let res ← einsum ([l ++ chars! "elnf", chars! "glph", chars! "ipoj", l ++ chars! "aomb"],
    l ++ chars! "fhjb") [x0, A0, B0, y0]
  let res ← forRange (fun k res => do
    let xc ← pyGet x.cores k
    let yc ← pyGet y.cores k
    let Ac ← pyGet A.cores k
    let Bc ← pyGet B.cores k
    einsum ([l ++ chars! "egia", l ++ chars! "elnf", chars! "glph", chars! "ipoj", l ++ chars! "aomb"],
      l ++ chars! "fhjb") [res, xc, Ac, Bc, yc]) 1 (A.ndims - 1) res
  pure (squeezeAll res)

/-- The einsum strings batch_ops.py:170 (`first = true`) and batch_ops.py:175. -/
def pairSpec (first : Bool) (ax : List Char) : List (List Char) × List Char :=
  ((if first then [] else [chars! "pqac"]) ++
    ['p' :: 'a' :: (ax ++ ['b']), 'q' :: 'c' :: (ax ++ ['d'])], chars! "pqbd")

/-- batch_ops.py:120-235 `pairwise_flat_inner(tt_1, tt_2)` without a matrix. -/
def pairwiseFlatInner (a b : TT K) : R (Tensor K) := do
  let a0 ← pyGet a.cores 0
  let b0 ← pyGet b.cores 0
  let ax := modeLabels a
  let res ← einsum (pairSpec true ax) [a0, b0]
  let res ← forRange (fun k res => do
    let ac ← pyGet a.cores k
    let bc ← pyGet b.cores k
    einsum (pairSpec false ax) [res, ac, bc]) 1 (a.ndims - 1) res
  pure (squeezeAll res)

/-- batch_ops.py:200-207: column vectors are turned into row vectors. `get_shape()` of a batch has the
batch size in front; for a `TensorTrain` the subscript `[2]` raises IndexError. -/
def rowVector (t : TT K) : R (TT K) := do
  let sh ← t.getShape
  let s2 ← pyGet sh 2
  if s2 = 1 then do
    let s1 ← pyGet sh 1
    if s1 ≠ 1 then ttTranspose t else pure t
  else pure t

/-- batch_ops.py:120-235 `pairwise_flat_inner(tt_1, tt_2, matrix)`. -/
def pairwiseFlatInnerMatrix (a b M : TT K) : R (Tensor K) := do
  require (a.isMatrix ∧ b.isMatrix ∧ M.isMatrix) Err.value
  let n := a.ndims
  let arow ← pyGet a.rawShape 0
  let mrow ← pyGet M.rawShape 0
  require (arow = mrow) Err.value
  let brow ← pyGet b.rawShape 0
  let mcol ← pyGet M.rawShape 1
  require (brow = mcol) Err.value
  let a ← rowVector a
  let b ← rowVector b
  let sa ← a.getShape
  let sa1 ← pyGet sa 1
  require (sa1 = 1) Err.value
  let sb ← b.getShape
  let sb1 ← pyGet sb 1
  require (sb1 = 1) Err.value
  let a0 ← pyGet a.cores 0
  let b0 ← pyGet b.cores 0
  let M0 ← pyGet M.cores 0
  let res ← einsum (ein! "pakib,cijd,qekjf->pqbdf") [a0, M0, b0]
  let res ← forRange (fun k res => do
    let ac ← pyGet a.cores k
    let bc ← pyGet b.cores k
    let Mc ← pyGet M.cores k
    einsum (ein! "pqace,pakib,cijd,qekjf->pqbdf") [res, ac, Mc, bc]) 1 (n - 1) res
  pure (squeezeAll res)

/-- batch_ops.py:84-117 `gram_matrix`. -/
def gramMatrix (t : TT K) : R (Tensor K) := pairwiseFlatInner t t

end T3f
