import Verif.Tf.Cost
import Verif.Model.Inner

/-!
# The functions with documented complexity, with a count of multiplications

The same code as in `Model/Inner.lean`; each einsum is charged as described in `Tf/Cost.lean`. `Props/C66Complexity.lean` shows that the results are
those of the functions without the count, whatever the arguments. Checks, reading of attributes, `tf.squeeze` and the swap of two axes of a vector
(ops.py:880-885 `transpose`, one axis has size one) are not charged.
-/

namespace T3f

open Counted

variable {K : Type} [CommRing K]

/-- ops.py:380-399. -/
def innerLoopC (S : Strategy) (a b : TT K) (n : ℕ) (ax la lb lr : List Char) : Counted (Tensor K) := do
  let a0 ← free (pyGet a.cores 0)
  let b0 ← free (pyGet b.cores 0)
  let res ← einsumC S (innerSpec true ax la lb lr) [a0, b0]
  forRangeC (fun k res => do
    let ac ← free (pyGet a.cores k)
    let bc ← free (pyGet b.cores k)
    einsumC S (innerSpec false ax la lb lr) [res, ac, bc]) 1 (n - 1) res

/-- ops.py:321-400 `tt_tt_flat_inner`. -/
def flatInnerC (S : Strategy) (a b : TT K) : Counted (Tensor K) := do
  free (require (a.isMatrix ↔ b.isMatrix) Err.value)
  free (require (isBatchBroadcastingPossible a b = true) Err.value)
  free (require (b.ndims = a.ndims) Err.value)
  let n := a.ndims
  let ax := modeLabels a
  let a ← free (squeezeBatchDim a)
  let b ← free (squeezeBatchDim b)
  let res ← innerLoopC S a b n ax (bLabel 'o' a.batch) (bLabel 'o' b.batch)
    (bLabel 'o' (resBatch a.batch b.batch))
  pure (squeezeAll res)

/-- ops.py:1046-1118 `bilinear_form(A, b, c)`. -/
def bilinearFormC (S : Strategy) (A b c : TT K) : Counted (Tensor K) := do
  free (require A.isMatrix Err.value)
  free (require b.isMatrix Err.value)
  free (require c.isMatrix Err.value)
  let l := bLabel 'p' b.batch
  let b0 ← free (pyGet b.cores 0)
  let c0 ← free (pyGet c.cores 0)
  let A0 ← free (pyGet A.cores 0)
  let res ← einsumC S ([l ++ chars! "aikb", chars! "cijd", l ++ chars! "ejkf"], l ++ chars! "bdf") [b0, A0, c0]
  let res ← forRangeC (fun k res => do
    let bc ← free (pyGet b.cores k)
    let cc ← free (pyGet c.cores k)
    let Ac ← free (pyGet A.cores k)
    einsumC S ([l ++ chars! "ace", l ++ chars! "aikb", chars! "cijd", l ++ chars! "ejkf"], l ++ chars! "bdf")
      [res, bc, Ac, cc]) 1 (A.ndims - 1) res
  pure (squeezeAll res)

/-- batch_ops.py:120-235 `pairwise_flat_inner(tt_1, tt_2)` without a matrix. -/
def pairwiseFlatInnerC (S : Strategy) (a b : TT K) : Counted (Tensor K) := do
  let a0 ← free (pyGet a.cores 0)
  let b0 ← free (pyGet b.cores 0)
  let ax := modeLabels a
  let res ← einsumC S (pairSpec true ax) [a0, b0]
  let res ← forRangeC (fun k res => do
    let ac ← free (pyGet a.cores k)
    let bc ← free (pyGet b.cores k)
    einsumC S (pairSpec false ax) [res, ac, bc]) 1 (a.ndims - 1) res
  pure (squeezeAll res)

/-- batch_ops.py:84-117 `gram_matrix`. -/
def gramMatrixC (S : Strategy) (t : TT K) : Counted (Tensor K) := pairwiseFlatInnerC S t t

/-- batch_ops.py:120-235 `pairwise_flat_inner(tt_1, tt_2, matrix)`. -/
def pairwiseFlatInnerMatrixC (S : Strategy) (a b M : TT K) : Counted (Tensor K) := do
  free (require (a.isMatrix ∧ b.isMatrix ∧ M.isMatrix) Err.value)
  let n := a.ndims
  let arow ← free (pyGet a.rawShape 0)
  let mrow ← free (pyGet M.rawShape 0)
  free (require (arow = mrow) Err.value)
  let brow ← free (pyGet b.rawShape 0)
  let mcol ← free (pyGet M.rawShape 1)
  free (require (brow = mcol) Err.value)
  let a ← free (rowVector a)
  let b ← free (rowVector b)
  let sa ← free a.getShape
  let sa1 ← free (pyGet sa 1)
  free (require (sa1 = 1) Err.value)
  let sb ← free b.getShape
  let sb1 ← free (pyGet sb 1)
  free (require (sb1 = 1) Err.value)
  let a0 ← free (pyGet a.cores 0)
  let b0 ← free (pyGet b.cores 0)
  let M0 ← free (pyGet M.cores 0)
  let res ← einsumC S (ein! "pakib,cijd,qekjf->pqbdf") [a0, M0, b0]
  let res ← forRangeC (fun k res => do
    let ac ← free (pyGet a.cores k)
    let bc ← free (pyGet b.cores k)
    let Mc ← free (pyGet M.cores k)
    einsumC S (ein! "pqace,pakib,cijd,qekjf->pqbdf") [res, ac, Mc, bc]) 1 (n - 1) res
  pure (squeezeAll res)

end T3f
