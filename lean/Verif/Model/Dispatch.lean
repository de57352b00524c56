import Verif.Model.Gather

/-!
# Type dispatch of `matmul` and `flat_inner`

Models `/repo/t3f/ops.py:250-318` and `/repo/t3f/ops.py:403-416, 471-539`.
-/

namespace T3f

variable {K : Type} [CommRing K]

/-- The argument types of `matmul` and `flat_inner`: `TensorTrain` / `TensorTrainBatch`, `tf.Tensor`,
`tf.SparseTensor` (indices and values). -/
inductive Arg (K : Type) where
  | tt (t : TT K)
  | dense (T : Tensor K)
  | sparse (indices : Tensor ℕ) (values : Tensor K)

/-- ops.py:277-318 `matmul`; the sparse cases call functions that raise NotImplementedError
(ops.py:250-274). Batches are not `TensorTrain` objects, so all mixed cases with batches are
rejected. -/
def matmulAny : Arg K → Arg K → R (Arg K)
  | .tt a, .tt b => do pure (.tt (← ttTTMatmul a b))
  | .tt a, .dense B => if a.isBatch then throw Err.value else do pure (.dense (← ttDenseMatmul a B))
  | .dense A, .tt b => if b.isBatch then throw Err.value else do pure (.dense (← denseTTMatmul A b))
  | .tt a, .sparse _ _ => if a.isBatch then throw Err.value else throw Err.notImpl
  | .sparse _ _, .tt b => if b.isBatch then throw Err.value else throw Err.notImpl
  | _, _ => throw Err.value

/-- ops.py:504-539 `flat_inner`; the cases with a dense tensor and the case sparse × TT call functions
that raise NotImplementedError (ops.py:403-416, 471-501). -/
def flatInnerAny : Arg K → Arg K → R (Tensor K)
  | .tt a, .tt b => flatInner a b
  | .tt a, .dense _ => if a.isBatch then throw Err.value else throw Err.notImpl
  | .dense _, .tt b => if b.isBatch then throw Err.value else throw Err.notImpl
  | .tt a, .sparse i v => if a.isBatch then throw Err.value else do pure (scalar (← ttSparseFlatInner a i v))
  | .sparse _ _, .tt b => if b.isBatch then throw Err.value else throw Err.notImpl
  | _, _ => throw Err.value

end T3f
