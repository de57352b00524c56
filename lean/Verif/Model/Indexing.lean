import Verif.Model.TensorTrain

/-!
# Indexing

Models `TensorTrain.__getitem__` (`/repo/t3f/tensor_train.py:102-142`),
`TensorTrainBatch.__getitem__` (`/repo/t3f/tensor_train_batch.py:141-274`) and
`shapes.squeeze_batch_dim` (`/repo/t3f/shapes.py:265-286`).
-/

namespace T3f

variable {K : Type} [CommRing K]

/-- tensor_train.py:117-135, the body of the loop over the cores. The state is the list of new cores
and the remainder. -/
def ttGetItemStep (t : TT K) (spec : List Ix) (i : ℕ) (st : List (Tensor K) × Option (Tensor K)) :
    R (List (Tensor K) × Option (Tensor K)) := do
  let core ← pyGet t.cores i
  if t.isMatrix then throw Err.notImpl else
  let ix ← pyGet spec i
  let sliced ← getItem core [Ix.all, ix, Ix.all]
  if core.shape.length ≠ sliced.shape.length then
    match st.2 with
    | none => pure (st.1, some sliced)
    | some r => do
        let r ← matmul r sliced
        pure (st.1, some r)
  else
    match st.2 with
    | some r => do
        let s ← einsum (ein! "ab,bid->aid") [r, sliced]
        pure (st.1 ++ [s], none)
    | none => pure (st.1 ++ [sliced], none)

/-- tensor_train.py:102-142 `TensorTrain.__getitem__` with a tuple of integers and slices. (Other
subscripts: `Model/Subscript.lean`.) -/
def ttGetItem (t : TT K) (spec : List Ix) : R (TT K) := do
  require (spec.length = t.ndims) Err.value
  let st ← forRange (ttGetItemStep t spec) 0 t.ndims ([], none)
  match st.2 with
  | some r => do
      let last ← pyLast st.1
      let s ← einsum (ein! "aib,bd->aid") [last, r]
      mkTT (st.1.dropLast ++ [s])
  | none => mkTT st.1

/-- tensor_train_batch.py:141-147 `_do_collapse_dim`. -/
def doCollapseDim : Ix → Bool
  | .int _ => true
  | _ => false

/-- tensor_train_batch.py:149-176 `_batch_dim_getitem`: `batch[i]` or `batch[a:b:c]`. -/
def batchDimGetItem (t : TT K) (ix : Ix) : R (TT K) := do
  let cores ← mapRange t.ndims fun i => do
    let core ← pyGet t.cores i
    if t.isMatrix then getItem core [ix, .all, .all, .all, .all]
    else getItem core [ix, .all, .all, .all]
  if doCollapseDim ix then
    mkTT cores (.shapes t.rawShape) (some t.ttRanks)
  else do
    let c0 ← pyGet cores 0
    let bs ← pyGet c0.shape 0
    mkBatch cores (.shapes t.rawShape) (some t.ttRanks) (some bs)

/-- tensor_train_batch.py:194-221, the body of the loop over the cores of `_full_getitem`. -/
def batchFullGetItemStep (t : TT K) (b0 : Ix) (spec : List Ix) (i : ℕ)
    (st : List (Tensor K) × Option (Tensor K)) : R (List (Tensor K) × Option (Tensor K)) := do
  let core ← pyGet t.cores i
  if t.isMatrix then throw Err.notImpl else
  let ix ← pyGet spec i
  let sliced ← getItem core [b0, Ix.all, ix, Ix.all]
  if doCollapseDim ix then
    match st.2 with
    | none => pure (st.1, some sliced)
    | some r => do
        let r ← if doCollapseDim b0 then einsum (ein! "ab,bd->ad") [r, sliced]
          else einsum (ein! "oab,obd->oad") [r, sliced]
        pure (st.1, some r)
  else
    match st.2 with
    | some r => do
        let s ← if doCollapseDim b0 then einsum (ein! "ab,bid->aid") [r, sliced]
          else einsum (ein! "oab,obid->oaid") [r, sliced]
        pure (st.1 ++ [s], none)
    | none => pure (st.1 ++ [sliced], none)

/-- tensor_train_batch.py:178-235 `_full_getitem` for the subscript `b0, spec...`. -/
def batchFullGetItem (t : TT K) (b0 : Ix) (spec : List Ix) : R (TT K) := do
  require (spec.length + 1 = t.ndims + 1) Err.value
  let st ← forRange (batchFullGetItemStep t b0 spec) 0 t.ndims ([], none)
  let cores ← match st.2 with
    | some r => do
        let last ← pyLast st.1
        let s ← if doCollapseDim b0 then einsum (ein! "aib,bd->aid") [last, r]
          else einsum (ein! "oaib,obd->oaid") [last, r]
        pure (st.1.dropLast ++ [s])
    | none => pure st.1
  if doCollapseDim b0 then mkTT cores else mkBatch cores

/-- tensor_train_batch.py:237-274 `__getitem__` with `spec = []` for a subscript that is not a tuple
and `b0, spec...` for a tuple of at least two items. (Tuples of length one: `Model/Subscript.lean`.) -/
def batchGetItem (t : TT K) (b0 : Ix) (spec : List Ix) : R (TT K) :=
  if spec = [] then batchDimGetItem t b0
  else if spec.length + 1 = t.ndims + 1 then batchFullGetItem t b0 spec
  else throw Err.value

/-- shapes.py:265-286 `squeeze_batch_dim`: `tt[0]` for a batch of size one, otherwise unchanged. -/
def squeezeBatchDim (t : TT K) : R (TT K) :=
  if t.batch = some 1 then batchDimGetItem t (.int 0) else pure t

end T3f
