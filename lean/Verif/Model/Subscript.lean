import Verif.Model.Indexing
import Verif.Tf.Subscript

/-!
# Indexing with any subscript

Models `TensorTrain.__getitem__` (`/repo/t3f/tensor_train.py:102-142`) and `TensorTrainBatch.__getitem__` (`/repo/t3f/tensor_train_batch.py:141-274`) for subscripts that are one item or
a tuple of items, where an item is an integer (or 0-d tensor), a slice, `...` or `None`. `Model/Indexing.lean` has the same functions for tuples of integers and slices.
-/

namespace T3f

variable {K : Type} [CommRing K]

/-- What stands between the brackets: `t[x]` or `t[x, y, ...]`. -/
inductive Subscript where
  | single (i : SubItem)
  | tuple (l : List SubItem)
  deriving DecidableEq, Repr

/-- tensor_train_batch.py:141-147 `_do_collapse_dim`: `not isinstance(slice_spec, slice)`. -/
def SubItem.collapses : SubItem → Bool
  | .ix i => doCollapseDim i
  | _ => true

/-- tensor_train.py:117-135, the body of the loop over the cores. The state is the list of new cores and the remainder. -/
def ttSubscriptStep (t : TT K) (spec : List SubItem) (i : ℕ) (st : List (Tensor K) × Option (Tensor K)) :
    R (List (Tensor K) × Option (Tensor K)) := do
  let core ← pyGet t.cores i
  if t.isMatrix then throw Err.notImpl else
  let x ← pyGet spec i
  let sliced ← getItems core [.ix .all, x, .ix .all]
  if core.shape.length ≠ sliced.shape.length then
    match st.2 with
    | none => pure (st.1, some sliced)
    | some r => do
        let r ← matmul r sliced
        pure (st.1, some r)
  else
    match st.2 with
    | some r => do
        let s ← einsum (ein! "ab,bid->aid") [r, sliced]
        pure (st.1 ++ [s], none)
    | none => pure (st.1 ++ [sliced], none)

/-- tensor_train.py:102-142 `TensorTrain.__getitem__`. `len` of a single item raises TypeError (line 112). -/
def ttSubscript (t : TT K) : Subscript → R (TT K)
  | .single _ => throw Err.type
  | .tuple spec => do
      require (spec.length = t.ndims) Err.value
      let st ← forRange (ttSubscriptStep t spec) 0 t.ndims ([], none)
      match st.2 with
      | some r => do
          let last ← pyLast st.1
          let s ← einsum (ein! "aib,bd->aid") [last, r]
          mkTT (st.1.dropLast ++ [s])
      | none => mkTT st.1

/-- tensor_train_batch.py:149-176 `_batch_dim_getitem` for one item. -/
def batchDimSubscript (t : TT K) (x : SubItem) : R (TT K) := do
  let cores ← mapRange t.ndims fun i => do
    let core ← pyGet t.cores i
    if t.isMatrix then getItems core [x, .ix .all, .ix .all, .ix .all, .ix .all]
    else getItems core [x, .ix .all, .ix .all, .ix .all]
  if x.collapses then
    mkTT cores (.shapes t.rawShape) (some t.ttRanks)
  else do
    let c0 ← pyGet cores 0
    let bs ← pyGet c0.shape 0
    mkBatch cores (.shapes t.rawShape) (some t.ttRanks) (some bs)

/-- tensor_train_batch.py:194-221, the body of the loop over the cores of `_full_getitem`. -/
def batchFullSubscriptStep (t : TT K) (b0 : SubItem) (spec : List SubItem) (i : ℕ)
    (st : List (Tensor K) × Option (Tensor K)) : R (List (Tensor K) × Option (Tensor K)) := do
  let core ← pyGet t.cores i
  if t.isMatrix then throw Err.notImpl else
  let x ← pyGet spec i
  let sliced ← getItems core [b0, .ix .all, x, .ix .all]
  if x.collapses then
    match st.2 with
    | none => pure (st.1, some sliced)
    | some r => do
        let r ← if b0.collapses then einsum (ein! "ab,bd->ad") [r, sliced]
          else einsum (ein! "oab,obd->oad") [r, sliced]
        pure (st.1, some r)
  else
    match st.2 with
    | some r => do
        let s ← if b0.collapses then einsum (ein! "ab,bid->aid") [r, sliced]
          else einsum (ein! "oab,obid->oaid") [r, sliced]
        pure (st.1 ++ [s], none)
    | none => pure (st.1 ++ [sliced], none)

/-- tensor_train_batch.py:178-235 `_full_getitem` for the subscript `b0, spec...`. -/
def batchFullSubscript (t : TT K) (b0 : SubItem) (spec : List SubItem) : R (TT K) := do
  require (spec.length + 1 = t.ndims + 1) Err.value
  let st ← forRange (batchFullSubscriptStep t b0 spec) 0 t.ndims ([], none)
  let cores ← match st.2 with
    | some r => do
        let last ← pyLast st.1
        let s ← if b0.collapses then einsum (ein! "aib,bd->aid") [last, r]
          else einsum (ein! "oaib,obd->oaid") [last, r]
        pure (st.1.dropLast ++ [s])
    | none => pure st.1
  if b0.collapses then mkTT cores else mkBatch cores

/-- tensor_train_batch.py:237-274 `__getitem__`. A tuple of length one is passed on as it is, and TensorFlow does not accept a tuple as an item of a subscript (TypeError). -/
def batchSubscript (t : TT K) : Subscript → R (TT K)
  | .single x => batchDimSubscript t x
  | .tuple [_] => throw Err.type
  | .tuple [] => throw Err.value
  | .tuple (b0 :: spec) =>
      if spec.length + 1 = t.ndims + 1 then batchFullSubscript t b0 spec else throw Err.value

end T3f
