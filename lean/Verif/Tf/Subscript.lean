import Verif.Tf.Tensor

/-!
# Subscripts with `...` and `None`

`t[spec]` of TensorFlow's eager tensors (`array_ops._slice_helper`, `StridedSlice`) where items may also be `Ellipsis` and `None` (`tf.newaxis`). With items that are integers
and slices only this is `getItem`.
-/

namespace T3f

variable {K : Type}

/-- One item of a subscript: an integer or a slice, `...`, or `None`. -/
inductive SubItem where
  | ix (i : Ix)
  | ellipsis
  | newaxis
  deriving DecidableEq, Repr

/-- The integers and slices of a subscript. -/
def SubItem.axes : List SubItem → List Ix
  | [] => []
  | .ix i :: l => i :: axes l
  | _ :: l => axes l

/-- `...` stands for as many `:` as are missing; two of them raise, and so do too many items. -/
def expandEllipsis (rank : ℕ) (spec : List SubItem) : R (List SubItem) :=
  if 1 < spec.count .ellipsis ∨ rank < (SubItem.axes spec).length then Except.error Err.tf
  else Except.ok (spec.flatMap fun
    | .ellipsis => List.replicate (rank - (SubItem.axes spec).length) (.ix .all)
    | x => [x])

/-- The positions of the new axes in the result, of which `p` axes come before the items. -/
def newAxes : List SubItem → (p : ℕ) → List ℕ
  | [], _ => []
  | .newaxis :: l, p => p :: newAxes l (p + 1)
  | .ix (.int _) :: l, p => newAxes l p
  | _ :: l, p => newAxes l (p + 1)

/-- `t[spec]`: select, then insert the new axes from left to right. -/
def getItems (t : Tensor K) (spec : List SubItem) : R (Tensor K) := do
  let spec ← expandEllipsis t.shape.length spec
  let s ← getItem t (SubItem.axes spec)
  (newAxes spec 0).foldlM expandDims s

end T3f
