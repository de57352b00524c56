import Verif.Model.Calls

/-!
# Values that differ in their elements only
-/

namespace T3f

/-- The same except for the elements of tensors and cores and for the values of numbers: TT-objects with the same shape, TT-ranks, batch size, shapes of the cores and
attribute `projection_on`; tensors with the same shape. -/
def PyVal.SameMeta : PyVal → PyVal → Prop
  | tt t on, tt u on' =>
      t.rawShape = u.rawShape ∧ t.ttRanks = u.ttRanks ∧ t.batch = u.batch ∧ t.cores.map (·.shape) = u.cores.map (·.shape) ∧ on = on'
  | tensor x, tensor y => x.shape = y.shape
  | log x, log y => x.shape = y.shape
  | num _, num _ => True
  | _, _ => False

/-- The calls that may raise because of the elements: the inverse of a singular matrix, the Cholesky factor of a matrix that is not positive definite. -/
def PyCall.factors : PyCall → Prop
  | inv _ => True
  | cholesky _ => True
  | _ => False

end T3f
