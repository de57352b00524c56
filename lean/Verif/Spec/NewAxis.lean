import Verif.Tf.Subscript

/-! # Where `None` inserts axes -/

namespace T3f

/-- The shape of `t[spec]`, if `s` is the shape of `t[spec']`, where `spec'` is `spec` without the items `None`: an axis of size one for every `None`, between the axes of its
neighbours. Integers have no axis in the result. -/
def SubItem.withNew : List SubItem → List ℕ → List ℕ
  | [], s => s
  | .newaxis :: l, s => 1 :: withNew l s
  | .ix (.int _) :: l, s => withNew l s
  | _ :: l, n :: s => n :: withNew l s
  | _ :: _, [] => []

/-- The multi-index of `t[spec']` for a multi-index of `t[spec]`. -/
def SubItem.dropNew : List SubItem → List ℕ → List ℕ
  | [], j => j
  | .newaxis :: l, _ :: j => dropNew l j
  | .ix (.int _) :: l, j => dropNew l j
  | _ :: l, a :: j => a :: dropNew l j
  | _ :: _, [] => []

end T3f
