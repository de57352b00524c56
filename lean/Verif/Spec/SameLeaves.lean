import Verif.Spec.Expr

/-! # Programs over different representations of the same tensors -/

namespace T3f

/-- Two objects of the same shape and batch size that represent the same tensors: `t3f.full` gives equal results. Their cores and TT-ranks may differ. -/
def SameTensors (t t' : TT ℝ) : Prop :=
  t'.rawShape = t.rawShape ∧ t'.batch = t.batch ∧ ∃ F F', full t = Except.ok F ∧ full t' = Except.ok F' ∧ F' ≃ₜ F

/-- The same program over objects that represent the same tensors. The values of `epsilon` may differ. -/
inductive Expr.SameLeaves : Expr → Expr → Prop
  | obj {t t' : TT ℝ} (h : SameTensors t t') : SameLeaves (.obj t) (.obj t')
  | add {a a' b b' : Expr} (ha : SameLeaves a a') (hb : SameLeaves b b') : SameLeaves (.add a b) (.add a' b')
  | sub {a a' b b' : Expr} (ha : SameLeaves a a') (hb : SameLeaves b b') : SameLeaves (.sub a b) (.sub a' b')
  | neg {a a' : Expr} (ha : SameLeaves a a') : SameLeaves (.neg a) (.neg a')
  | mul {a a' b b' : Expr} (ha : SameLeaves a a') (hb : SameLeaves b b') : SameLeaves (.mul a b) (.mul a' b')
  | smul (c : ℝ) {a a' : Expr} (ha : SameLeaves a a') : SameLeaves (.smul c a) (.smul c a')
  | matmul {a a' b b' : Expr} (ha : SameLeaves a a') (hb : SameLeaves b b') : SameLeaves (.matmul a b) (.matmul a' b')
  | transpose {a a' : Expr} (ha : SameLeaves a a') : SameLeaves (.transpose a) (.transpose a')
  | orthogonalize (lr : Bool) {a a' : Expr} (ha : SameLeaves a a') : SameLeaves (.orthogonalize lr a) (.orthogonalize lr a')
  | renormalize (eps eps' : ℝ) {a a' : Expr} (ha : SameLeaves a a') : SameLeaves (.renormalize eps a) (.renormalize eps' a')
  | expand {a a' : Expr} (ha : SameLeaves a a') : SameLeaves (.expand a) (.expand a')
  | squeeze {a a' : Expr} (ha : SameLeaves a a') : SameLeaves (.squeeze a) (.squeeze a')
  | pick (k : ℤ) {a a' : Expr} (ha : SameLeaves a a') : SameLeaves (.pick k a) (.pick k a')

end T3f
