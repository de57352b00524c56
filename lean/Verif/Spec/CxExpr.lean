import Verif.Spec.Expr
import Verif.Model.Complex

/-!
# Programs over TT objects with complex cores

The same language as `Expr`, for TT objects with complex cores and complex numbers as factors. `value` is the dense computation a program stands for.
-/

namespace T3f

/-- An expression over TT objects with complex cores. -/
inductive CxExpr where
  /-- An object the user already has. -/
  | obj (t : TT ℂ)
  /-- `a + b` -/
  | add (a b : CxExpr)
  /-- `a - b` -/
  | sub (a b : CxExpr)
  /-- `-a` -/
  | neg (a : CxExpr)
  /-- `a * b`, elementwise -/
  | mul (a b : CxExpr)
  /-- `c * a` with a complex number `c` -/
  | smul (c : ℂ) (a : CxExpr)
  /-- `t3f.matmul(a, b)` -/
  | matmul (a b : CxExpr)
  /-- `t3f.transpose(a)` -/
  | transpose (a : CxExpr)
  /-- `t3f.orthogonalize_tt_cores(a, left_to_right)` -/
  | orthogonalize (leftToRight : Bool) (a : CxExpr)
  /-- `t3f.renormalize_tt_cores(a, epsilon)` -/
  | renormalize (eps : ℝ) (a : CxExpr)
  /-- `t3f.expand_batch_dim(a)` -/
  | expand (a : CxExpr)
  /-- `t3f.squeeze_batch_dim(a)` -/
  | squeeze (a : CxExpr)
  /-- `a[k]` -/
  | pick (k : ℤ) (a : CxExpr)

namespace CxExpr

/-- Running the program. -/
noncomputable def run (qr : Cx.QRRoutine) : CxExpr → R (TT ℂ)
  | obj t => pure t
  | add a b => do T3f.add (← a.run qr) (← b.run qr)
  | sub a b => do Cx.sub (← a.run qr) (← b.run qr)
  | neg a => do Cx.neg (← a.run qr)
  | mul a b => do T3f.multiply (← a.run qr) (← b.run qr)
  | smul c a => do Cx.multiplyScalar (← a.run qr) c
  | matmul a b => do T3f.ttTTMatmul (← a.run qr) (← b.run qr)
  | transpose a => do T3f.ttTranspose (← a.run qr)
  | orthogonalize lr a => do Cx.orthogonalize qr (← a.run qr) lr
  | renormalize eps a => do Cx.renormalize (← a.run qr) eps
  | expand a => do T3f.expandBatchDim (← a.run qr)
  | squeeze a => do T3f.squeezeBatchDim (← a.run qr)
  | pick k a => do Expr.pickItem k (← a.run qr)

/-- The type of the result; `none` if the program raises. `renormalize_tt_cores` always raises. -/
noncomputable def ty : CxExpr → Option Ty
  | obj t => some ⟨t.rawShape, t.batch⟩
  | add a b => do addTy (← a.ty) (← b.ty)
  | sub a b => do addTy (← a.ty) (← b.ty)
  | neg a => a.ty
  | mul a b => do mulTy (← a.ty) (← b.ty)
  | smul _ a => a.ty
  | matmul a b => do matmulTy (← a.ty) (← b.ty)
  | transpose a => do transposeTy (← a.ty)
  | orthogonalize lr a => do
      let τ ← a.ty
      if lr = true ∨ τ.batch = none then some τ else none
  | renormalize _ _ => none
  | expand a => do
      let τ ← a.ty
      some ⟨τ.raw, some (τ.batch.getD 1)⟩
  | squeeze a => do
      let τ ← a.ty
      some ⟨τ.raw, squeezed τ.batch⟩
  | pick k a => do pickTy k (← a.ty)

/-- The dense computation the program stands for: element `i` of item `o`. -/
noncomputable def value : CxExpr → ℕ → List ℕ → ℂ
  | obj t, o, i => (Expr.fullOf t).get (bsel t.batch o ++ i)
  | add a b, o, i => a.value o i + b.value o i
  | sub a b, o, i => a.value o i - b.value o i
  | neg a, o, i => - a.value o i
  | mul a b, o, i => a.value o i * b.value o i
  | smul c a, o, i => c * a.value o i
  | matmul a b, o, i =>
      ∑ z ∈ Finset.range (innerDim a.ty), a.value o [i.getD 0 0, z] * b.value o [z, i.getD 1 0]
  | transpose a, o, i => a.value o i.reverse
  | orthogonalize _ a, o, i => a.value o i
  | renormalize _ a, o, i => a.value o i
  | expand a, o, i => a.value o i
  | squeeze a, o, i => a.value o i
  | pick k a, _, i => a.value (pyPos (batchSizeOf a.ty) k) i

/-- The objects the expression starts from are well-formed and have no empty mode. -/
def Ok : CxExpr → Prop
  | obj t => t.WF ∧ t.ModesPos
  | add a b => a.Ok ∧ b.Ok
  | sub a b => a.Ok ∧ b.Ok
  | neg a => a.Ok
  | mul a b => a.Ok ∧ b.Ok
  | smul _ a => a.Ok
  | matmul a b => a.Ok ∧ b.Ok
  | transpose a => a.Ok
  | orthogonalize _ a => a.Ok
  | renormalize _ a => a.Ok
  | expand a => a.Ok
  | squeeze a => a.Ok
  | pick _ a => a.Ok

end CxExpr

end T3f
