import Verif.Model.Typed
import Verif.Spec.Expr

/-!
# Expressions over TT objects with data types
-/

namespace T3f.Dt

/-- All cores of the object have the data type `d`. -/
def TT.Uniform {K : Type} (t : TT K) (d : DType) : Prop := ∀ c ∈ t.cores, c.dtype = d

/-- The operation `x` with data types does what the operation `y` does without data types (described by the other properties), and all cores of the result have the
data type `d`. -/
def Follows {K : Type} (d : DType) (x : R (TT K)) (y : R (T3f.TT K)) : Prop :=
  match y with
  | Except.ok s => ∃ t, x = Except.ok t ∧ t.Uniform d ∧ t.erase = s
  | Except.error err => x = Except.error err

/-- The same for an operation that returns a tensor. -/
def FollowsDense {K : Type} (d : DType) (x : R (Tensor K)) (y : R (T3f.Tensor K)) : Prop :=
  match y with
  | Except.ok s => x = Except.ok ⟨d, s⟩
  | Except.error err => x = Except.error err

/-- The operation `x` with data types raises, and if the arguments are fine except for the data types, it raises `err`. -/
def Rejects {α β : Type} (err : Err) (x : R α) (y : R β) : Prop :=
  (∃ err', x = Except.error err') ∧ ∀ s, y = Except.ok s → x = Except.error err

/-- An expression over TT objects with data types; see `T3f.Expr`. In addition there is `t3f.cast`. -/
inductive DExpr where
  | obj (t : TT ℝ)
  | add (a b : DExpr)
  | sub (a b : DExpr)
  | neg (a : DExpr)
  | mul (a b : DExpr)
  /-- `t3f.multiply(a, c)` with a number or a 0-d tensor `c` -/
  | smul (c : Number) (a : DExpr)
  | matmul (a b : DExpr)
  | transpose (a : DExpr)
  | orthogonalize (leftToRight : Bool) (a : DExpr)
  | renormalize (eps : ℝ) (a : DExpr)
  | expand (a : DExpr)
  | squeeze (a : DExpr)
  | pick (k : ℤ) (a : DExpr)
  /-- `t3f.cast(a, d)` -/
  | cast (d : DType) (a : DExpr)

namespace DExpr

/-- `a[k]` for an integer `k`. -/
def pickItem {K : Type} [CommRing K] (k : ℤ) (t : TT K) : R (TT K) :=
  if t.erase.isBatch then batchGetItem t (.int k) [] else ttGetItem t [.int k]

/-- Running the program. -/
noncomputable def run (qr : QRRoutine) : DExpr → R (TT ℝ)
  | obj t => pure t
  | add a b => do Dt.add (← a.run qr) (← b.run qr)
  | sub a b => do Dt.sub (← a.run qr) (← b.run qr)
  | neg a => do Dt.neg (← a.run qr)
  | mul a b => do Dt.multiply (← a.run qr) (← b.run qr)
  | smul c a => do Dt.multiplyNumber (← a.run qr) c
  | matmul a b => do Dt.ttTTMatmul (← a.run qr) (← b.run qr)
  | transpose a => do Dt.ttTranspose (← a.run qr)
  | orthogonalize lr a => do Dt.orthogonalize qr (← a.run qr) lr
  | renormalize eps a => do Dt.renormalize (← a.run qr) eps
  | expand a => do Dt.expandBatchDim (← a.run qr)
  | squeeze a => do Dt.squeezeBatchDim (← a.run qr)
  | pick k a => do pickItem k (← a.run qr)
  | cast d a => do Dt.ttCast d (← a.run qr)

/-- The expression without the data types; `t3f.cast` disappears. -/
noncomputable def plain : DExpr → Expr
  | obj t => .obj t.erase
  | add a b => .add a.plain b.plain
  | sub a b => .sub a.plain b.plain
  | neg a => .neg a.plain
  | mul a b => .mul a.plain b.plain
  | smul c a => .smul c.value a.plain
  | matmul a b => .matmul a.plain b.plain
  | transpose a => .transpose a.plain
  | orthogonalize lr a => .orthogonalize lr a.plain
  | renormalize eps a => .renormalize eps a.plain
  | expand a => .expand a.plain
  | squeeze a => .squeeze a.plain
  | pick k a => .pick k a.plain
  | cast _ a => a.plain

/-- Two operands must have the same data type. -/
def same : Option DType → Option DType → Option DType
  | some d, some e => if d = e then some d else none
  | _, _ => none

/-- The data type of the result; `none` if operands of different data types meet. -/
def dtype : DExpr → Option DType
  | obj t => t.cores.head?.map (·.dtype)
  | add a b => same a.dtype b.dtype
  | sub a b => same a.dtype b.dtype
  | neg a => a.dtype
  | mul a b => same a.dtype b.dtype
  | smul _ a => a.dtype
  | matmul a b => same a.dtype b.dtype
  | transpose a => a.dtype
  | orthogonalize _ a => a.dtype
  | renormalize _ a => a.dtype
  | expand a => a.dtype
  | squeeze a => a.dtype
  | pick _ a => a.dtype
  | cast d a => a.dtype.map fun _ => d

/-- The objects the expression starts from are well-formed, have no empty mode, and each of them has one data type; every `epsilon` is positive. -/
def Ok : DExpr → Prop
  | obj t => t.erase.WF ∧ t.erase.ModesPos ∧ ∃ d, t.Uniform d
  | add a b => a.Ok ∧ b.Ok
  | sub a b => a.Ok ∧ b.Ok
  | neg a => a.Ok
  | mul a b => a.Ok ∧ b.Ok
  | smul _ a => a.Ok
  | matmul a b => a.Ok ∧ b.Ok
  | transpose a => a.Ok
  | orthogonalize _ a => a.Ok
  | renormalize eps a => 0 < eps ∧ a.Ok
  | expand a => a.Ok
  | squeeze a => a.Ok
  | pick _ a => a.Ok
  | cast _ a => a.Ok

end DExpr

end T3f.Dt
