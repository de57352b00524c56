import Verif.Spec.Expr
import Verif.Model.Integer

/-!
# Programs over TT objects with integer cores

The same language as `Expr` without the operations that need real numbers. A program has a reading in every commutative ring: `value` is
the dense computation it stands for, with the elements of the given objects in that ring. For objects with `w`-bit integers the program itself is
`run`, and `exact` is the dense computation with unlimited integers.
-/

namespace T3f

/-- The same object with `f` applied to all elements of the cores. -/
def TT.mapEntries {K L : Type} (f : K → L) (t : TT K) : TT L :=
  ⟨t.cores.map (·.map f), t.rawShape, t.ttRanks, t.batch⟩

/-- An expression over TT objects with elements in `K`. -/
inductive IntExpr (K : Type) where
  /-- An object the user already has. -/
  | obj (t : TT K)
  /-- `a + b` -/
  | add (a b : IntExpr K)
  /-- `a - b` -/
  | sub (a b : IntExpr K)
  /-- `-a` -/
  | neg (a : IntExpr K)
  /-- `a * b`, elementwise -/
  | mul (a b : IntExpr K)
  /-- `c * a` with a number `c` -/
  | smul (c : ℤ) (a : IntExpr K)
  /-- `t3f.matmul(a, b)` -/
  | matmul (a b : IntExpr K)
  /-- `t3f.transpose(a)` -/
  | transpose (a : IntExpr K)
  /-- `t3f.expand_batch_dim(a)` -/
  | expand (a : IntExpr K)
  /-- `t3f.squeeze_batch_dim(a)` -/
  | squeeze (a : IntExpr K)
  /-- `a[k]` -/
  | pick (k : ℤ) (a : IntExpr K)

namespace IntExpr

/-- Running the program for objects with `w`-bit integers. -/
def run {w : ℕ} : IntExpr (BitVec w) → R (TT (BitVec w))
  | obj t => pure t
  | add a b => do T3f.add (← a.run) (← b.run)
  | sub a b => do T3f.subInt (← a.run) (← b.run)
  | neg a => do T3f.negInt (← a.run)
  | mul a b => do T3f.multiply (← a.run) (← b.run)
  | smul c a => do T3f.multiplyNumberInt (← a.run) c
  | matmul a b => do T3f.ttTTMatmul (← a.run) (← b.run)
  | transpose a => do T3f.ttTranspose (← a.run)
  | expand a => do T3f.expandBatchDim (← a.run)
  | squeeze a => do T3f.squeezeBatchDim (← a.run)
  | pick k a => do Expr.pickItem k (← a.run)

variable {K L : Type}

/-- The type of the result; `none` if the program raises. Differences, negatives and products with numbers always raise. -/
noncomputable def ty : IntExpr K → Option Ty
  | obj t => some ⟨t.rawShape, t.batch⟩
  | add a b => do addTy (← a.ty) (← b.ty)
  | sub _ _ => none
  | neg _ => none
  | mul a b => do mulTy (← a.ty) (← b.ty)
  | smul _ _ => none
  | matmul a b => do matmulTy (← a.ty) (← b.ty)
  | transpose a => do transposeTy (← a.ty)
  | expand a => do
      let τ ← a.ty
      some ⟨τ.raw, some (τ.batch.getD 1)⟩
  | squeeze a => do
      let τ ← a.ty
      some ⟨τ.raw, squeezed τ.batch⟩
  | pick k a => do pickTy k (← a.ty)

/-- The dense computation the program stands for: element `i` of item `o`. -/
noncomputable def value [CommRing K] : IntExpr K → ℕ → List ℕ → K
  | obj t, o, i => (Expr.fullOf t).get (bsel t.batch o ++ i)
  | add a b, o, i => a.value o i + b.value o i
  | sub a b, o, i => a.value o i - b.value o i
  | neg a, o, i => - a.value o i
  | mul a b, o, i => a.value o i * b.value o i
  | smul c a, o, i => c * a.value o i
  | matmul a b, o, i =>
      ∑ z ∈ Finset.range (innerDim a.ty), a.value o [i.getD 0 0, z] * b.value o [z, i.getD 1 0]
  | transpose a, o, i => a.value o i.reverse
  | expand a, o, i => a.value o i
  | squeeze a, o, i => a.value o i
  | pick k a, _, i => a.value (pyPos (batchSizeOf a.ty) k) i

/-- The same program over the objects with `f` applied to all elements of the cores. -/
def map (f : K → L) : IntExpr K → IntExpr L
  | obj t => obj (t.mapEntries f)
  | add a b => add (a.map f) (b.map f)
  | sub a b => sub (a.map f) (b.map f)
  | neg a => neg (a.map f)
  | mul a b => mul (a.map f) (b.map f)
  | smul c a => smul c (a.map f)
  | matmul a b => matmul (a.map f) (b.map f)
  | transpose a => transpose (a.map f)
  | expand a => expand (a.map f)
  | squeeze a => squeeze (a.map f)
  | pick k a => pick k (a.map f)

/-- The dense computation the program stands for, with the integers that the user sees in the cores, and without bounds on the size of the numbers. -/
noncomputable def exact {w : ℕ} (e : IntExpr (BitVec w)) : ℕ → List ℕ → ℤ := (e.map BitVec.toInt).value

/-- The objects the expression starts from are well-formed and have no empty mode. -/
def Ok [CommRing K] : IntExpr K → Prop
  | obj t => t.WF ∧ t.ModesPos
  | add a b => a.Ok ∧ b.Ok
  | sub a b => a.Ok ∧ b.Ok
  | neg a => a.Ok
  | mul a b => a.Ok ∧ b.Ok
  | smul _ a => a.Ok
  | matmul a b => a.Ok ∧ b.Ok
  | transpose a => a.Ok
  | expand a => a.Ok
  | squeeze a => a.Ok
  | pick _ a => a.Ok

end IntExpr

end T3f
