import Verif.Spec.Expr
import Verif.Model.Variables

/-!
# Programs with variables

What a straight-line program over TT-objects and TT-variables means: names stand for values or for variables, expressions are ordinary dense computations, and a
variable holds the value assigned last. Nothing here mentions cores or TensorFlow variables.
-/

namespace T3f

/-- Expressions over names. -/
inductive NExpr where
  /-- a name -/
  | name (x : ℕ)
  /-- an object made elsewhere -/
  | lit (t : TT ℝ)
  | add (a b : NExpr)
  | sub (a b : NExpr)
  | neg (a : NExpr)
  | mul (a b : NExpr)
  | smul (c : ℝ) (a : NExpr)
  | matmul (a b : NExpr)
  | transpose (a : NExpr)
  | orthogonalize (leftToRight : Bool) (a : NExpr)
  | renormalize (eps : ℝ) (a : NExpr)
  | expand (a : NExpr)
  | squeeze (a : NExpr)
  | pick (k : ℤ) (a : NExpr)

/-- Statements. -/
inductive Stmt where
  /-- `x = e` -/
  | bind (x : ℕ) (e : NExpr)
  /-- `x = t3f.get_variable('...', initializer=e)` -/
  | newVar (x : ℕ) (e : NExpr)
  /-- `y = t3f.assign(x, e)` -/
  | assign (y x : ℕ) (e : NExpr)

/-- What is known about an object: shape and batch size, TT-ranks, and the elements. -/
structure Item where
  ty : Ty
  rk : ℕ → ℕ
  val : ℕ → List ℕ → ℝ

namespace Item

/-- Ranks of a sum. -/
def sumRank (d : ℕ) (r s : ℕ → ℕ) (k : ℕ) : ℕ := if k = 0 ∨ d ≤ k then 1 else r k + s k

/-- Number of elements of mode `k` (rows times columns for a matrix). -/
def modeSize (τ : Ty) (k : ℕ) : ℕ := (τ.raw.map (·.getD k 0)).prod

/-- Ranks after orthogonalization from left to right: no larger than before, and no larger than what the cores on the left can carry. -/
def leftRank (τ : Ty) (r : ℕ → ℕ) : ℕ → ℕ
  | 0 => 1
  | k + 1 => min (leftRank τ r k * modeSize τ k) (r (k + 1))

/-- The same from right to left: `rightRankAux j` is the rank `j` places from the end. -/
def rightRankAux (τ : Ty) (r : ℕ → ℕ) : ℕ → ℕ
  | 0 => 1
  | m + 1 => min (modeSize τ (τ.ndims - 1 - m) * rightRankAux τ r m) (r (τ.ndims - 1 - m))

def rightRank (τ : Ty) (r : ℕ → ℕ) (k : ℕ) : ℕ := rightRankAux τ r (τ.ndims - k)

/-- The item an object stands for. -/
noncomputable def ofTT (t : TT ℝ) : Item := ⟨⟨t.rawShape, t.batch⟩, t.rank, fun o i => (Expr.fullOf t).get (bsel t.batch o ++ i)⟩

end Item

open Item in
/-- The value of an expression, given the values of the names; `none` if it raises. -/
noncomputable def NExpr.denote (ρ : ℕ → Option Item) : NExpr → Option Item
  | name x => ρ x
  | lit t => some (ofTT t)
  | add a b => do
      let u ← a.denote ρ
      let v ← b.denote ρ
      let τ ← addTy u.ty v.ty
      some ⟨τ, sumRank u.ty.ndims u.rk v.rk, fun o i => u.val o i + v.val o i⟩
  | sub a b => do
      let u ← a.denote ρ
      let v ← b.denote ρ
      let τ ← addTy u.ty v.ty
      some ⟨τ, sumRank u.ty.ndims u.rk v.rk, fun o i => u.val o i - v.val o i⟩
  | neg a => do
      let u ← a.denote ρ
      some ⟨u.ty, u.rk, fun o i => - u.val o i⟩
  | mul a b => do
      let u ← a.denote ρ
      let v ← b.denote ρ
      let τ ← mulTy u.ty v.ty
      some ⟨τ, fun k => u.rk k * v.rk k, fun o i => u.val o i * v.val o i⟩
  | smul c a => do
      let u ← a.denote ρ
      some ⟨u.ty, u.rk, fun o i => c * u.val o i⟩
  | matmul a b => do
      let u ← a.denote ρ
      let v ← b.denote ρ
      let τ ← matmulTy u.ty v.ty
      some ⟨τ, fun k => u.rk k * v.rk k, fun o i => ∑ z ∈ Finset.range (u.ty.raw.getD 1 []).prod, u.val o [i.getD 0 0, z] * v.val o [z, i.getD 1 0]⟩
  | transpose a => do
      let u ← a.denote ρ
      let τ ← transposeTy u.ty
      some ⟨τ, u.rk, fun o i => u.val o i.reverse⟩
  | orthogonalize lr a => do
      let u ← a.denote ρ
      if lr = true then some ⟨u.ty, leftRank u.ty u.rk, u.val⟩
      else if u.ty.batch = none then some ⟨u.ty, rightRank u.ty u.rk, u.val⟩ else none
  | renormalize _ a => a.denote ρ
  | expand a => do
      let u ← a.denote ρ
      some ⟨⟨u.ty.raw, some (u.ty.batch.getD 1)⟩, u.rk, u.val⟩
  | squeeze a => do
      let u ← a.denote ρ
      some ⟨⟨u.ty.raw, squeezed u.ty.batch⟩, u.rk, u.val⟩
  | pick k a => do
      let u ← a.denote ρ
      let τ ← pickTy k u.ty
      some ⟨τ, u.rk, fun _ i => u.val (pyPos (u.ty.batch.getD 0) k) i⟩

/-- What a name stands for: a fixed value, or variable number `v`. -/
inductive Binding where
  | const (it : Item)
  | ref (v : ℕ)

/-- The names, and the contents of the variables in the order of their creation. -/
structure AState where
  env : ℕ → Option Binding
  mem : List Item

namespace AState

/-- Nothing is defined. -/
def empty : AState := ⟨fun _ => none, []⟩

/-- The present value. -/
def item (A : AState) : Binding → Option Item
  | .const it => some it
  | .ref v => A.mem[v]?

/-- The present value of a name. -/
def look (A : AState) (x : ℕ) : Option Item := (A.env x).bind A.item

/-- What `y = e` makes `y` stand for. An expression is a new value, with three exceptions, in which `y` is another name for the same object: a name,
`expand_batch_dim` of a batch, and `squeeze_batch_dim` of anything but a batch of size one. -/
noncomputable def bindingOf (A : AState) : NExpr → Option Binding
  | .name x => A.env x
  | .expand a => do
      let u ← a.denote A.look
      if u.ty.batch.isSome then A.bindingOf a else (NExpr.denote A.look (.expand a)).map .const
  | .squeeze a => do
      let u ← a.denote A.look
      if u.ty.batch = some 1 then (NExpr.denote A.look (.squeeze a)).map .const else A.bindingOf a
  | e => (e.denote A.look).map .const

open Classical in
/-- The effect of a statement. An assignment needs a variable and a value of the same shape, batch size and TT-ranks. -/
noncomputable def exec (A : AState) : Stmt → Option AState
  | .bind x e => do
      let b ← A.bindingOf e
      some ⟨Function.update A.env x (some b), A.mem⟩
  | .newVar x e => do
      let it ← e.denote A.look
      some ⟨Function.update A.env x (some (.ref A.mem.length)), A.mem ++ [it]⟩
  | .assign y x e => do
      let .ref v ← A.env x | none
      let old ← A.mem[v]?
      let it ← e.denote A.look
      if it.ty = old.ty ∧ ∀ k ≤ it.ty.ndims, it.rk k = old.rk k then
        some ⟨Function.update A.env y (some (.ref v)), A.mem.set v it⟩
      else none

/-- The effect of a program. -/
noncomputable def execAll : AState → List Stmt → Option AState
  | A, [] => some A
  | A, s :: p => do execAll (← A.exec s) p

end AState

/-- The objects mentioned are well-formed and have no empty mode, and every `epsilon` is positive. -/
def NExpr.Ok : NExpr → Prop
  | name _ => True
  | lit t => t.WF ∧ t.ModesPos
  | add a b => a.Ok ∧ b.Ok
  | sub a b => a.Ok ∧ b.Ok
  | neg a => a.Ok
  | mul a b => a.Ok ∧ b.Ok
  | smul _ a => a.Ok
  | matmul a b => a.Ok ∧ b.Ok
  | transpose a => a.Ok
  | orthogonalize _ a => a.Ok
  | renormalize eps a => 0 < eps ∧ a.Ok
  | expand a => a.Ok
  | squeeze a => a.Ok
  | pick _ a => a.Ok

/-- The expression of a statement. -/
def Stmt.expr : Stmt → NExpr
  | bind _ e => e
  | newVar _ e => e
  | assign _ _ e => e

/-- The name a statement defines. -/
def Stmt.target : Stmt → ℕ
  | bind x _ => x
  | newVar x _ => x
  | assign y _ _ => y

end T3f
