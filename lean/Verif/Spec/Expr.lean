import Verif.Spec.Batches
import Verif.Spec.Orth
import Verif.Model.Add
import Verif.Model.Multiply
import Verif.Model.Matmul
import Verif.Model.Indexing
import Verif.Model.Decompositions
import Verif.Model.Gather
import Verif.Model.Full
import Verif.Model.Inner

/-!
# Expressions over TT objects

Programs built from the operations of the library that take TT objects to TT objects. An expression has
three readings: the program itself (`run`), its static type (`ty`: shape and batch size of the result, or
`none` if the program raises), and the ordinary dense computation it stands for (`value`).
-/

namespace T3f

/-- An expression over TT objects. -/
inductive Expr where
  /-- An object the user already has. -/
  | obj (t : TT ℝ)
  /-- `a + b` -/
  | add (a b : Expr)
  /-- `a - b` -/
  | sub (a b : Expr)
  /-- `-a` -/
  | neg (a : Expr)
  /-- `a * b`, elementwise -/
  | mul (a b : Expr)
  /-- `c * a` with a number `c` -/
  | smul (c : ℝ) (a : Expr)
  /-- `t3f.matmul(a, b)` -/
  | matmul (a b : Expr)
  /-- `t3f.transpose(a)` -/
  | transpose (a : Expr)
  /-- `t3f.orthogonalize_tt_cores(a, left_to_right)` -/
  | orthogonalize (leftToRight : Bool) (a : Expr)
  /-- `t3f.renormalize_tt_cores(a, epsilon)` -/
  | renormalize (eps : ℝ) (a : Expr)
  /-- `t3f.expand_batch_dim(a)` -/
  | expand (a : Expr)
  /-- `t3f.squeeze_batch_dim(a)` -/
  | squeeze (a : Expr)
  /-- `a[k]` -/
  | pick (k : ℤ) (a : Expr)

/-- Static description of an object: its raw shape and, for batches, the batch size. -/
structure Ty where
  raw : List (List ℕ)
  batch : Option ℕ

namespace Ty

/-- Number of dimensions, i.e. of cores. -/
def ndims (τ : Ty) : ℕ := (τ.raw.headD []).length

/-- Shape of the dense form of one item: the mode sizes, or for a matrix the numbers of rows and columns. -/
def shape (τ : Ty) : List ℕ := if τ.raw.length = 2 then τ.raw.map List.prod else τ.raw.headD []

/-- `o` denotes an item: any number for an object that is not a batch and for a batch of size one, which
are broadcast, and otherwise a position in the batch. -/
def HasItem (τ : Ty) (o : ℕ) : Prop :=
  match τ.batch with
  | none => True
  | some n => n = 1 ∨ o < n

end Ty

/-- The number of columns of a matrix type. -/
def innerDim : Option Ty → ℕ
  | some τ => (τ.raw.getD 1 []).prod
  | none => 0

/-- Position `k` of a Python sequence of length `n`, negative numbers counting from the end. -/
def pyPos (n : ℕ) (k : ℤ) : ℕ := if k < 0 then (n + k).toNat else k.toNat

open Classical in
/-- Type of the sum of two objects. -/
noncomputable def addTy (a b : Ty) : Option Ty :=
  if a.raw = b.raw ∧ 2 ≤ a.ndims ∧ AddBatches a.batch b.batch then some ⟨a.raw, bcast a.batch b.batch⟩ else none

open Classical in
/-- Type of the elementwise product. -/
noncomputable def mulTy (a b : Ty) : Option Ty :=
  if a.raw = b.raw ∧ BCompat a.batch b.batch then some ⟨a.raw, bcast a.batch b.batch⟩ else none

open Classical in
/-- Type of the matrix product; note that a batch of size one becomes a single object. -/
noncomputable def matmulTy (a b : Ty) : Option Ty :=
  match a.raw, b.raw with
  | [I, J], [J', L] =>
      if J = J' ∧ BCompat a.batch b.batch then some ⟨[I, L], squeezed (bcast a.batch b.batch)⟩ else none
  | _, _ => none

/-- Type of the transpose. -/
def transposeTy (a : Ty) : Option Ty :=
  match a.raw with
  | [I, J] => some ⟨[J, I], a.batch⟩
  | _ => none

/-- Type of an item of a batch. -/
def pickTy (k : ℤ) (a : Ty) : Option Ty :=
  match a.batch with
  | some n => if -(n : ℤ) ≤ k ∧ k < n then some ⟨a.raw, none⟩ else none
  | none => none

/-- Batch size of an optional type. -/
def batchSizeOf : Option Ty → ℕ
  | some τ => τ.batch.getD 0
  | none => 0

namespace Expr

/-- `a[k]` for an integer `k`. -/
def pickItem {K : Type} [CommRing K] (k : ℤ) (t : TT K) : R (TT K) :=
  if t.isBatch then batchGetItem t (.int k) [] else ttGetItem t [.int k]

/-- Running the program. `qr` is the QR routine used by the orthogonalization. -/
noncomputable def run (qr : QRRoutine) : Expr → R (TT ℝ)
  | obj t => pure t
  | add a b => do T3f.add (← a.run qr) (← b.run qr)
  | sub a b => do T3f.sub (← a.run qr) (← b.run qr)
  | neg a => do T3f.neg (← a.run qr)
  | mul a b => do T3f.multiply (← a.run qr) (← b.run qr)
  | smul c a => do T3f.multiplyScalar (← a.run qr) c
  | matmul a b => do T3f.ttTTMatmul (← a.run qr) (← b.run qr)
  | transpose a => do T3f.ttTranspose (← a.run qr)
  | orthogonalize lr a => do T3f.orthogonalize qr (← a.run qr) lr
  | renormalize eps a => do T3f.renormalize (← a.run qr) eps
  | expand a => do T3f.expandBatchDim (← a.run qr)
  | squeeze a => do T3f.squeezeBatchDim (← a.run qr)
  | pick k a => do pickItem k (← a.run qr)

/-- The type of the result, computed from the types of the parts; `none` if the program raises. -/
noncomputable def ty : Expr → Option Ty
  | obj t => some ⟨t.rawShape, t.batch⟩
  | add a b => do addTy (← a.ty) (← b.ty)
  | sub a b => do addTy (← a.ty) (← b.ty)
  | neg a => a.ty
  | mul a b => do mulTy (← a.ty) (← b.ty)
  | smul _ a => a.ty
  | matmul a b => do matmulTy (← a.ty) (← b.ty)
  | transpose a => do transposeTy (← a.ty)
  | orthogonalize lr a => do
      let τ ← a.ty
      if lr = true ∨ τ.batch = none then some τ else none
  | renormalize _ a => a.ty
  | expand a => do
      let τ ← a.ty
      some ⟨τ.raw, some (τ.batch.getD 1)⟩
  | squeeze a => do
      let τ ← a.ty
      some ⟨τ.raw, squeezed τ.batch⟩
  | pick k a => do pickTy k (← a.ty)

/-- The dense form of an object as computed by `t3f.full`. -/
def fullOf {K : Type} [CommRing K] (t : TT K) : Tensor K :=
  match full t with
  | .ok F => F
  | .error _ => default

/-- The dense computation the program stands for: element `i` of item `o`. -/
noncomputable def value : Expr → ℕ → List ℕ → ℝ
  | obj t, o, i => (fullOf t).get (bsel t.batch o ++ i)
  | add a b, o, i => a.value o i + b.value o i
  | sub a b, o, i => a.value o i - b.value o i
  | neg a, o, i => - a.value o i
  | mul a b, o, i => a.value o i * b.value o i
  | smul c a, o, i => c * a.value o i
  | matmul a b, o, i =>
      ∑ z ∈ Finset.range (innerDim a.ty), a.value o [i.getD 0 0, z] * b.value o [z, i.getD 1 0]
  | transpose a, o, i => a.value o i.reverse
  | orthogonalize _ a, o, i => a.value o i
  | renormalize _ a, o, i => a.value o i
  | expand a, o, i => a.value o i
  | squeeze a, o, i => a.value o i
  | pick k a, _, i => a.value (pyPos (batchSizeOf a.ty) k) i

/-- The objects the expression starts from are well-formed and have no empty mode, and every `epsilon` is
positive. -/
def Ok : Expr → Prop
  | obj t => t.WF ∧ t.ModesPos
  | add a b => a.Ok ∧ b.Ok
  | sub a b => a.Ok ∧ b.Ok
  | neg a => a.Ok
  | mul a b => a.Ok ∧ b.Ok
  | smul _ a => a.Ok
  | matmul a b => a.Ok ∧ b.Ok
  | transpose a => a.Ok
  | orthogonalize _ a => a.Ok
  | renormalize eps a => 0 < eps ∧ a.Ok
  | expand a => a.Ok
  | squeeze a => a.Ok
  | pick _ a => a.Ok

end Expr

/-- The program does not raise. -/
def Expr.Runs (qr : QRRoutine) (e : Expr) : Prop := ∃ t, e.run qr = Except.ok t

/-- Both programs run and the dense forms of their results are equal. -/
def SameResult (qr : QRRoutine) (e f : Expr) : Prop :=
  ∃ s t F G, e.run qr = Except.ok s ∧ f.run qr = Except.ok t ∧ full s = Except.ok F ∧ full t = Except.ok G ∧ F ≃ₜ G

/-- Item `o` of a tensor of numbers with or without a batch axis; a single number is every item. -/
def itemOf (F : Tensor ℝ) (o : ℕ) : ℝ := if F.shape = [] then F.get [] else F.get [o]

/-- `t3f.flat_inner` of the results of two programs. -/
noncomputable def innerOf (qr : QRRoutine) (e f : Expr) : R (Tensor ℝ) := do
  flatInner (← e.run qr) (← f.run qr)

end T3f
