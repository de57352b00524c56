import Verif.Model.Static
import Verif.Spec.Expr

/-!
# What is meant by static knowledge

A symbolic object stands for an ordinary one: the object an eager program would have, whose sizes are all known.
-/

namespace T3f

variable {K : Type}

/-- The static size `o` is unknown or right. -/
def Knows (o : Option ℕ) (n : ℕ) : Prop := o = none ∨ o = some n

/-- The symbolic object `s` stands for the object `t`: same cores, and every static size is unknown or right. The last condition
says that the static ranks and mode sizes of the cores are those of the attributes, and that the boundary ranks are known;
`C84_constructor` shows that the constructor ensures this. -/
structure Sym.Is [Zero K] (s : Sym K) (t : TT K) : Prop where
  wf : t.WF
  vals : s.cores.map (·.val) = t.cores
  batch : s.batch = t.batch
  ranks : List.Forall₂ Knows s.ttRanks t.ttRanks
  rows : List.Forall₂ (List.Forall₂ Knows) s.rawShape t.rawShape
  cores : ∀ k < s.cores.length, ∃ b, List.Forall₂ Knows b t.bpre ∧
    (s.cores[k]?).map (·.sh) = some (b ++ s.ttRanks.getD k none :: (s.rawShape.map (·.getD k none) ++ [s.ttRanks.getD (k + 1) none]))
  first : s.ttRanks.getD 0 none = some 1
  last : s.ttRanks.getD s.cores.length none = some 1

/-- All mode sizes are known. -/
def Sym.KnownModes (s : Sym K) : Prop := ∀ row ∈ s.rawShape, none ∉ row

/-- All TT-ranks are known. -/
def Sym.KnownRanks (s : Sym K) : Prop := none ∉ s.ttRanks

/-- The static shapes of neighbouring cores fit: the last size of a core is the first one (after the batch axis, if any) of the next
one, where unknown sizes fit each other but no number; the first and the last size are known to be one. -/
def StaticallyLinked (batch : Bool) (shapes : List (List (Option ℕ))) : Prop :=
  (∀ l ∈ shapes.head?, (if batch then l.tail else l).head? = some (some 1)) ∧
  (∀ l ∈ shapes.getLast?, l.getLast? = some (some 1)) ∧
  ∀ k, ∀ l ∈ shapes[k]?, ∀ l' ∈ shapes[k + 1]?, l.getLast? = (if batch then l'.tail else l').head?

/-- A program that is traced: it starts from symbolic objects; `t` is the object that `s` stands for. -/
inductive SExpr where
  | obj (s : Sym ℝ) (t : TT ℝ)
  /-- `a + b` -/
  | add (a b : SExpr)
  /-- `a - b` -/
  | sub (a b : SExpr)
  /-- `-a` -/
  | neg (a : SExpr)
  /-- `a * b`, elementwise -/
  | mul (a b : SExpr)
  /-- `c * a` with a number `c` -/
  | smul (c : ℝ) (a : SExpr)
  /-- `t3f.matmul(a, b)` -/
  | matmul (a b : SExpr)
  /-- `t3f.transpose(a)` -/
  | transpose (a : SExpr)

namespace SExpr

/-- Running the traced program. -/
noncomputable def run : SExpr → R (Sym ℝ)
  | obj s _ => pure s
  | add a b => do addS (← a.run) (← b.run)
  | sub a b => do subS (← a.run) (← b.run)
  | neg a => do multiplyScalarS (← a.run) (-1)
  | mul a b => do multiplyS (← a.run) (← b.run)
  | smul c a => do multiplyScalarS (← a.run) c
  | matmul a b => do ttTTMatmulS (← a.run) (← b.run)
  | transpose a => do ttTransposeS (← a.run)

/-- The same program without tracing. -/
def eager : SExpr → Expr
  | obj _ t => .obj t
  | add a b => .add a.eager b.eager
  | sub a b => .sub a.eager b.eager
  | neg a => .neg a.eager
  | mul a b => .mul a.eager b.eager
  | smul c a => .smul c a.eager
  | matmul a b => .matmul a.eager b.eager
  | transpose a => .transpose a.eager

/-- The symbolic objects stand for the given objects, and their mode sizes are known (and not zero). -/
def Sound : SExpr → Prop
  | obj s t => s.Is t ∧ s.KnownModes ∧ t.ModesPos
  | add a b => a.Sound ∧ b.Sound
  | sub a b => a.Sound ∧ b.Sound
  | neg a => a.Sound
  | mul a b => a.Sound ∧ b.Sound
  | smul _ a => a.Sound
  | matmul a b => a.Sound ∧ b.Sound
  | transpose a => a.Sound

/-- The result has only known TT-ranks: it is a sum or a product, or it comes from an object with known ranks by changes of sign,
multiplications by numbers and transpositions. -/
def RanksKnown : SExpr → Prop
  | obj s _ => s.KnownRanks
  | add _ _ => True
  | sub _ _ => True
  | neg a => a.RanksKnown
  | mul _ _ => True
  | smul _ a => a.RanksKnown
  | matmul _ _ => True
  | transpose a => a.RanksKnown

/-- All operands of sums, differences and products have known TT-ranks. -/
def Supported : SExpr → Prop
  | obj _ _ => True
  | add a b => a.Supported ∧ b.Supported ∧ a.RanksKnown ∧ b.RanksKnown
  | sub a b => a.Supported ∧ b.Supported ∧ a.RanksKnown ∧ b.RanksKnown
  | neg a => a.Supported
  | mul a b => a.Supported ∧ b.Supported ∧ a.RanksKnown ∧ b.RanksKnown
  | smul _ a => a.Supported
  | matmul a b => a.Supported ∧ b.Supported ∧ a.RanksKnown ∧ b.RanksKnown
  | transpose a => a.Supported

end SExpr

end T3f
