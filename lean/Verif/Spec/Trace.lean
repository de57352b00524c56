import Verif.Model.Trace

/-!
# Which static batch sizes the operations support inside a traced function

Static sizes: `none` for an object that is not a batch, `some (known n)`, `some unknown` (`None`) and
`some tensor` (the size is a symbolic tensor) for batches.
-/

namespace T3f

/-- The static size describes the actual batch size. -/
def SizeFits (s : Option BSize) (b : Option ℕ) : Prop :=
  (s.isSome ↔ b.isSome) ∧ ∀ n, s = some (.known n) → b = some n

/-- The static batch size of a traced object describes the object. -/
def Traced.Sound {K : Type} (t : Traced K) : Prop := SizeFits t.size t.obj.batch

/-- The combinations of static sizes that `add` supports. -/
def AddSizes : Option BSize → Option BSize → Prop
  | none, none => True
  | some (.known m), some (.known n) => m = n ∨ m = 1 ∨ n = 1
  | some (.known n), none => n ≠ 1
  | some .unknown, none => True
  | some .unknown, some (.known n) => n = 1
  | some (.known n), some .unknown => n = 1
  | _, _ => False

/-- The combinations of static sizes that `matmul` and `flat_inner` support. -/
def MatmulSizes : Option BSize → Option BSize → Prop
  | some .tensor, _ => False
  | _, some .tensor => False
  | none, _ => True
  | _, none => True
  | some (.known m), some (.known n) => m = n ∨ m = 1 ∨ n = 1
  | some .unknown, some (.known n) => n = 1
  | some (.known n), some .unknown => n = 1
  | some .unknown, some .unknown => False

/-- The combinations of static sizes `s`, `t` and actual sizes `m`, `n` that `multiply` supports. -/
def MulSizes (s t : Option BSize) (m n : Option ℕ) : Prop :=
  match s, t with
  | none, _ => True
  | _, none => True
  | some (.known m), some (.known n) => m = n ∨ m = 1 ∨ n = 1
  | some .unknown, some (.known k) => k = 1 ∨ m = n
  | some (.known k), some .unknown => k = 1 ∨ m = n
  | some .unknown, some .unknown => m = n
  | _, _ => False

/-- The static shape `st` describes the shape `sh`. -/
def ShapeFits (st : List (Option ℕ)) (sh : List ℕ) : Prop :=
  List.Forall₂ (fun o n => o = none ∨ o = some n) st sh

end T3f
