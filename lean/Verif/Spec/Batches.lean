import Mathlib.Init

/-!
# Combinations of batch sizes

`none` stands for an object that is not a batch, `some n` for a batch of size `n`.
-/

namespace T3f

/-- The combinations of batch sizes that `add(a, b)` supports. -/
def AddBatches (a b : Option Nat) : Prop :=
  (a = none ∧ b = none) ∨ (∃ n, a = some n ∧ b = some n) ∨ (∃ n, a = some 1 ∧ b = some n) ∨
    (∃ n, a = some n ∧ b = some 1) ∨ (∃ n, n ≠ 1 ∧ a = some n ∧ b = none)

/-- Batch sizes that can be broadcast: two batches have equal sizes or one of them has size one. -/
def BCompat : Option Nat → Option Nat → Prop
  | some m, some n => m = n ∨ m = 1 ∨ n = 1
  | _, _ => True

/-- Batch size of the broadcast of two objects. -/
def bcast : Option Nat → Option Nat → Option Nat
  | none, b => b
  | a, none => a
  | some m, some n => if m = 1 then some n else some m

/-- A batch of size one is turned into a single object. -/
def squeezed : Option Nat → Option Nat
  | some 1 => none
  | b => b

/-- Position in the batch axis (if there is one) of an operand with batch size `b` that belongs to
element `o` of the broadcast. -/
def bsel : Option Nat → Nat → List Nat
  | none, _ => []
  | some n, o => [if n = 1 then 0 else o]

end T3f
