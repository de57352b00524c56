import Verif.Model.Initializers

/-! # Admissible arguments of the initializers -/

namespace T3f

/-- A positive number, or a list of `d + 1` positive numbers that starts and ends with one. -/
def GoodRank (d : ℕ) : RankArg → Prop
  | .num r => 1 ≤ r
  | .list l => l.length = d + 1 ∧ (∀ r ∈ l, 1 ≤ r) ∧ l.getD 0 0 = 1 ∧ l.getD d 0 = 1

instance (d : ℕ) (r : RankArg) : Decidable (GoodRank d r) := by
  cases r <;> unfold GoodRank <;> infer_instance

/-- The TT-ranks that the argument stands for: a number is used between two ones. -/
def usedRanks (d : ℕ) : RankArg → List ℕ
  | .num r => 1 :: (List.replicate (d - 1) r.toNat ++ [1])
  | .list l => l.map Int.toNat

/-- A row or column shape that may be omitted: all ones then. -/
def fillWith (a b : Option (List ℤ)) : List ℤ :=
  match a, b with
  | some a, _ => a
  | none, some b => b.map fun _ => 1
  | none, none => []

end T3f
