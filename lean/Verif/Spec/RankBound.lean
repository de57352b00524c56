import Verif.Model.Decompositions

/-! # Meaning of the argument `max_tt_rank` -/

namespace T3f

/-- `m` is a proper value of `max_tt_rank` for an object with `d` cores: a positive number (or a list of one), or a list of `d + 1` positive
numbers. `b k` is the bound for the `k`-th TT-rank. -/
def MaxRank.Bounds (m : MaxRank) (d : ℕ) (b : ℕ → ℕ) : Prop :=
  (∃ r : ℕ, 1 ≤ r ∧ (m = .num r ∨ m = .list [(r : ℤ)]) ∧ ∀ k, b k = r) ∨
  (∃ l : List ℕ, m = .list (l.map fun r : ℕ => (r : ℤ)) ∧ l.length = d + 1 ∧ (∀ r ∈ l, 1 ≤ r) ∧ ∀ k ≤ d, b k = l.getD k 0)

/-- `m` is a single number. -/
def MaxRank.Single (m : MaxRank) : Prop := ∀ l, m = .list l → l.length ≤ 1

/-- The argument `shape` of `to_tt_matrix`, `(ra, rb)`, means row sizes `a` and column sizes `b`; one of them may be omitted for a vector. -/
def RowArgs (a b : List ℕ) (ra rb : Option (List ℕ)) : Prop :=
  (ra = some a ∧ rb = some b) ∨ (ra = some a ∧ rb = none ∧ b = List.replicate a.length 1) ∨
    (ra = none ∧ rb = some b ∧ a = List.replicate b.length 1)

/-- The ranks `r` a decomposition of a tensor of shape `n` gets when every one is as large as the bound, the previous rank and the rest of the tensor allow. -/
structure DecompRanks (n : List ℕ) (b r : ℕ → ℕ) : Prop where
  first : r 0 = 1
  last : r n.length = 1
  step : ∀ k, k + 1 < n.length → r (k + 1) = min (b (k + 1)) (min (r k * n.getD k 0) (n.drop (k + 1)).prod)

end T3f
