import Verif.Spec.Orth
import Mathlib.Data.Complex.Basic

/-! # Complex TT objects: orthonormal cores -/

namespace T3f

/-- The left unfolding of core `k` of a TT object with complex cores has orthonormal columns, with respect to the Hermitian inner product. -/
def TT.LeftUnitary (t : TT ℂ) (p : List ℕ) (k : ℕ) : Prop :=
  ∀ b < t.rank (k + 1), ∀ b' < t.rank (k + 1),
    ∑ a ∈ Finset.range (t.rank k), ∑ n ∈ Finset.range (t.modes k).prod, starRingEnd ℂ (t.fl p k n a b) * t.fl p k n a b' = if b = b' then 1 else 0

/-- The right unfolding of core `k` has orthonormal rows. -/
def TT.RightUnitary (t : TT ℂ) (p : List ℕ) (k : ℕ) : Prop :=
  ∀ a < t.rank k, ∀ a' < t.rank k,
    ∑ n ∈ Finset.range (t.modes k).prod, ∑ b ∈ Finset.range (t.rank (k + 1)), starRingEnd ℂ (t.fl p k n a b) * t.fl p k n a' b = if a = a' then 1 else 0

end T3f
