import Verif.Spec.Orth
import Mathlib.Analysis.Real.Sqrt

/-! # Norms of cores, nearly orthonormal cores -/

namespace T3f

/-- Frobenius norm of core `k` of batch item `p`. -/
noncomputable def TT.coreNorm (t : TT ℝ) (p : List ℕ) (k : ℕ) : ℝ :=
  √(∑ a ∈ Finset.range (t.rank k), ∑ n ∈ Finset.range (t.modes k).prod, ∑ b ∈ Finset.range (t.rank (k + 1)), t.fl p k n a b ^ 2)

/-- Core `k` of batch item `p` is, up to an error of `ε` in the Frobenius norm, a core `q` with left unfolding with orthonormal columns. -/
def TT.NearLeftOrthonormal (t : TT ℝ) (p : List ℕ) (k : ℕ) (ε : ℝ) : Prop :=
  ∃ q : ℕ → ℕ → ℕ → ℝ, (∀ b < t.rank (k + 1), ∀ b' < t.rank (k + 1),
      ∑ a ∈ Finset.range (t.rank k), ∑ n ∈ Finset.range (t.modes k).prod, q n a b * q n a b' = if b = b' then 1 else 0) ∧
    √(∑ a ∈ Finset.range (t.rank k), ∑ n ∈ Finset.range (t.modes k).prod, ∑ b ∈ Finset.range (t.rank (k + 1)), (t.fl p k n a b - q n a b) ^ 2) ≤ ε

/-- Core `k` of batch item `p` is, up to an error of `ε` in the Frobenius norm, a core `q` with right unfolding with orthonormal rows. -/
def TT.NearRightOrthonormal (t : TT ℝ) (p : List ℕ) (k : ℕ) (ε : ℝ) : Prop :=
  ∃ q : ℕ → ℕ → ℕ → ℝ, (∀ a < t.rank k, ∀ a' < t.rank k,
      ∑ n ∈ Finset.range (t.modes k).prod, ∑ b ∈ Finset.range (t.rank (k + 1)), q n a b * q n a' b = if a = a' then 1 else 0) ∧
    √(∑ a ∈ Finset.range (t.rank k), ∑ n ∈ Finset.range (t.modes k).prod, ∑ b ∈ Finset.range (t.rank (k + 1)), (t.fl p k n a b - q n a b) ^ 2) ≤ ε

end T3f
