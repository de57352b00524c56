import Verif.Spec.Entry
import Mathlib.Data.Real.Basic

/-! # Linear independence of the columns of partial products of cores -/

namespace T3f

/-- The product of the first `k` cores of the batch element `p` is a matrix with `n_1 ⋯ n_k` rows and `r_k` columns; its columns are linearly independent. -/
def TT.LeftIndependent (t : TT ℝ) (p : List ℕ) (k : ℕ) : Prop :=
  ∀ v : ℕ → ℝ, (∀ g : ℕ → List ℕ, (∀ j < k, Valid (t.modes j) (g j)) → ∑ a ∈ Finset.range (t.rank k), v a * lprod t.rank (t.slice p g) k a = 0) →
    ∀ a < t.rank k, v a = 0

/-- The product of `m` cores from core `k` on, with the rank index `a` at the left and 0 at the right. -/
def TT.rightPart (t : TT ℝ) (g : ℕ → List ℕ) : ℕ → ℕ → ℕ → ℝ
  | 0, _, _ => 1
  | m + 1, k, a => ∑ b ∈ Finset.range (t.rank (k + 1)), t.slice [] g k a b * t.rightPart g m (k + 1) b

/-- The product of the cores from core `k` on (of a single object) is a matrix with `r_k` rows and `n_{k+1} ⋯ n_d` columns; its rows are linearly
independent. -/
def TT.RightIndependent (t : TT ℝ) (k : ℕ) : Prop :=
  ∀ v : ℕ → ℝ, (∀ g : ℕ → List ℕ, (∀ j < t.ndims, Valid (t.modes j) (g j)) → ∑ a ∈ Finset.range (t.rank k), v a * t.rightPart g (t.ndims - k) k a = 0) →
    ∀ a < t.rank k, v a = 0

end T3f
