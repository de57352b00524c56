import Verif.Spec.Entry
import Mathlib.Data.Real.Basic

/-! # Orthonormal cores, distances -/

namespace T3f

/-- All mode sizes are positive. -/
def TT.ModesPos {K : Type} (t : TT K) : Prop := ∀ row ∈ t.rawShape, ∀ n ∈ row, 0 < n

/-- Value of core `k` (of batch element `p`) at the rank indices `a`, `b` and mode multi-index number `n`. -/
def TT.fl {K : Type} [Zero K] (t : TT K) (p : List ℕ) (k n a b : ℕ) : K :=
  (t.core k).get (p ++ a :: (unravel (t.modes k) n ++ [b]))

/-- The left unfolding of core `k`, a matrix with `r_k n_k` rows and `r_{k+1}` columns, has orthonormal columns. -/
def TT.LeftOrthonormal (t : TT ℝ) (p : List ℕ) (k : ℕ) : Prop :=
  ∀ b < t.rank (k + 1), ∀ b' < t.rank (k + 1),
    ∑ a ∈ Finset.range (t.rank k), ∑ n ∈ Finset.range (t.modes k).prod, t.fl p k n a b * t.fl p k n a b' = if b = b' then 1 else 0

/-- The right unfolding of core `k`, a matrix with `r_k` rows and `n_k r_{k+1}` columns, has orthonormal rows. -/
def TT.RightOrthonormal (t : TT ℝ) (p : List ℕ) (k : ℕ) : Prop :=
  ∀ a < t.rank k, ∀ a' < t.rank k,
    ∑ n ∈ Finset.range (t.modes k).prod, ∑ b ∈ Finset.range (t.rank (k + 1)), t.fl p k n a b * t.fl p k n a' b = if a = a' then 1 else 0

/-- Sum of the squares of the elements of the part `X[p]`, a tensor of shape `s`. -/
noncomputable def Tensor.normSq (X : Tensor ℝ) (p s : List ℕ) : ℝ := ∑ n ∈ Finset.range s.prod, X.get (p ++ unravel s n) ^ 2

/-- Squared Frobenius distance of `X[p]` and `Y[p]`, tensors of shape `s`. -/
noncomputable def Tensor.distSq (X Y : Tensor ℝ) (p s : List ℕ) : ℝ :=
  ∑ n ∈ Finset.range s.prod, (X.get (p ++ unravel s n) - Y.get (p ++ unravel s n)) ^ 2

end T3f
