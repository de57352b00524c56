import Verif.Spec.Truncation
import Verif.Proofs.FullGet
import Mathlib.Data.Rat.Cast.Order
import Mathlib.Data.Rat.BigOperators
import Mathlib.Tactic.NormNum

/-! # Singular value decompositions with rational numbers

Decompositions in rational numbers can be verified by evaluation; the lemmas here transfer them to the reals. -/

namespace T3f

variable {s : List ℕ} {k n : ℕ} {X : List ℕ → ℚ} {u v : ℕ → List ℕ → ℚ} {σ : ℕ → ℚ}

theorem ratSVD (count : n = min (s.take k).prod (s.drop k).prod)
    (value : ∀ x < (s.take k).prod, ∀ y < (s.drop k).prod, X (unravel (s.take k) x ++ unravel (s.drop k) y) =
      ∑ l ∈ Finset.range n, u l (unravel (s.take k) x) * σ l * v l (unravel (s.drop k) y))
    (left : ∀ l < n, ∀ l' < n, ∑ x ∈ Finset.range (s.take k).prod, u l (unravel (s.take k) x) * u l' (unravel (s.take k) x) = if l = l' then 1 else 0)
    (right : ∀ l < n, ∀ l' < n, ∑ x ∈ Finset.range (s.drop k).prod, v l (unravel (s.drop k) x) * v l' (unravel (s.drop k) x) = if l = l' then 1 else 0)
    (nonneg : ∀ l < n, 0 ≤ σ l) (decreasing : ∀ l' < n, ∀ l < l' + 1, σ l' ≤ σ l) :
    CutSVD s k (fun i => (X i : ℝ)) n (fun l i => (u l i : ℝ)) (fun l => (σ l : ℝ)) (fun l i => (v l i : ℝ)) where
  count := count
  value i j hi hj := by
    have h := value _ (ravel_lt hi) _ (ravel_lt hj)
    rw [unravel_ravel hi, unravel_ravel hj] at h
    rw [h]; push_cast; rfl
  left l hl l' hl' := by
    have h := congrArg (Rat.cast : ℚ → ℝ) (left l hl l' hl')
    rw [apply_ite (Rat.cast : ℚ → ℝ)] at h
    push_cast at h
    exact h
  right l hl l' hl' := by
    have h := congrArg (Rat.cast : ℚ → ℝ) (right l hl l' hl')
    rw [apply_ite (Rat.cast : ℚ → ℝ)] at h
    push_cast at h
    exact h
  nonneg l hl := by exact_mod_cast nonneg l hl
  decreasing l l' h hl' := by exact_mod_cast decreasing l' hl' l (by omega)

theorem ratHead {r : ℕ} {Z : List ℕ → ℚ}
    (value : ∀ x < (s.take k).prod, ∀ y < (s.drop k).prod, Z (unravel (s.take k) x ++ unravel (s.drop k) y) =
      ∑ l ∈ Finset.range (min r n), u l (unravel (s.take k) x) * σ l * v l (unravel (s.drop k) y)) :
    IsHead s k r n (fun l i => (u l i : ℝ)) (fun l => (σ l : ℝ)) (fun l i => (v l i : ℝ)) (fun i => (Z i : ℝ)) := by
  intro i j hi hj
  have h := value _ (ravel_lt hi) _ (ravel_lt hj)
  rw [unravel_ravel hi, unravel_ravel hj] at h
  show ((Z (i ++ j) : ℚ) : ℝ) = _
  rw [h]; push_cast; rfl

end T3f
