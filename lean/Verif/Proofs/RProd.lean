import Verif.Proofs.Sums

/-! # Products of the cores from the right -/

namespace T3f

variable {K : Type} [CommRing K]

/-- `A_k ⋯ A_{k+m-1} e₀` (component `a`); the last rank is one. -/
def rprod (r : ℕ → ℕ) (A : ℕ → ℕ → ℕ → K) : ℕ → ℕ → ℕ → K
  | 0, _, _ => 1
  | m + 1, k, a => ∑ b ∈ Finset.range (r (k + 1)), A k a b * rprod r A m (k + 1) b

theorem lprod_split (r : ℕ → ℕ) (A : ℕ → ℕ → ℕ → K) (m : ℕ) : ∀ k, r (k + m) = 1 →
    lprod r A (k + m) 0 = ∑ a ∈ Finset.range (r k), lprod r A k a * rprod r A m k a := by
  induction m with
  | zero => intro k h; rw [Nat.add_zero] at h; simp [h, rprod]
  | succ m ih =>
    intro k h
    rw [show k + (m + 1) = k + 1 + m by omega] at *
    rw [ih (k + 1) h]
    simp only [lprod, rprod, Finset.sum_mul, Finset.mul_sum]
    rw [Finset.sum_comm]
    exact Finset.sum_congr rfl fun a _ => Finset.sum_congr rfl fun b _ => by ring

theorem rprod_congr {r r' : ℕ → ℕ} {A B : ℕ → ℕ → ℕ → K} {m k a : ℕ} (hr : ∀ j, k ≤ j → j ≤ k + m → r j = r' j)
    (h : ∀ j, k ≤ j → j < k + m → ∀ a b, a < r j → b < r (j + 1) → A j a b = B j a b) (ha : a < r k) :
    rprod r A m k a = rprod r' B m k a := by
  induction m generalizing k a with
  | zero => rfl
  | succ m ih =>
    rw [rprod, rprod, ← hr (k + 1) (by omega) (by omega)]
    refine Finset.sum_congr rfl fun b hb => ?_
    rw [Finset.mem_range] at hb
    rw [h k le_rfl (by omega) a b ha hb, ih (fun j h1 h2 => hr j (by omega) (by omega)) (fun j h1 h2 => h j (by omega) (by omega)) hb]

end T3f
