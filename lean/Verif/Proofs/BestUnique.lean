import Verif.Proofs.Factor

/-! # The best approximation of bounded rank is unique if there is a gap between the singular values -/

namespace T3f

open Matrix

theorem sum_lt_ρ {k ρ : ℕ} (h : ρ ≤ k) : ∑ i : Fin k, (if (i : ℕ) < ρ then (1 : ℝ) else 0) = ρ := by
  rw [Finset.sum_fin_eq_sum_range]
  have : ∀ i ∈ Finset.range k, (if h : i < k then (if i < ρ then (1 : ℝ) else 0) else 0) = if i < ρ then 1 else 0 := by
    intro i hi
    rw [dif_pos (Finset.mem_range.1 hi)]
  rw [Finset.sum_congr rfl this, ← Finset.sum_filter, Finset.sum_const, show (Finset.range k).filter (· < ρ) = Finset.range ρ by
    ext x; simp; omega]
  simp

/-- Equality in `weighted_tail`. -/
theorem weighted_unique {k : ℕ} (ρ : ℕ) (s w : Fin k → ℝ) (hs0 : ∀ i, 0 ≤ s i) (hs : Antitone s) (hgap : ∀ i j : Fin k, (i : ℕ) < ρ → ρ ≤ j → s j < s i)
    (hw0 : ∀ i, 0 ≤ w i) (hw1 : ∀ i, w i ≤ 1) (hw : ∑ i, w i ≤ ρ)
    (heq : ∑ i, s i ^ 2 ≤ ∑ i, s i ^ 2 * w i + ∑ i : Fin k, (if ρ ≤ (i : ℕ) then s i ^ 2 else 0)) :
    ∀ i : Fin k, if (i : ℕ) < ρ then s i = 0 ∨ w i = 1 else w i = 0 := by
  have hsq : ∀ i j, i ≤ j → s j ^ 2 ≤ s i ^ 2 := fun i j hij => pow_le_pow_left₀ (hs0 j) (hs hij) 2
  by_cases hρ : ρ < k
  · set σ := s ⟨ρ, hρ⟩ ^ 2 with hσ
    have key : ∀ i : Fin k, s i ^ 2 * w i + (if ρ ≤ (i : ℕ) then s i ^ 2 else 0) ≤
        s i ^ 2 + σ * (w i - if (i : ℕ) < ρ then 1 else 0) := by
      intro i
      by_cases hi : ρ ≤ (i : ℕ)
      · rw [if_pos hi, if_neg (by omega)]
        have := hsq ⟨ρ, hρ⟩ i hi
        nlinarith [hw0 i]
      · rw [if_neg hi, if_pos (by omega)]
        have := hsq i ⟨ρ, hρ⟩ (by rw [Fin.le_def]; simp; omega)
        nlinarith [hw1 i]
    have hsum : ∑ i, (s i ^ 2 + σ * (w i - if (i : ℕ) < ρ then 1 else 0)) ≤
        ∑ i : Fin k, (s i ^ 2 * w i + (if ρ ≤ (i : ℕ) then s i ^ 2 else 0)) := by
      rw [Finset.sum_add_distrib, Finset.sum_add_distrib, ← Finset.mul_sum, Finset.sum_sub_distrib, sum_lt_ρ hρ.le]
      have : σ * (∑ i, w i - ρ) ≤ 0 := mul_nonpos_of_nonneg_of_nonpos (sq_nonneg _) (by linarith)
      linarith
    have hall := (Finset.sum_eq_sum_iff_of_le fun i (_ : i ∈ Finset.univ) => key i).1 (le_antisymm (Finset.sum_le_sum fun i _ => key i) hsum)
    have hone : ∀ i : Fin k, (i : ℕ) < ρ → w i = 1 := by
      intro i hi
      have h1 := hall i (Finset.mem_univ _)
      rw [if_neg (by omega), if_pos hi] at h1
      have h2 : σ < s i ^ 2 := pow_lt_pow_left₀ (hgap i ⟨ρ, hρ⟩ hi le_rfl) (hs0 _) two_ne_zero
      have h3 : (s i ^ 2 - σ) * (1 - w i) = 0 := by linarith
      rcases mul_eq_zero.1 h3 with h | h <;> linarith
    have hzero : ∑ i : Fin k, (if (i : ℕ) < ρ then 0 else w i) ≤ 0 := by
      have h1 : ∑ i, w i = ∑ i : Fin k, (if (i : ℕ) < ρ then (1 : ℝ) else 0) + ∑ i : Fin k, (if (i : ℕ) < ρ then 0 else w i) := by
        rw [← Finset.sum_add_distrib]
        refine Finset.sum_congr rfl fun i _ => ?_
        split_ifs with h
        · rw [hone i h]; ring
        · ring
      rw [sum_lt_ρ hρ.le] at h1
      linarith
    have hnn : ∀ i : Fin k, 0 ≤ (if (i : ℕ) < ρ then 0 else w i) := fun i => by
      split_ifs
      exacts [le_rfl, hw0 i]
    have hz := (Finset.sum_eq_zero_iff_of_nonneg fun i (_ : i ∈ Finset.univ) => hnn i).1 (le_antisymm hzero (Finset.sum_nonneg fun i _ => hnn i))
    intro i
    split_ifs with h
    · exact Or.inr (hone i h)
    · have := hz i (Finset.mem_univ _)
      rwa [if_neg h] at this
  · have h0 : ∑ i : Fin k, (if ρ ≤ (i : ℕ) then s i ^ 2 else 0) = 0 :=
      Finset.sum_eq_zero fun i _ => if_neg (by have := i.isLt; omega)
    rw [h0, add_zero] at heq
    have key : ∀ i ∈ Finset.univ, s i ^ 2 * w i ≤ s i ^ 2 := fun i _ => mul_le_of_le_one_right (sq_nonneg _) (hw1 i)
    have hall := (Finset.sum_eq_sum_iff_of_le key).1 (le_antisymm (Finset.sum_le_sum key) heq)
    intro i
    rw [if_pos (by have := i.isLt; omega)]
    have := hall i (Finset.mem_univ _)
    have h3 : s i ^ 2 * (1 - w i) = 0 := by linarith
    rcases mul_eq_zero.1 h3 with h | h
    · exact Or.inl (pow_eq_zero_iff two_ne_zero |>.1 h)
    · exact Or.inr (by linarith)

theorem eq_zero_of_fro {n m : ℕ} {A : Matrix (Fin n) (Fin m) ℝ} (h : fro A ≤ 0) : A = 0 := by
  have h0 := le_antisymm h (fro_nonneg A)
  ext i j
  have h1 := (Finset.sum_eq_zero_iff_of_nonneg fun i (_ : i ∈ Finset.univ) => Finset.sum_nonneg fun j _ => sq_nonneg (A i j)).1 h0 i (Finset.mem_univ _)
  have h2 := (Finset.sum_eq_zero_iff_of_nonneg fun j (_ : j ∈ Finset.univ) => sq_nonneg (A i j)).1 h1 j (Finset.mem_univ _)
  exact pow_eq_zero_iff two_ne_zero |>.1 h2

/-- With a gap after the first `ρ` singular values, the truncated singular value decomposition is the only best approximation of rank `ρ`. -/
theorem best_unique {n m k ρ : ℕ} {A : Matrix (Fin n) (Fin m) ℝ} {s : Fin k → ℝ} {u : Matrix (Fin n) (Fin k) ℝ}
    {v : Matrix (Fin m) (Fin k) ℝ} (hu : uᵀ * u = 1) (hv : vᵀ * v = 1) (hs0 : ∀ i, 0 ≤ s i) (hs : Antitone s)
    (hgap : ∀ i j : Fin k, (i : ℕ) < ρ → ρ ≤ j → s j < s i)
    (hA : u * diagonal s * vᵀ = A) (P : Matrix (Fin n) (Fin ρ) ℝ) (Q : Matrix (Fin ρ) (Fin m) ℝ)
    (hbest : fro (A - P * Q) ≤ ∑ i : Fin k, (if ρ ≤ (i : ℕ) then s i ^ 2 else 0)) :
    P * Q = u * diagonal (fun i : Fin k => if (i : ℕ) < ρ then s i else 0) * vᵀ := by
  obtain ⟨q, r, hq, hqr, -⟩ := qr_exists n ρ P
  rw [← hqr, Matrix.mul_assoc, fro_sub_proj hq] at hbest
  have h1 : fro A = ∑ i, s i ^ 2 := by
    rw [← hA, fro_isometry' hv, fro_isometry hu, fro_eq_trace, diagonal_transpose, diagonal_mul_diagonal, trace_diagonal]
    exact Finset.sum_congr rfl fun i _ => (sq _).symm
  have h2 : fro (qᵀ * A) = ∑ j, s j ^ 2 * ∑ i, (qᵀ * u) i j ^ 2 := by
    rw [← hA, ← Matrix.mul_assoc, fro_isometry' hv, ← Matrix.mul_assoc, fro]
    simp only [mul_diagonal, Finset.mul_sum]
    rw [Finset.sum_comm]
    exact Finset.sum_congr rfl fun i _ => Finset.sum_congr rfl fun j _ => by ring
  have hcol : ∀ j, fro (Matrix.of fun i (_ : Fin 1) => u i j) = 1 := by
    intro j
    simp only [fro, Finset.univ_unique, Finset.sum_singleton, of_apply]
    have h4 := congrFun (congrFun hu j) j
    rw [Matrix.mul_apply, Matrix.one_apply_eq] at h4
    rw [← h4]
    exact Finset.sum_congr rfl fun i _ => by rw [sq, transpose_apply]
  have hwf : ∀ j, ∑ i, (qᵀ * u) i j ^ 2 = fro (qᵀ * Matrix.of fun i (_ : Fin 1) => u i j) := by
    intro j
    simp only [fro, Finset.univ_unique, Finset.sum_singleton]
    rfl
  have hw0 : ∀ j, 0 ≤ ∑ i, (qᵀ * u) i j ^ 2 := fun j => Finset.sum_nonneg fun i _ => sq_nonneg _
  have hw1 : ∀ j, ∑ i, (qᵀ * u) i j ^ 2 ≤ 1 := fun j => by rw [hwf, ← hcol j]; exact fro_proj_le hq _
  have hw : ∑ j, ∑ i, (qᵀ * u) i j ^ 2 ≤ ρ := by
    have h5 : ∑ j, ∑ i, (qᵀ * u) i j ^ 2 = fro (uᵀ * q) := by
      rw [← fro_transpose (uᵀ * q), transpose_mul, transpose_transpose, fro, Finset.sum_comm]
    rw [h5]
    refine (fro_proj_le hu q).trans ?_
    rw [fro_of_orth hq]
    exact_mod_cast min_le_right _ _
  have h3 := weighted_tail ρ s _ hs0 hs hw0 hw1 hw
  rw [h1, h2] at hbest
  have hz : fro (qᵀ * A - r * Q) ≤ 0 := by linarith
  have hall := weighted_unique ρ s _ hs0 hs hgap hw0 hw1 hw (by have := fro_nonneg (qᵀ * A - r * Q); linarith)
  have e1 : r * Q = qᵀ * A := (sub_eq_zero.1 (eq_zero_of_fro hz)).symm
  rw [← hqr, Matrix.mul_assoc, e1, ← hA, ← Matrix.mul_assoc, ← Matrix.mul_assoc, ← Matrix.mul_assoc]
  congr 1
  ext i j
  rw [mul_diagonal, mul_diagonal]
  have hj := hall j
  split_ifs at hj ⊢ with hlt
  · rcases hj with hj | hj
    · rw [hj, mul_zero, mul_zero]
    · congr 1
      have h5 := fro_sub_proj hq (Matrix.of fun i (_ : Fin 1) => u i j) (qᵀ * Matrix.of fun i (_ : Fin 1) => u i j)
      rw [sub_self, hcol, ← hwf, hj] at h5
      have h6 := eq_zero_of_fro (h5.trans (by simp [fro])).le
      have h7 := congrFun (congrFun h6 i) 0
      rw [Matrix.sub_apply, Matrix.zero_apply, ← Matrix.mul_assoc] at h7
      exact (sub_eq_zero.1 h7).symm
  · have h5 : ∀ i, (qᵀ * u) i j = 0 := fun i => pow_eq_zero_iff two_ne_zero |>.1
      ((Finset.sum_eq_zero_iff_of_nonneg fun i (_ : i ∈ Finset.univ) => sq_nonneg ((qᵀ * u) i j)).1 hj i (Finset.mem_univ _))
    rw [mul_zero, Matrix.mul_assoc, Matrix.mul_apply, Finset.sum_eq_zero fun l _ => by rw [h5 l, mul_zero], zero_mul]

end T3f
