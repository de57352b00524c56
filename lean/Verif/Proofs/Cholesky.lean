import Verif.Tf.Linalg
import Mathlib.Analysis.Matrix.LDL
import Mathlib.LinearAlgebra.Matrix.Block
import Mathlib.Algebra.Order.Star.Real

/-! # Existence of Cholesky factors -/

namespace T3f

open Matrix

theorem cholesky_exists {n : ℕ} {A : Matrix (Fin n) (Fin n) ℝ} (hA : A.PosDef) : ∃ L, CholeskyOf A L := by
  set Q := LDL.lowerInv hA with hQ
  have hQl : Q.IsLowerTriangular := fun i j hij => LDL.lowerInv_triangular hA hij
  have hinv : (Q⁻¹).IsLowerTriangular := blockTriangular_inv_of_blockTriangular hQl
  have hdet : (Q⁻¹).det ≠ 0 := by
    have : IsUnit Q := isUnit_of_invertible Q
    have h2 := (Matrix.isUnit_nonsing_inv_iff).2 this
    exact ((Matrix.isUnit_iff_isUnit_det _).1 h2).ne_zero
  have hdiag : ∀ i, Q⁻¹ i i ≠ 0 := by
    rw [det_of_isLowerTriangular _ hinv, Finset.prod_ne_zero_iff] at hdet
    exact fun i => hdet i (Finset.mem_univ _)
  have hrow : ∀ i, Q i ≠ 0 := by
    intro i h0
    have : (Q * Q⁻¹) i i = 1 := by
      rw [Matrix.mul_nonsing_inv _ ((Matrix.isUnit_iff_isUnit_det _).1 (isUnit_of_invertible Q)), Matrix.one_apply_eq]
    rw [Matrix.mul_apply'] at this
    rw [h0] at this
    simp at this
  set d := LDL.diagEntries hA with hd
  have hdpos : ∀ i, 0 < d i := by
    intro i
    have := hA.dotProduct_mulVec_pos (hrow i)
    have e : d i = star (Q i) ⬝ᵥ A *ᵥ Q i := by
      rw [hd, LDL.diagEntries, EuclideanSpace.inner_toLp_toLp]
      simp [dotProduct_comm, hQ]
    rw [e]; exact this
  have hS : Q⁻¹ * diagonal d * (Q⁻¹)ᵀ = A := by
    have := LDL.lower_conj_diag hA
    rw [conjTranspose_eq_transpose_of_trivial] at this
    exact this
  refine ⟨Q⁻¹ * diagonal fun i => Real.sqrt (d i) * SignType.sign (Q⁻¹ i i), fun i j hij => ?_, fun i => ?_, fun i j _ => ?_⟩
  · rw [mul_diagonal, hinv hij, zero_mul]
  · rw [mul_diagonal]
    have h1 : 0 < Real.sqrt (d i) := Real.sqrt_pos.2 (hdpos i)
    have h2 : 0 < Q⁻¹ i i * (SignType.sign (Q⁻¹ i i) : ℝ) := by
      rw [self_mul_sign]; exact abs_pos.2 (hdiag i)
    nlinarith
  · rw [transpose_mul, diagonal_transpose, Matrix.mul_assoc, ← Matrix.mul_assoc (diagonal _) (diagonal _), diagonal_mul_diagonal]
    rw [← Matrix.mul_assoc]
    have : (fun i => Real.sqrt (d i) * (SignType.sign (Q⁻¹ i i) : ℝ) * (Real.sqrt (d i) * (SignType.sign (Q⁻¹ i i) : ℝ))) = d := by
      funext k
      have h1 : (SignType.sign (Q⁻¹ k k) : ℝ) * (SignType.sign (Q⁻¹ k k) : ℝ) = 1 := by
        rcases lt_or_gt_of_ne (hdiag k) with h | h
        · rw [sign_neg h]; norm_num
        · rw [sign_pos h]; norm_num
      have h2 := Real.mul_self_sqrt (hdpos k).le
      calc _ = (Real.sqrt (d k) * Real.sqrt (d k)) * ((SignType.sign (Q⁻¹ k k) : ℝ) * (SignType.sign (Q⁻¹ k k) : ℝ)) := by ring
        _ = d k := by rw [h1, h2, mul_one]
    rw [this, hS]

theorem choleskyMat_spec {n : ℕ} {A : Matrix (Fin n) (Fin n) ℝ} (h : ∃ L, CholeskyOf A L) : CholeskyOf A (choleskyMat A) := by
  rw [choleskyMat, dif_pos h]
  exact h.choose_spec

theorem CholeskyOf.eq {n : ℕ} {A L : Matrix (Fin n) (Fin n) ℝ} (h : CholeskyOf A L) (hA : A.IsSymm) : L * L.transpose = A := by
  have hs : (L * L.transpose).IsSymm := by rw [IsSymm, transpose_mul, transpose_transpose]
  ext i j
  rcases le_total j i with hij | hij
  · exact h.2.2 i j hij
  · rw [← hs.apply, ← hA.apply]
    exact h.2.2 j i hij

theorem CholeskyOf.posDef {n : ℕ} {A L : Matrix (Fin n) (Fin n) ℝ} (h : CholeskyOf A L) (hA : A.IsSymm) : A.PosDef := by
  rw [← h.eq hA]
  have hdet : L.det ≠ 0 := by
    rw [det_of_isLowerTriangular L fun i j hij => h.1 i j hij, Finset.prod_ne_zero_iff]
    exact fun i _ => (h.2.1 i).ne'
  have := Matrix.PosDef.mul_conjTranspose_self L (by
    have hu : IsUnit L := (Matrix.isUnit_iff_isUnit_det _).2 (isUnit_iff_ne_zero.2 hdet)
    exact Matrix.vecMul_injective_iff_isUnit.2 hu)
  rwa [conjTranspose_eq_transpose_of_trivial] at this

end T3f
