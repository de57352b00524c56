import Verif.Proofs.KronOverflow
import Verif.Proofs.KronMap

/-!
# C86: determinants of large Kronecker products

The size of the matrix is computed with 32 bit integers. `F.mat p n n` is the matrix of the last two axes of `F` at the batch index `p`.
-/

namespace T3f

open Matrix

/-- Thirty-two factors `[[1, 0], [0, 2]]`: a matrix of size `2 ^ 32`. -/
def exKronLarge : TT ℤ where
  cores := List.replicate 32 (.ofList [1, 2, 2, 1] [1, 0, 0, 2])
  rawShape := [List.replicate 32 2, List.replicate 32 2]
  ttRanks := List.replicate 33 1
  batch := none

theorem exKronLarge_isKronecker : IsKronecker exKronLarge.toReal (List.replicate 32 2) :=
  ⟨TT.WF.toReal (by decide), rfl, fun _ h => List.eq_of_mem_replicate h, fun _ h => by rw [List.eq_of_mem_replicate h]; norm_num⟩

theorem exKronLarge_prod : (List.replicate 32 2).prod = 2 ^ 32 := by decide

/-- C86: the logarithm of the determinant of a nonsingular matrix of size `n` is multiplied by `w / n`, where `w` is the number
with 32 bits that is congruent to `n`. -/
theorem C86_log {t : TT ℝ} {I : List ℕ} (h : IsKronecker t I) :
    ∃ S L F, ∃ w : ℤ, kronSlogDeterminant t = Except.ok (S, L) ∧ full t = Except.ok F ∧
      -2 ^ 31 ≤ w ∧ w < 2 ^ 31 ∧ w ≡ (I.prod : ℕ) [ZMOD 2 ^ 32] ∧
      ∀ p, Valid t.bpre p → (F.mat p I.prod I.prod).det ≠ 0 →
        L.get p = (((w : ℝ) / (I.prod : ℕ) * Real.log |(F.mat p I.prod I.prod).det| : ℝ) : EReal) := by
  obtain ⟨S, L, e, sS, sL, v⟩ := kronSlogDeterminant_gen h
  obtain ⟨F, eF, sF, vF⟩ := h.full
  refine ⟨S, L, F, int32 I.prod, e, eF, ?_, ?_, ?_, fun p hp hd => ?_⟩
  · exact (int32_spec _).1
  · exact (int32_spec _).2.1
  · exact (int32_spec _).2.2
  · rw [vF p hp] at hd ⊢
    rw [(v p hp).2, kronSlog_log h hd]

example : IsKronecker exKronLarge.toReal (List.replicate 32 2) ∧ IsKronecker exKronBatch.toReal [2, 1] :=
  ⟨exKronLarge_isKronecker, exKronBatch_isKronecker⟩

theorem mul_eq_right_or_zero (a b : ℝ) : a * b = b ↔ a = 1 ∨ b = 0 := by
  constructor
  · intro h
    by_cases hb : b = 0
    · exact Or.inr hb
    · exact Or.inl ((mul_eq_right₀ hb).1 h)
  · rintro (h | h) <;> simp [h]

/-- C86: the logarithm computed for a nonsingular matrix is right exactly if the size of the matrix is below `2 ^ 31`, or the
absolute value of the determinant is 1. -/
theorem C86_iff {t : TT ℝ} {I : List ℕ} (h : IsKronecker t I) :
    ∃ S L F, kronSlogDeterminant t = Except.ok (S, L) ∧ full t = Except.ok F ∧
      ∀ p, Valid t.bpre p → (F.mat p I.prod I.prod).det ≠ 0 →
        (L.get p = ((Real.log |(F.mat p I.prod I.prod).det| : ℝ) : EReal) ↔
          I.prod < 2 ^ 31 ∨ |(F.mat p I.prod I.prod).det| = 1) := by
  obtain ⟨S, L, F, w, e, eF, hl, hu, hw, v⟩ := C86_log h
  refine ⟨S, L, F, e, eF, fun p hp hd => ?_⟩
  rw [v p hp hd, EReal.coe_eq_coe_iff]
  have hP : (0 : ℝ) < (I.prod : ℕ) := by exact_mod_cast List.prod_pos h.pos
  have hlog : Real.log |(F.mat p I.prod I.prod).det| = 0 ↔ |(F.mat p I.prod I.prod).det| = 1 := by
    constructor
    · intro h0
      rcases Real.log_eq_zero.1 h0 with h1 | h1 | h1
      · exact absurd h1 (abs_ne_zero.2 hd)
      · exact h1
      · have := abs_nonneg (F.mat p I.prod I.prod).det
        linarith
    · intro h1; rw [h1, Real.log_one]
  rw [mul_eq_right_or_zero, hlog, div_eq_one_iff_eq hP.ne']
  refine or_congr_left ?_
  clear v hd hlog hP
  generalize I.prod = n at *
  constructor
  · intro hE
    have : w = (n : ℕ) := by exact_mod_cast hE
    omega
  · intro hlt
    have hm : w % 2 ^ 32 = (n : ℤ) % 2 ^ 32 := hw
    have : w = (n : ℕ) := by omega
    rw [this, Int.cast_natCast]

example : IsKronecker exKronLarge.toReal (List.replicate 32 2) ∧ IsKronecker exKronBatch.toReal [2, 1] :=
  ⟨exKronLarge_isKronecker, exKronBatch_isKronecker⟩

/-- C86: if the size of the matrix is a multiple of `2 ^ 32`, as for thirty-two factors of size two, `determinant` is 1 whatever the
matrix is, and for nonsingular matrices `slog_determinant` is the sign 1 and the logarithm 0. -/
theorem C86_multiple {t : TT ℝ} {I : List ℕ} (h : IsKronecker t I) (hm : 2 ^ 32 ∣ I.prod) :
    ∃ D S L F, kronDeterminant t = Except.ok D ∧ kronSlogDeterminant t = Except.ok (S, L) ∧ full t = Except.ok F ∧
      ∀ p, Valid t.bpre p → D.get p = 1 ∧ S.get p = 1 ∧ ((F.mat p I.prod I.prod).det ≠ 0 → L.get p = 0) := by
  have hw : int32 I.prod = 0 := by
    obtain ⟨h1, h2, h3⟩ := int32_spec I.prod
    have h3 : int32 I.prod % 2 ^ 32 = ((I.prod : ℕ) : ℤ) % 2 ^ 32 := h3
    omega
  obtain ⟨D, eD, -, vD⟩ := kronDeterminant_gen h
  obtain ⟨S, L, e, -, -, v⟩ := kronSlogDeterminant_gen h
  obtain ⟨F, eF, sF, vF⟩ := h.full
  refine ⟨D, S, L, F, eD, e, eF, fun p hp => ⟨?_, ?_, fun hd => ?_⟩⟩
  · rw [vD p hp, hw]; simp
  · rw [(v p hp).1, hw]; simp
  · rw [vF p hp] at hd
    rw [(v p hp).2, kronSlog_log h hd, hw]; simp

/-- C86: there is a matrix with thirty-two factors of size two for which the determinant and its logarithm are wrong. -/
theorem C86_wrong : ∃ (t : TT ℝ) (I : List ℕ) (D S : Tensor ℝ) (L : Tensor EReal) (F : Tensor ℝ),
    IsKronecker t I ∧ t.ndims = 32 ∧ I.prod = 2 ^ 32 ∧
      kronDeterminant t = Except.ok D ∧ kronSlogDeterminant t = Except.ok (S, L) ∧ full t = Except.ok F ∧
      D.get [] = 1 ∧ L.get [] = 0 ∧ 1 < (F.mat [] I.prod I.prod).det := by
  have h := exKronLarge_isKronecker
  obtain ⟨D, S, L, F, eD, e, eF, v⟩ := C86_multiple h (by rw [exKronLarge_prod])
  obtain ⟨F', eF', -, vF⟩ := h.full
  obtain rfl : F = F' := by rw [eF] at eF'; exact Except.ok.inj eF'
  have hp : Valid exKronLarge.toReal.bpre [] := by decide
  have hdet : 1 < (F.mat [] (List.replicate 32 2).prod (List.replicate 32 2).prod).det := by
    rw [vF _ hp, det_kmat _ h.pos]
    have hf : ∀ k ∈ Finset.range (List.replicate 32 2).length,
        1 < (fmat ((List.replicate 32 2).getD k 0) (kfac exKronLarge.toReal [] k)).det
          ^ ((List.replicate 32 2).prod / (List.replicate 32 2).getD k 0) := by
      intro k hk
      have hk := Finset.mem_range.1 hk
      have hk' : k < 32 := by simpa using hk
      have h2 : (List.replicate 32 2).getD k 0 = 2 := by rw [List.getD_eq_getElem _ _ hk, List.getElem_replicate]
      refine one_lt_pow₀ ?_ (corePow_eq h.pos k hk).2.ne'
      have hc : exKronLarge.core k = .ofList [1, 2, 2, 1] [1, 0, 0, 2] := by
        rw [TT.core, exKronLarge, List.getD_eq_getElem _ _ (by simpa using hk'), List.getElem_replicate]
      rw [h2, Matrix.det_fin_two]
      simp only [fmat, kfac, Matrix.of_apply, TT.toReal_core _ k (show k < exKronLarge.ndims from hk'), hc]
      norm_num [Tensor.map, Tensor.ofList, ravel]
    calc (1 : ℝ) = ∏ _k ∈ Finset.range (List.replicate 32 2).length, 1 := by simp
      _ < _ := Finset.prod_lt_prod_of_nonempty (fun _ _ => one_pos) hf ⟨0, by simp⟩
  exact ⟨_, _, D, S, L, F, h, rfl, exKronLarge_prod, eD, e, eF, (v _ hp).1, (v _ hp).2.2 (by linarith), hdet⟩

example : IsKronecker exKronLarge.toReal (List.replicate 32 2) ∧ 2 ^ 32 ∣ (List.replicate 32 2).prod :=
  ⟨exKronLarge_isKronecker, by rw [exKronLarge_prod]⟩

end T3f
