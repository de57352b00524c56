import Verif.Proofs.KronMap

/-!
# C27, C28, C29: Kronecker-factorized matrices

`F.mat p n n` is the matrix of the last two axes of `F` at the batch index `p` (`[]` without a batch axis).
-/

namespace T3f

open Matrix

/-- C27: `determinant` is the determinant of the dense matrix, of every batch item. -/
theorem C27_determinant {t : TT ℝ} {I : List ℕ} (h : IsKronecker t I) (hI : I.prod < 2 ^ 31) :
    ∃ D F, kronDeterminant t = Except.ok D ∧ full t = Except.ok F ∧ F.shape = t.bpre ++ [I.prod, I.prod] ∧ D.shape = t.bpre ∧
      ∀ p, Valid t.bpre p → D.get p = (F.mat p I.prod I.prod).det := by
  obtain ⟨D, e, s, v⟩ := kronDeterminant_spec h hI
  obtain ⟨F, eF, sF, vF⟩ := h.full
  exact ⟨D, F, e, eF, sF, s, fun p hp => by rw [v p hp, vF p hp]⟩

example : IsKronecker exKron.toReal [2, 2] ∧ IsKronecker exKronBatch.toReal [2, 1] := ⟨exKron_isKronecker, exKronBatch_isKronecker⟩

/-- C27: `slog_determinant` gives the sign of the determinant of the dense matrix and the logarithm of its absolute value,
with sign 0 and logarithm `-inf` when the determinant is zero. -/
theorem C27_slog_determinant {t : TT ℝ} {I : List ℕ} (h : IsKronecker t I) (hI : I.prod < 2 ^ 31) :
    ∃ S L F, kronSlogDeterminant t = Except.ok (S, L) ∧ full t = Except.ok F ∧ F.shape = t.bpre ++ [I.prod, I.prod] ∧
      S.shape = t.bpre ∧ L.shape = t.bpre ∧
      ∀ p, Valid t.bpre p →
        (0 < (F.mat p I.prod I.prod).det → S.get p = 1) ∧
        ((F.mat p I.prod I.prod).det < 0 → S.get p = -1) ∧
        ((F.mat p I.prod I.prod).det ≠ 0 → L.get p = ((Real.log |(F.mat p I.prod I.prod).det| : ℝ) : EReal)) ∧
        ((F.mat p I.prod I.prod).det = 0 → S.get p = 0 ∧ L.get p = ⊥) := by
  obtain ⟨S, L, e, sS, sL, v⟩ := kronSlogDeterminant_spec h hI
  obtain ⟨F, eF, sF, vF⟩ := h.full
  refine ⟨S, L, F, e, eF, sF, sS, sL, fun p hp => ?_⟩
  rw [vF p hp, (v p hp).1, (v p hp).2]
  refine ⟨Real.sign_of_pos, Real.sign_of_neg, fun hn => ?_, fun hz => ?_⟩
  · rw [tfLog, if_neg (abs_ne_zero.2 hn)]
  · rw [hz, abs_zero, Real.sign_zero, tfLog, if_pos rfl]; exact ⟨rfl, rfl⟩

example : IsKronecker exKron.toReal [2, 2] ∧ IsKronecker exKronBatch.toReal [2, 1] := ⟨exKron_isKronecker, exKronBatch_isKronecker⟩

/-- C27: a tensor, a matrix with a TT-rank above one, or one with non-square factors is rejected by all four functions. -/
theorem C27_errors {t : TT ℝ} (h : t.WF)
    (hn : ¬ t.isMatrix ∨ (∃ r ∈ t.ttRanks, r ≠ 1) ∨ t.rawShape.getD 0 [] ≠ t.rawShape.getD 1 []) :
    kronDeterminant t = Except.error Err.value ∧ kronSlogDeterminant t = Except.error Err.value ∧
      kronInv t = Except.error Err.value ∧ kronCholesky t = Except.error Err.value := by
  have e : kronCheck t = Except.error Err.value := by
    refine kronCheck_error h ?_
    rintro ⟨h1, h2, h3⟩
    rcases hn with h' | ⟨r, hr, h'⟩ | h'
    · exact h' h1
    · exact h' (h2 r hr)
    · exact h' h3
  refine ⟨?_, ?_, ?_, ?_⟩
  · rw [kronDeterminant, e]; rfl
  · rw [kronSlogDeterminant, e]; rfl
  · rw [kronInv, kronMap, e]; rfl
  · rw [kronCholesky, kronMap, e]; rfl

example : exMatrix.toReal.WF ∧ (∃ r ∈ exMatrix.toReal.ttRanks, r ≠ 1) ∧ exReal.WF ∧ ¬ exReal.isMatrix :=
  ⟨TT.WF.toReal (by decide), ⟨2, by decide, by decide⟩, exReal_wf, by simp [TT.isMatrix, exReal]⟩

/-- C28: `inv` of a matrix whose dense determinants are not zero represents the inverse. -/
theorem C28_inv {t : TT ℝ} {I : List ℕ} (h : IsKronecker t I) {F : Tensor ℝ} (hF : full t = Except.ok F)
    (hd : ∀ p, Valid t.bpre p → (F.mat p I.prod I.prod).det ≠ 0) :
    ∃ u G, kronInv t = Except.ok u ∧ u.WF ∧ u.rawShape = t.rawShape ∧ u.ttRanks = t.ttRanks ∧ u.batch = t.batch ∧
      full u = Except.ok G ∧ G.shape = F.shape ∧
      ∀ p, Valid t.bpre p → G.mat p I.prod I.prod * F.mat p I.prod I.prod = 1 ∧
        F.mat p I.prod I.prod * G.mat p I.prod I.prod = 1 := by
  obtain ⟨F', eF, sF, vF⟩ := h.full
  obtain rfl : F' = F := Except.ok.inj (eF.symm.trans hF)
  obtain ⟨u, e, hu, hb, hr, v⟩ := kronInv_ok h fun p hp => by rw [← vF p hp]; exact hd p hp
  obtain ⟨G, eG, sG, vG⟩ := hu.full
  have hbp : u.bpre = t.bpre := by rw [TT.bpre, TT.bpre, hb]
  refine ⟨u, G, e, hu.wf, by rw [hu.rows, h.rows], hr, hb, eG, by rw [sG, sF, hbp], fun p hp => ?_⟩
  have hU : IsUnit (kmat I (kfac t p)).det := isUnit_iff_ne_zero.2 (by rw [← vF p hp]; exact hd p hp)
  rw [vG p (by rw [hbp]; exact hp), vF p hp, v p hp]
  exact ⟨Matrix.nonsing_inv_mul _ hU, Matrix.mul_nonsing_inv _ hU⟩

/-- C28: if the dense matrix of some batch item is singular, `inv` raises InvalidArgumentError. -/
theorem C28_singular {t : TT ℝ} {I : List ℕ} (h : IsKronecker t I) {F : Tensor ℝ} (hF : full t = Except.ok F) {p : List ℕ}
    (hp : Valid t.bpre p) (hd : (F.mat p I.prod I.prod).det = 0) : kronInv t = Except.error Err.tf := by
  obtain ⟨F', eF, sF, vF⟩ := h.full
  obtain rfl : F' = F := Except.ok.inj (eF.symm.trans hF)
  exact kronInv_error h hp (by rw [← vF p hp]; exact hd)

theorem exKron_factor : exKron.toReal.factor [] 0 2 = !![1, 2; 2, 5] ∧ exKron.toReal.factor [] 1 2 = !![4, 2; 2, 10] := by
  constructor <;> ext i j <;> fin_cases i <;> fin_cases j <;>
    norm_num [TT.factor, TT.core, TT.toReal, exKron, Tensor.map, Tensor.ofList, ravel]

theorem posDef_two (a b c d e f : ℝ) (ha : 0 < a) (hc : 0 < c) (hd : d = a * a) (he : e = b * a) (hf : f = b * b + c * c) :
    (!![d, e; e, f] : Matrix (Fin 2) (Fin 2) ℝ).PosDef := by
  refine CholeskyOf.posDef (L := !![a, 0; b, c]) ⟨?_, ?_, ?_⟩ ?_
  · simp [Fin.forall_fin_two]
  · simp [Fin.forall_fin_two, ha, hc]
  · simp [Fin.forall_fin_two, hd, he, hf, Matrix.mul_apply, Fin.sum_univ_two, -Matrix.cons_mul]
  · rw [IsSymm.ext_iff]; simp [Fin.forall_fin_two]

theorem exKron_posDef : ∀ k < exKron.toReal.ndims, ∀ p, Valid exKron.toReal.bpre p →
    (exKron.toReal.factor p k ([2, 2].getD k 0)).PosDef := by
  intro k hk p hp
  have hk : k < 2 := hk
  obtain rfl := (valid_nil_iff p).1 hp
  interval_cases k
  · change (exKron.toReal.factor [] 0 2).PosDef
    rw [exKron_factor.1]
    exact posDef_two 1 2 1 _ _ _ (by norm_num) (by norm_num) (by norm_num) (by norm_num) (by norm_num)
  · change (exKron.toReal.factor [] 1 2).PosDef
    rw [exKron_factor.2]
    exact posDef_two 2 1 3 _ _ _ (by norm_num) (by norm_num) (by norm_num) (by norm_num) (by norm_num)

/-- The determinant of the example is one times `36 ^ 2`. -/
example : IsKronecker exKron.toReal [2, 2] ∧ ∃ F, full exKron.toReal = Except.ok F ∧
    ∀ p, Valid exKron.toReal.bpre p → (F.mat p ([2, 2].prod) ([2, 2].prod)).det ≠ 0 := by
  obtain ⟨F, eF, -, vF⟩ := exKron_isKronecker.full
  refine ⟨exKron_isKronecker, F, eF, fun p hp => ?_⟩
  rw [vF p hp, det_kmat_ne_zero exKron_isKronecker.pos]
  intro k hk
  exact (exKron_posDef k hk p hp).det_pos.ne'

/-- C29: if the factors are positive definite, `cholesky` represents the Cholesky factor of the dense matrix: it is lower
triangular with positive diagonal and its product with its transpose is the dense matrix. -/
theorem C29_cholesky {t : TT ℝ} {I : List ℕ} (h : IsKronecker t I)
    (hd : ∀ k < t.ndims, ∀ p, Valid t.bpre p → (t.factor p k (I.getD k 0)).PosDef) :
    ∃ u F G, kronCholesky t = Except.ok u ∧ u.WF ∧ u.rawShape = t.rawShape ∧ u.ttRanks = t.ttRanks ∧ u.batch = t.batch ∧
      full t = Except.ok F ∧ full u = Except.ok G ∧ G.shape = F.shape ∧
      ∀ p, Valid t.bpre p →
        (∀ x y, x < y → G.mat p I.prod I.prod x y = 0) ∧ (∀ x, 0 < G.mat p I.prod I.prod x x) ∧
        G.mat p I.prod I.prod * (G.mat p I.prod I.prod).transpose = F.mat p I.prod I.prod := by
  obtain ⟨F, eF, sF, vF⟩ := h.full
  obtain ⟨u, e, hu, hb, hr, v⟩ := kronCholesky_ok h hd
  obtain ⟨G, eG, sG, vG⟩ := hu.full
  have hbp : u.bpre = t.bpre := by rw [TT.bpre, TT.bpre, hb]
  refine ⟨u, F, G, e, hu.wf, by rw [hu.rows, h.rows], hr, hb, eF, eG, by rw [sG, sF, hbp], fun p hp => ?_⟩
  rw [vG p (by rw [hbp]; exact hp), vF p hp]
  exact v p hp

example : IsKronecker exKron.toReal [2, 2] ∧ ∀ k < exKron.toReal.ndims, ∀ p, Valid exKron.toReal.bpre p →
    (exKron.toReal.factor p k ([2, 2].getD k 0)).PosDef := ⟨exKron_isKronecker, exKron_posDef⟩

/-- C29: a symmetric factor that is not positive definite makes `cholesky` raise InvalidArgumentError. -/
theorem C29_not_posDef {t : TT ℝ} {I : List ℕ} (h : IsKronecker t I) {p : List ℕ} (hp : Valid t.bpre p) {k : ℕ}
    (hk : k < t.ndims) (hs : (t.factor p k (I.getD k 0)).IsSymm) (hd : ¬ (t.factor p k (I.getD k 0)).PosDef) :
    kronCholesky t = Except.error Err.tf :=
  kronCholesky_error h hp hk hs hd

/-- C29: positive definiteness of the dense matrix is not enough: `(-1) ⊗ (-1)` is positive definite, but `cholesky`
raises. -/
theorem C29_needs_factors : ∃ (t : TT ℝ) (I : List ℕ) (F : Tensor ℝ), IsKronecker t I ∧ full t = Except.ok F ∧
    (F.mat [] I.prod I.prod).PosDef ∧ kronCholesky t = Except.error Err.tf := by
  have hfac : ∀ k < 2, ∀ i j, i < 1 → j < 1 → kfac exKronNeg.toReal [] k i j = -1 := by
    intro k hk i j hi hj
    obtain rfl : i = 0 := by omega
    obtain rfl : j = 0 := by omega
    interval_cases k <;> norm_num [kfac, TT.core, TT.toReal, exKronNeg, Tensor.map, Tensor.ofList, ravel]
  obtain ⟨F, eF, sF, vF⟩ := exKronNeg_isKronecker.full
  have hp : Valid exKronNeg.toReal.bpre [] := (valid_nil_iff _).2 rfl
  refine ⟨_, _, F, exKronNeg_isKronecker, eF, ?_, C29_not_posDef exKronNeg_isKronecker hp (k := 0) (by decide) ?_ ?_⟩
  · have h1 : kmat [1, 1] (kfac exKronNeg.toReal []) = kmat [1, 1] fun _ _ _ => -1 := by
      refine kmat_congr _ _ _ fun k hk i hi j hj => ?_
      have hk : k < 2 := hk
      have : [1, 1].getD k 0 = 1 := by interval_cases k <;> rfl
      rw [this] at hi hj
      exact hfac k hk i j hi hj
    have h2 : (kmat [1, 1] fun _ _ _ => (-1 : ℝ)) = 1 := by
      ext x y
      rw [(Subsingleton.elim (α := Fin 1) x y : x = y), Matrix.one_apply_eq]
      change ∏ k ∈ Finset.range 2, (-1 : ℝ) = 1
      norm_num
    rw [vF [] hp, h1, h2]
    exact Matrix.PosDef.one
  · ext i j
    rw [(Subsingleton.elim (α := Fin 1) i j : i = j)]
    rfl
  · intro hpd
    have := hpd.diag_pos (i := (0 : Fin 1))
    have e : exKronNeg.toReal.factor [] 0 ([1, 1].getD 0 0) (0 : Fin 1) (0 : Fin 1) = -1 := hfac 0 (by omega) 0 0 (by omega) (by omega)
    rw [e] at this
    norm_num at this

end T3f
