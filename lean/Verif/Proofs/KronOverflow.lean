import Verif.Proofs.Kronecker

/-! Determinants of Kronecker products when the size of the matrix does not fit into 32 bits. -/

namespace T3f

open Matrix

/-- `determinant` for every size. -/
theorem kronDeterminant_gen {t : TT ℝ} {I : List ℕ} (h : IsKronecker t I) :
    ∃ D, kronDeterminant t = Except.ok D ∧ D.shape = t.bpre ∧
      ∀ p, Valid t.bpre p → D.get p = ∏ j ∈ Finset.range t.ndims,
        (fmat (I.getD j 0) (kfac t p j)).det ^ (((int32 I.prod : ℤ) : ℝ) / ((I.getD j 0 : ℕ) : ℝ)) := by
  have hlen := h.length
  rw [kronDeterminant, h.check, R.ok_bind]
  obtain ⟨D, e, hs, hv⟩ := forRange_inv
    (fun k (s : Tensor ℝ) => (s.shape = t.bpre ∨ (k = 0 ∧ s.shape = [])) ∧
      ∀ p, Valid t.bpre p → s.get (bproj s.shape p) = ∏ j ∈ Finset.range k,
        (fmat (I.getD j 0) (kfac t p j)).det ^ (((int32 I.prod : ℤ) : ℝ) / ((I.getD j 0 : ℕ) : ℝ))) (fun k det => do
      let core ← kronCore t k
      let coreDet ← linalgDet core
      let n ← pyGet I k
      let corePow := ((int32 I.prod : ℤ) : ℝ) / (n : ℝ)
      binop (· * ·) det (coreDet.map (· ^ corePow))) 0 t.ndims (scalar 1)
    ⟨Or.inr ⟨rfl, rfl⟩, fun p _ => by simp [scalar]⟩ (by
    rintro k s - hk ⟨hs, hv⟩
    have hk' : k < t.ndims := by omega
    obtain ⟨A, D, e1, e2, sD, vD⟩ := coreDet_spec h k hk'
    have hpy : pyGet I k = Except.ok (I.getD k 0) := pyGet_of_lt _ _ _ (by omega)
    obtain ⟨T, e3, sT, vT⟩ := binop_scalar_or_same (· * ·) s
      (D.map (· ^ (((int32 I.prod : ℤ) : ℝ) / ((I.getD k 0 : ℕ) : ℝ)))) (pre := t.bpre) (by tauto) sD
    simp only [e1, e2, hpy, R.ok_bind]
    refine ⟨T, e3, Or.inl sT, fun p hp => ?_⟩
    rw [sT, bproj_valid hp, vT p hp, hv p hp, Finset.prod_range_succ]
    simp only [Tensor.map, vD p hp])
  have hpos := h.wf.pos
  have hs' : D.shape = t.bpre := by rcases hs with h1 | h1; exact h1; omega
  refine ⟨D, e, hs', fun p hp => ?_⟩
  have := hv p hp
  rw [hs', bproj_valid hp, Nat.zero_add] at this
  exact this

/-- `slog_determinant` for every size. -/
theorem kronSlogDeterminant_gen {t : TT ℝ} {I : List ℕ} (h : IsKronecker t I) :
    ∃ S L, kronSlogDeterminant t = Except.ok (S, L) ∧ S.shape = t.bpre ∧ L.shape = t.bpre ∧
      ∀ p, Valid t.bpre p →
        S.get p = ∏ j ∈ Finset.range t.ndims,
          Real.sign (fmat (I.getD j 0) (kfac t p j)).det ^ (((int32 I.prod : ℤ) : ℝ) / ((I.getD j 0 : ℕ) : ℝ)) ∧
        L.get p = ∑ j ∈ Finset.range t.ndims, tfLog |(fmat (I.getD j 0) (kfac t p j)).det| *
          ((((int32 I.prod : ℤ) : ℝ) / ((I.getD j 0 : ℕ) : ℝ) : ℝ) : EReal) := by
  have hlen := h.length
  rw [kronSlogDeterminant, h.check, R.ok_bind]
  obtain ⟨⟨S, L⟩, e, hs, hl, hv⟩ := forRange_inv
    (fun k (s : Tensor ℝ × Tensor EReal) => (s.1.shape = t.bpre ∨ (k = 0 ∧ s.1.shape = [])) ∧
      (s.2.shape = t.bpre ∨ (k = 0 ∧ s.2.shape = [])) ∧
      ∀ p, Valid t.bpre p → s.1.get (bproj s.1.shape p) = ∏ j ∈ Finset.range k,
          Real.sign (fmat (I.getD j 0) (kfac t p j)).det ^ (((int32 I.prod : ℤ) : ℝ) / ((I.getD j 0 : ℕ) : ℝ)) ∧
        s.2.get (bproj s.2.shape p) = ∑ j ∈ Finset.range k, tfLog |(fmat (I.getD j 0) (kfac t p j)).det| *
          ((((int32 I.prod : ℤ) : ℝ) / ((I.getD j 0 : ℕ) : ℝ) : ℝ) : EReal))
    (fun k (s : Tensor ℝ × Tensor EReal) => do
      let core ← kronCore t k
      let coreDet ← linalgDet core
      let n ← pyGet I k
      let corePow := ((int32 I.prod : ℤ) : ℝ) / (n : ℝ)
      let logdet ← binop (· + ·) s.2 (coreDet.map fun x => tfLog |x| * ((corePow : ℝ) : EReal))
      let sign ← binop (· * ·) s.1 (coreDet.map fun x => Real.sign x ^ corePow)
      pure (sign, logdet)) 0 t.ndims (scalar 1, scalar 0)
    ⟨Or.inr ⟨rfl, rfl⟩, Or.inr ⟨rfl, rfl⟩, fun p _ => by simp [scalar]⟩ (by
    rintro k s - hk ⟨hs, hl, hv⟩
    have hk' : k < t.ndims := by omega
    obtain ⟨A, D, e1, e2, sD, vD⟩ := coreDet_spec h k hk'
    have hpy : pyGet I k = Except.ok (I.getD k 0) := pyGet_of_lt _ _ _ (by omega)
    obtain ⟨T, e3, sT, vT⟩ := binop_scalar_or_same (· + ·) s.2
      (D.map fun x => tfLog |x| * ((((int32 I.prod : ℤ) : ℝ) / ((I.getD k 0 : ℕ) : ℝ) : ℝ) : EReal)) (pre := t.bpre)
      (by tauto) sD
    obtain ⟨U, e4, sU, vU⟩ := binop_scalar_or_same (· * ·) s.1
      (D.map fun x => Real.sign x ^ (((int32 I.prod : ℤ) : ℝ) / ((I.getD k 0 : ℕ) : ℝ))) (pre := t.bpre) (by tauto) sD
    simp only [e1, e2, hpy, R.ok_bind, e3, e4]
    refine ⟨_, rfl, Or.inl sU, Or.inl sT, fun p hp => ⟨?_, ?_⟩⟩
    · simp only
      rw [sU, bproj_valid hp, vU p hp, (hv p hp).1, Finset.prod_range_succ]
      simp only [Tensor.map, vD p hp]
    · simp only
      rw [sT, bproj_valid hp, vT p hp, (hv p hp).2, Finset.sum_range_succ]
      simp only [Tensor.map, vD p hp])
  have hpos := h.wf.pos
  have hs' : S.shape = t.bpre := by rcases hs with h1 | h1; exact h1; omega
  have hl' : L.shape = t.bpre := by rcases hl with h1 | h1; exact h1; omega
  refine ⟨S, L, e, hs', hl', fun p hp => ?_⟩
  have := hv p hp
  simp only at this
  rwa [hs', hl', bproj_valid hp, Nat.zero_add] at this

theorem coe_ereal_sum (s : Finset ℕ) (f : ℕ → ℝ) : ((∑ j ∈ s, f j : ℝ) : EReal) = ∑ j ∈ s, ((f j : ℝ) : EReal) := by
  induction s using Finset.cons_induction with
  | empty => simp
  | cons a s ha ih => rw [Finset.sum_cons, Finset.sum_cons, EReal.coe_add, ih]

/-- A nonsingular Kronecker product has nonsingular factors. -/
theorem kfac_det_ne_zero {t : TT ℝ} {I : List ℕ} (h : IsKronecker t I) {p : List ℕ} (hd : (kmat I (kfac t p)).det ≠ 0)
    {j : ℕ} (hj : j < t.ndims) : (fmat (I.getD j 0) (kfac t p j)).det ≠ 0 := by
  have hlen := h.length
  intro h0
  apply hd
  rw [det_kmat I h.pos]
  refine Finset.prod_eq_zero (i := j) (Finset.mem_range.2 (by omega)) ?_
  rw [h0, zero_pow (corePow_eq h.pos j (by omega)).2.ne']

theorem log_det_kmat {t : TT ℝ} {I : List ℕ} (h : IsKronecker t I) {p : List ℕ} (hd : (kmat I (kfac t p)).det ≠ 0) :
    Real.log |(kmat I (kfac t p)).det| = ∑ j ∈ Finset.range t.ndims,
      ((I.prod : ℕ) : ℝ) / ((I.getD j 0 : ℕ) : ℝ) * Real.log |(fmat (I.getD j 0) (kfac t p j)).det| := by
  have hlen := h.length
  rw [det_kmat I h.pos, hlen, Finset.abs_prod, Real.log_prod]
  · refine Finset.sum_congr rfl fun j hj => ?_
    rw [abs_pow, Real.log_pow, (corePow_eq h.pos j (by have := Finset.mem_range.1 hj; omega)).1]
  · intro j hj
    exact abs_ne_zero.2 (pow_ne_zero _ (kfac_det_ne_zero h hd (Finset.mem_range.1 hj)))

/-- The logarithm computed by `slog_determinant`, of a nonsingular matrix. -/
theorem kronSlog_log {t : TT ℝ} {I : List ℕ} (h : IsKronecker t I) {p : List ℕ} (hd : (kmat I (kfac t p)).det ≠ 0) :
    ∑ j ∈ Finset.range t.ndims, tfLog |(fmat (I.getD j 0) (kfac t p j)).det| *
          ((((int32 I.prod : ℤ) : ℝ) / ((I.getD j 0 : ℕ) : ℝ) : ℝ) : EReal)
      = ((((int32 I.prod : ℤ) : ℝ) / ((I.prod : ℕ) : ℝ) * Real.log |(kmat I (kfac t p)).det| : ℝ) : EReal) := by
  have hlen := h.length
  have hP : ((I.prod : ℕ) : ℝ) ≠ 0 := by exact_mod_cast (List.prod_pos h.pos).ne'
  have e : ∀ j ∈ Finset.range t.ndims, tfLog |(fmat (I.getD j 0) (kfac t p j)).det| *
      ((((int32 I.prod : ℤ) : ℝ) / ((I.getD j 0 : ℕ) : ℝ) : ℝ) : EReal)
      = ((((int32 I.prod : ℤ) : ℝ) / ((I.prod : ℕ) : ℝ) *
        (((I.prod : ℕ) : ℝ) / ((I.getD j 0 : ℕ) : ℝ) * Real.log |(fmat (I.getD j 0) (kfac t p j)).det|) : ℝ) : EReal) := by
    intro j hj
    have := kfac_det_ne_zero h hd (Finset.mem_range.1 hj)
    rw [tfLog, if_neg (abs_ne_zero.2 this), ← EReal.coe_mul]
    congr 1
    field_simp
  rw [Finset.sum_congr rfl e, ← coe_ereal_sum, ← Finset.mul_sum, ← log_det_kmat h hd]

end T3f
