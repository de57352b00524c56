import Verif.Proofs.IntSize
import Verif.Proofs.KronAlg
import Verif.Proofs.Initializers
import Verif.Model.Kronecker
import Verif.Spec.Kron

/-! # Determinant, inverse and Cholesky factor of Kronecker-factorized matrices -/

namespace T3f

variable {K : Type}

theorem max?_ones {l : List ℕ} (h : ∀ r ∈ l, r = 1) (hne : l ≠ []) : l.max? = some 1 := by
  rw [List.max?_eq_some_iff]
  obtain ⟨a, l', rfl⟩ := List.exists_cons_of_ne_nil hne
  refine ⟨?_, fun b hb => (h b hb).le⟩
  rw [← h a (by simp)]; simp

theorem IsKronecker.check [Zero K] {t : TT K} {I : List ℕ} (h : IsKronecker t I) : kronCheck t = Except.ok I := by
  have hm : t.isMatrix := by simp [TT.isMatrix, h.rows]
  have hne : t.ttRanks ≠ [] := by
    intro e
    have := h.wf.ranks_len
    simp [e] at this
  simp [kronCheck, isKron, hm, max?_ones h.ones hne, h.rows, pyGet]

/-- The checks fail with ValueError for all other well-formed arguments. -/
theorem kronCheck_error [Zero K] {t : TT K} (h : t.WF)
    (hn : ¬ (t.isMatrix ∧ (∀ r ∈ t.ttRanks, r = 1) ∧ t.rawShape.getD 0 [] = t.rawShape.getD 1 [])) :
    kronCheck t = Except.error Err.value := by
  by_cases hm : t.isMatrix
  · have hne : t.ttRanks ≠ [] := by
      intro e
      have := h.ranks_len
      simp [e] at this
    obtain ⟨I, J, hr, -, -⟩ := h.rawShape_matrix hm
    by_cases h1 : ∀ r ∈ t.ttRanks, r = 1
    · have hIJ : I ≠ J := by
        intro e
        exact hn ⟨hm, h1, by simp [hr, e]⟩
      simp [kronCheck, isKron, hm, max?_ones h1 hne, hr, pyGet, hIJ]
    · obtain ⟨m, hmax⟩ : ∃ m, t.ttRanks.max? = some m := by
        cases e : t.ttRanks.max? with
        | none => exact absurd (List.max?_eq_none_iff.1 e) hne
        | some m => exact ⟨m, rfl⟩
      have hm1 : m ≠ 1 := by
        rintro rfl
        obtain ⟨_, hle⟩ := List.max?_eq_some_iff.1 hmax
        apply h1
        intro r hr'
        have h2 := hle r hr'
        have h3 : 0 < r := by
          obtain ⟨k, hk, rfl⟩ := List.getElem_of_mem hr'
          have := h.rank_pos k (by have := h.ranks_len; omega)
          rwa [TT.rank, List.getD_eq_getElem _ _ hk] at this
        omega
      simp [kronCheck, isKron, hm, hmax, hm1]
  · simp [kronCheck, isKron, hm]

theorem IsKronecker.rank_one [Zero K] {t : TT K} {I : List ℕ} (h : IsKronecker t I) (k : ℕ) (hk : k ≤ t.ndims) : t.rank k = 1 := by
  have hl := h.wf.ranks_len
  rw [TT.rank, List.getD_eq_getElem _ _ (by omega)]
  exact h.ones _ (List.getElem_mem _)

theorem IsKronecker.length [Zero K] {t : TT K} {I : List ℕ} (h : IsKronecker t I) : I.length = t.ndims :=
  h.wf.rows_len I (by simp [h.rows])

theorem IsKronecker.shape [Zero K] {t : TT K} {I : List ℕ} (h : IsKronecker t I) (k : ℕ) (hk : k < t.ndims) :
    (t.core k).shape = t.bpre ++ [1, I.getD k 0, I.getD k 0, 1] := by
  rw [h.wf.core_shape k hk, h.rank_one k hk.le, h.rank_one (k + 1) hk, TT.modes, h.rows]
  rfl

/-- The factors. -/
def kfac [Zero K] (t : TT K) (p : List ℕ) (k i j : ℕ) : K := (t.core k).get (p ++ [0, i, j, 0])

theorem kronCore_spec [Zero K] {t : TT K} {I : List ℕ} (h : IsKronecker t I) (k : ℕ) (hk : k < t.ndims) :
    ∃ A, kronCore t k = Except.ok A ∧ A.shape = t.bpre ++ [I.getD k 0, I.getD k 0] ∧
      ∀ p, Valid t.bpre p → A.mat p (I.getD k 0) (I.getD k 0) = fmat (I.getD k 0) (kfac t p k) := by
  have hs := h.shape k hk
  cases hb : t.batch with
  | none =>
    rw [bpre_none hb] at hs ⊢
    simp only [List.nil_append] at hs ⊢
    simp only [kronCore, h.wf.pyCore hk, R.ok_bind, TT.isBatch, hb, Option.isSome_none, getItem, hs]
    refine ⟨_, rfl, by simp [selShape], fun p hp => ?_⟩
    rw [valid_nil_iff] at hp
    subst hp
    ext i j
    simp [fmat, Tensor.mat, kfac, selIdx, List.getD]
  | some n =>
    rw [bpre_some hb] at hs ⊢
    simp only [List.cons_append, List.nil_append] at hs ⊢
    simp only [kronCore, h.wf.pyCore hk, R.ok_bind, TT.isBatch, hb, Option.isSome_some, if_true, getItem, hs]
    refine ⟨_, rfl, by simp [selShape], fun p hp => ?_⟩
    obtain ⟨x, _, rfl, hx, hp⟩ := (valid_cons_iff _ _ _).1 hp
    rw [valid_nil_iff] at hp
    subst hp
    ext i j
    simp [fmat, Tensor.mat, kfac, selIdx, List.getD, hx]

/-- The dense matrix is the Kronecker product of the factors. -/
theorem IsKronecker.full [CommRing K] {t : TT K} {I : List ℕ} (h : IsKronecker t I) :
    ∃ F, full t = Except.ok F ∧ F.shape = t.bpre ++ [I.prod, I.prod] ∧
      ∀ p, Valid t.bpre p → F.mat p I.prod I.prod = kmat I (kfac t p) := by
  obtain ⟨F, e, s, v⟩ := full_matrix h.wf h.rows
  refine ⟨F, e, s, fun p hp => ?_⟩
  ext x y
  simp only [Tensor.mat, Matrix.of_apply, kmat, v p x y hp x.isLt y.isLt]
  rw [TT.entry, lprod_rank_one_zero _ _ _ fun k hk => h.rank_one k hk.le, h.length]
  rfl

theorem squareShape_spec {bs : Option ℕ} (n : ℕ) : squareShape (bs.toList ++ [n, n]) = Except.ok (bs.toList, n) := by
  cases bs <;> simp [squareShape]

theorem binop_scalar_or_same {L : Type} (f : L → L → L) (s D : Tensor L) {pre : List ℕ} (hs : s.shape = [] ∨ s.shape = pre)
    (hD : D.shape = pre) : ∃ T, binop f s D = Except.ok T ∧ T.shape = pre ∧
      ∀ p, Valid pre p → T.get p = f (s.get (bproj s.shape p)) (D.get p) := by
  have hb : bshape s.shape.reverse D.shape.reverse = some pre.reverse := by
    rcases hs with h | h
    · rw [h, hD]; rfl
    · rw [h, hD]; exact bshape_self _
  rw [binop, hb]
  refine ⟨_, rfl, by simp, fun p hp => ?_⟩
  simp only [hD, bproj_valid hp]

theorem corePow_eq {I : List ℕ} (hI : ∀ n ∈ I, 0 < n) (k : ℕ) (hk : k < I.length) :
    ((I.prod : ℕ) : ℝ) / ((I.getD k 0 : ℕ) : ℝ) = ((I.prod / I.getD k 0 : ℕ) : ℝ) ∧ 0 < I.prod / I.getD k 0 := by
  rw [List.getD_eq_getElem _ _ hk]
  have hd : I[k] ∣ I.prod := List.dvd_prod (List.getElem_mem _)
  have hp := hI I[k] (List.getElem_mem _)
  refine ⟨(Nat.cast_div hd (by exact_mod_cast hp.ne')).symm, Nat.div_pos (Nat.le_of_dvd (List.prod_pos hI) hd) hp⟩

/-- The determinant of one factor, for all batch elements. -/
theorem coreDet_spec {t : TT ℝ} {I : List ℕ} (h : IsKronecker t I) (k : ℕ) (hk : k < t.ndims) :
    ∃ A D, kronCore t k = Except.ok A ∧ linalgDet A = Except.ok D ∧ D.shape = t.bpre ∧
      ∀ p, Valid t.bpre p → D.get p = (fmat (I.getD k 0) (kfac t p k)).det := by
  obtain ⟨A, e, s, v⟩ := kronCore_spec h k hk
  refine ⟨A, ⟨t.bpre, fun p => (A.mat p (I.getD k 0) (I.getD k 0)).det⟩, e, ?_, rfl, fun p hp => by rw [← v p hp]⟩
  rw [linalgDet, s, TT.bpre, squareShape_spec]
  rfl

/-- Partial products of the determinants of the factors. -/
noncomputable def pdet (t : TT ℝ) (I p : List ℕ) (k : ℕ) : ℝ :=
  ∏ j ∈ Finset.range k, (fmat (I.getD j 0) (kfac t p j)).det ^ (I.prod / I.getD j 0)

theorem kronDeterminant_spec {t : TT ℝ} {I : List ℕ} (h : IsKronecker t I) (hI : I.prod < 2 ^ 31) :
    ∃ D, kronDeterminant t = Except.ok D ∧ D.shape = t.bpre ∧
      ∀ p, Valid t.bpre p → D.get p = (kmat I (kfac t p)).det := by
  have hlen := h.length
  rw [kronDeterminant, h.check, R.ok_bind]
  simp only [int32_of_lt hI, Int.cast_natCast]
  obtain ⟨D, e, hs, hv⟩ := forRange_inv
    (fun k (s : Tensor ℝ) => (s.shape = t.bpre ∨ (k = 0 ∧ s.shape = [])) ∧
      ∀ p, Valid t.bpre p → s.get (bproj s.shape p) = pdet t I p k) (fun k det => do
      let core ← kronCore t k
      let coreDet ← linalgDet core
      let n ← pyGet I k
      let corePow := ((I.prod : ℕ) : ℝ) / (n : ℝ)
      binop (· * ·) det (coreDet.map (· ^ corePow))) 0 t.ndims (scalar 1)
    ⟨Or.inr ⟨rfl, rfl⟩, fun p _ => by simp [scalar, pdet]⟩ (by
    rintro k s - hk ⟨hs, hv⟩
    have hk' : k < t.ndims := by omega
    obtain ⟨A, D, e1, e2, sD, vD⟩ := coreDet_spec h k hk'
    have hpy : pyGet I k = Except.ok (I.getD k 0) := pyGet_of_lt _ _ _ (by omega)
    obtain ⟨T, e3, sT, vT⟩ := binop_scalar_or_same (· * ·) s (D.map (· ^ (((I.prod : ℕ) : ℝ) / ((I.getD k 0 : ℕ) : ℝ))))
      (pre := t.bpre) (by tauto) sD
    simp only [e1, e2, hpy, R.ok_bind]
    refine ⟨T, e3, Or.inl sT, fun p hp => ?_⟩
    rw [sT, bproj_valid hp, vT p hp, hv p hp, pdet, pdet, Finset.prod_range_succ]
    simp only [Tensor.map, vD p hp, (corePow_eq h.pos k (by omega)).1, Real.rpow_natCast])
  have hpos := h.wf.pos
  have hs' : D.shape = t.bpre := by rcases hs with h1 | h1; exact h1; omega
  refine ⟨D, e, hs', fun p hp => ?_⟩
  have := hv p hp
  rw [hs', bproj_valid hp] at this
  rw [this, det_kmat I h.pos, hlen, Nat.zero_add]
  rfl

theorem realSign_mul (x y : ℝ) : Real.sign (x * y) = Real.sign x * Real.sign y := by
  rcases lt_trichotomy x 0 with hx | rfl | hx <;> rcases lt_trichotomy y 0 with hy | rfl | hy <;>
    simp [Real.sign_of_neg, Real.sign_of_pos, mul_pos_of_neg_of_neg, mul_neg_of_neg_of_pos, mul_neg_of_pos_of_neg, *]

theorem realSign_pow (x : ℝ) {n : ℕ} (hn : 0 < n) : Real.sign (x ^ n) = Real.sign x ^ n := by
  induction n with
  | zero => omega
  | succ n ih =>
    rcases Nat.eq_zero_or_pos n with rfl | h
    · simp
    · rw [pow_succ, realSign_mul, ih h, pow_succ]

theorem tfLog_mul (x y : ℝ) : tfLog (x * y) = tfLog x + tfLog y := by
  by_cases h1 : x = 0
  · simp [tfLog, h1]
  · by_cases h2 : y = 0
    · simp [tfLog, h2]
    · simp only [tfLog, h1, h2, mul_eq_zero, or_self, if_false, Real.log_mul h1 h2, EReal.coe_add]

theorem tfLog_pow {x : ℝ} (n : ℕ) (hn : 0 < n) : tfLog (x ^ n) = tfLog x * (((n : ℕ) : ℝ) : EReal) := by
  by_cases h1 : x = 0
  · simp only [tfLog, h1, zero_pow hn.ne', if_true]
    exact (EReal.bot_mul_coe_of_pos (by exact_mod_cast hn)).symm
  · simp only [tfLog, h1, pow_eq_zero_iff hn.ne', if_false, Real.log_pow, mul_comm, EReal.coe_mul]

theorem kronSlogDeterminant_spec {t : TT ℝ} {I : List ℕ} (h : IsKronecker t I) (hI : I.prod < 2 ^ 31) :
    ∃ S L, kronSlogDeterminant t = Except.ok (S, L) ∧ S.shape = t.bpre ∧ L.shape = t.bpre ∧
      ∀ p, Valid t.bpre p → S.get p = Real.sign (kmat I (kfac t p)).det ∧ L.get p = tfLog |(kmat I (kfac t p)).det| := by
  have hlen := h.length
  rw [kronSlogDeterminant, h.check, R.ok_bind]
  simp only [int32_of_lt hI, Int.cast_natCast]
  obtain ⟨⟨S, L⟩, e, hs, hl, hv⟩ := forRange_inv
    (fun k (s : Tensor ℝ × Tensor EReal) => (s.1.shape = t.bpre ∨ (k = 0 ∧ s.1.shape = [])) ∧
      (s.2.shape = t.bpre ∨ (k = 0 ∧ s.2.shape = [])) ∧
      ∀ p, Valid t.bpre p → s.1.get (bproj s.1.shape p) = Real.sign (pdet t I p k) ∧
        s.2.get (bproj s.2.shape p) = tfLog |pdet t I p k|)
    (fun k (s : Tensor ℝ × Tensor EReal) => do
      let core ← kronCore t k
      let coreDet ← linalgDet core
      let n ← pyGet I k
      let corePow := ((I.prod : ℕ) : ℝ) / (n : ℝ)
      let logdet ← binop (· + ·) s.2 (coreDet.map fun x => tfLog |x| * ((corePow : ℝ) : EReal))
      let sign ← binop (· * ·) s.1 (coreDet.map fun x => Real.sign x ^ corePow)
      pure (sign, logdet)) 0 t.ndims (scalar 1, scalar 0)
    ⟨Or.inr ⟨rfl, rfl⟩, Or.inr ⟨rfl, rfl⟩, fun p _ => by simp [scalar, pdet, tfLog]⟩ (by
    rintro k s - hk ⟨hs, hl, hv⟩
    have hk' : k < t.ndims := by omega
    obtain ⟨A, D, e1, e2, sD, vD⟩ := coreDet_spec h k hk'
    have hpy : pyGet I k = Except.ok (I.getD k 0) := pyGet_of_lt _ _ _ (by omega)
    obtain ⟨T, e3, sT, vT⟩ := binop_scalar_or_same (· + ·) s.2
      (D.map fun x => tfLog |x| * ((((I.prod : ℕ) : ℝ) / ((I.getD k 0 : ℕ) : ℝ) : ℝ) : EReal)) (pre := t.bpre) (by tauto) sD
    obtain ⟨U, e4, sU, vU⟩ := binop_scalar_or_same (· * ·) s.1
      (D.map fun x => Real.sign x ^ (((I.prod : ℕ) : ℝ) / ((I.getD k 0 : ℕ) : ℝ))) (pre := t.bpre) (by tauto) sD
    simp only [e1, e2, hpy, R.ok_bind, e3, e4]
    obtain ⟨hc, hc'⟩ := corePow_eq h.pos k (by omega)
    refine ⟨_, rfl, Or.inl sU, Or.inl sT, fun p hp => ⟨?_, ?_⟩⟩
    · simp only
      rw [sU, bproj_valid hp, vU p hp, (hv p hp).1, pdet, pdet, Finset.prod_range_succ]
      simp only [Tensor.map, vD p hp, hc, Real.rpow_natCast]
      rw [realSign_mul, realSign_pow _ hc']
    · simp only
      rw [sT, bproj_valid hp, vT p hp, (hv p hp).2, pdet, pdet, Finset.prod_range_succ, abs_mul, tfLog_mul,
        abs_pow, tfLog_pow _ hc']
      simp only [Tensor.map, vD p hp, hc])
  have hpos := h.wf.pos
  have hs' : S.shape = t.bpre := by rcases hs with h1 | h1; exact h1; omega
  have hl' : L.shape = t.bpre := by rcases hl with h1 | h1; exact h1; omega
  refine ⟨S, L, e, hs', hl', fun p hp => ?_⟩
  have := hv p hp
  simp only at this
  rw [hs', hl', bproj_valid hp, Nat.zero_add] at this
  rw [det_kmat I h.pos, hlen]
  exact this

end T3f
