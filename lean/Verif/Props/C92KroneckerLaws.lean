import Verif.Proofs.KronLaws
import Verif.Props.C27Kronecker

/-!
# C92: laws of the Kronecker operations

`kronecker.determinant`, `slog_determinant`, `inv` and `cholesky` work factor by factor; composed with `matmul` and
`transpose` they obey the laws of the dense operations. `I.prod < 2 ^ 31` is needed where the determinant is computed (C86).
-/

namespace T3f

open Matrix

/-- All matrices of the batch are invertible. -/
def AllInvertible (t : TT ℝ) (n : ℕ) : Prop :=
  ∀ F, full t = Except.ok F → ∀ p, Valid t.bpre p → (F.mat p n n).det ≠ 0

theorem AllInvertible.kmat {t : TT ℝ} {I : List ℕ} (h : IsKronecker t I) (hi : AllInvertible t I.prod) :
    ∀ p, Valid t.bpre p → (kmat I (kfac t p)).det ≠ 0 := by
  obtain ⟨F, eF, -, vF⟩ := h.full
  exact fun p hp => by rw [← vF p hp]; exact hi F eF p hp

/-- **C92.** `det(a b) = det(a) det(b)` and `logdet(a b) = logdet(a) + logdet(b)` for every item of the (broadcast) batch, also
when a determinant is zero. In particular the product is a Kronecker-factorized matrix again, so that no call raises. -/
theorem C92_matmul {a b : TT ℝ} {I : List ℕ} (ha : IsKronecker a I) (hb : IsKronecker b I) (hI : I.prod < 2 ^ 31)
    (hc : BCompat a.batch b.batch) :
    ∃ c D DA DB S L SA LA SB LB, ttTTMatmul a b = Except.ok c ∧ IsKronecker c I ∧ c.batch = squeezed (bcast a.batch b.batch) ∧
      kronDeterminant c = Except.ok D ∧ kronDeterminant a = Except.ok DA ∧ kronDeterminant b = Except.ok DB ∧
      kronSlogDeterminant c = Except.ok (S, L) ∧ kronSlogDeterminant a = Except.ok (SA, LA) ∧
      kronSlogDeterminant b = Except.ok (SB, LB) ∧ D.shape = c.batch.toList ∧ S.shape = c.batch.toList ∧ L.shape = c.batch.toList ∧
      ∀ o < (bcast a.batch b.batch).getD 1,
        D.get (bsel c.batch o) = DA.get (bsel a.batch o) * DB.get (bsel b.batch o) ∧
        S.get (bsel c.batch o) = SA.get (bsel a.batch o) * SB.get (bsel b.batch o) ∧
        L.get (bsel c.batch o) = LA.get (bsel a.batch o) + LB.get (bsel b.batch o) := by
  obtain ⟨c, e, hk, bt, v⟩ := ha.matmul hb hc
  obtain ⟨D, eD, sD, vD⟩ := kronDeterminant_spec hk hI
  obtain ⟨DA, eDA, -, vDA⟩ := kronDeterminant_spec ha hI
  obtain ⟨DB, eDB, -, vDB⟩ := kronDeterminant_spec hb hI
  obtain ⟨S, L, eS, sS, sL, vS⟩ := kronSlogDeterminant_spec hk hI
  obtain ⟨SA, LA, eSA, -, -, vSA⟩ := kronSlogDeterminant_spec ha hI
  obtain ⟨SB, LB, eSB, -, -, vSB⟩ := kronSlogDeterminant_spec hb hI
  refine ⟨c, D, DA, DB, S, L, SA, LA, SB, LB, e, hk, bt, eD, eDA, eDB, eS, eSA, eSB, sD, sS, sL, fun o ho => ?_⟩
  have pc := bsel_squeezed hk.wf bt ho
  have pa := bsel_left ha.wf ho
  have pb := bsel_left hb.wf (b := a) (by rwa [bcast_swap hc] at ho)
  rw [vD _ pc, vDA _ pa, vDB _ pb, (vS _ pc).1, (vS _ pc).2, (vSA _ pa).1, (vSA _ pa).2, (vSB _ pb).1, (vSB _ pb).2, v o ho,
    Matrix.det_mul, abs_mul]
  exact ⟨rfl, realSign_mul _ _, tfLog_mul _ _⟩

/-- A single matrix and a batch of two, each times itself. -/
example : IsKronecker exKron.toReal [2, 2] ∧ BCompat exKron.toReal.batch exKron.toReal.batch ∧ ([2, 2] : List ℕ).prod < 2 ^ 31 ∧
    IsKronecker exKronBatch.toReal [2, 1] ∧ BCompat exKronBatch.toReal.batch exKronBatch.toReal.batch :=
  ⟨exKron_isKronecker, trivial, by norm_num, exKronBatch_isKronecker, Or.inl rfl⟩

/-- **C92.** `inv(a b)` and `inv(b) inv(a)` represent the same dense matrices. -/
theorem C92_inv_matmul {a b : TT ℝ} {I : List ℕ} (ha : IsKronecker a I) (hb : IsKronecker b I)
    (hc : BCompat a.batch b.batch) (ia : AllInvertible a I.prod) (ib : AllInvertible b I.prod) :
    ∃ c ci ai bi d G H, ttTTMatmul a b = Except.ok c ∧ kronInv c = Except.ok ci ∧ kronInv a = Except.ok ai ∧ kronInv b = Except.ok bi ∧
      ttTTMatmul bi ai = Except.ok d ∧ full ci = Except.ok G ∧ full d = Except.ok H ∧ G ≃ₜ H := by
  obtain ⟨c, e, hk, bt, v⟩ := ha.matmul hb hc
  obtain ⟨ai, eai, hai, bai, -, vai⟩ := kronInv_ok ha (ia.kmat ha)
  obtain ⟨bi, ebi, hbi, bbi, -, vbi⟩ := kronInv_ok hb (ib.kmat hb)
  have hc' : BCompat bi.batch ai.batch := by rw [bai, bbi]; exact hc.comm
  obtain ⟨d, ed, hd, bd, vd⟩ := hbi.matmul hai hc'
  have hq : bcast bi.batch ai.batch = bcast a.batch b.batch := by rw [bai, bbi, bcast_swap hc]
  rw [hq] at bd vd
  have pa : ∀ o < (bcast a.batch b.batch).getD 1, Valid a.bpre (bsel a.batch o) := fun o ho => bsel_left ha.wf ho
  have pb : ∀ o < (bcast a.batch b.batch).getD 1, Valid b.bpre (bsel b.batch o) := fun o ho =>
    bsel_left hb.wf (b := a) (by rwa [bcast_swap hc] at ho)
  obtain ⟨ci, eci, hci, bci, -, vci⟩ := kronInv_ok hk fun p hp => by
    obtain ⟨o, ho, rfl⟩ := valid_squeezed bt hp
    rw [v o ho, Matrix.det_mul]
    exact mul_ne_zero (ia.kmat ha _ (pa o ho)) (ib.kmat hb _ (pb o ho))
  obtain ⟨G, H, eG, eH, h⟩ := hci.full_equiv hd (by rw [bci, bt, bd]) fun p hp => by
    have hp' : Valid c.bpre p := by rw [TT.bpre, bci] at hp; exact hp
    rw [vci p hp']
    obtain ⟨o, ho, rfl⟩ := valid_squeezed bt hp'
    rw [v o ho, show bsel c.batch o = bsel d.batch o by rw [bt, bd], vd o ho, bai, bbi, vai _ (pa o ho), vbi _ (pb o ho),
      Matrix.mul_inv_rev]
  exact ⟨c, ci, ai, bi, d, G, H, e, eci, eai, ebi, ed, eG, eH, h⟩

theorem exKron_invertible : AllInvertible exKron.toReal ([2, 2] : List ℕ).prod := by
  intro F eF p hp
  obtain ⟨F', eF', -, vF⟩ := exKron_isKronecker.full
  rw [eF] at eF'; cases eF'
  rw [vF p hp]
  refine (det_kmat_ne_zero exKron_isKronecker.pos _).2 fun k hk => ?_
  exact (exKron_posDef k hk p hp).det_pos.ne'

/-- The hypotheses can be met. -/
example : ∃ c ci ai bi d G H, ttTTMatmul exKron.toReal exKron.toReal = Except.ok c ∧ kronInv c = Except.ok ci ∧
    kronInv exKron.toReal = Except.ok ai ∧ kronInv exKron.toReal = Except.ok bi ∧
    ttTTMatmul bi ai = Except.ok d ∧ full ci = Except.ok G ∧ full d = Except.ok H ∧ G ≃ₜ H :=
  C92_inv_matmul exKron_isKronecker exKron_isKronecker trivial exKron_invertible exKron_invertible

/-- **C92.** The inverse of an invertible matrix is invertible, inverting twice gives the matrix back, `det(inv(a)) det(a) = 1`,
and `slog_determinant(inv(a))` has the same sign and the opposite logarithm. -/
theorem C92_inv {a : TT ℝ} {I : List ℕ} (ha : IsKronecker a I) (hI : I.prod < 2 ^ 31) (ia : AllInvertible a I.prod) :
    ∃ b c A C D DB S L SB LB, kronInv a = Except.ok b ∧ IsKronecker b I ∧ AllInvertible b I.prod ∧ kronInv b = Except.ok c ∧
      full a = Except.ok A ∧ full c = Except.ok C ∧ C ≃ₜ A ∧
      kronDeterminant a = Except.ok D ∧ kronDeterminant b = Except.ok DB ∧
      kronSlogDeterminant a = Except.ok (S, L) ∧ kronSlogDeterminant b = Except.ok (SB, LB) ∧
      ∀ p, Valid a.batch.toList p → DB.get p * D.get p = 1 ∧ SB.get p = S.get p ∧ LB.get p = - L.get p := by
  obtain ⟨b, eb, hb, bb, -, vb⟩ := kronInv_ok ha (ia.kmat ha)
  have hbp : b.bpre = a.bpre := by rw [TT.bpre, TT.bpre, bb]
  have hdet : ∀ p, Valid a.bpre p → (kmat I (kfac b p)).det = ((kmat I (kfac a p)).det)⁻¹ := fun p hp => by
    rw [vb p hp, Matrix.det_nonsing_inv, Ring.inverse_eq_inv']
  have ib : ∀ p, Valid b.bpre p → (kmat I (kfac b p)).det ≠ 0 := fun p hp => by
    rw [hdet p (by rw [← hbp]; exact hp)]
    exact inv_ne_zero (ia.kmat ha p (by rw [← hbp]; exact hp))
  obtain ⟨c, ec, hc, bc, -, vc⟩ := kronInv_ok hb ib
  have hcp : c.bpre = a.bpre := by rw [TT.bpre, TT.bpre, bc, bb]
  obtain ⟨C, A, eC, eA, h⟩ := hc.full_equiv ha (bc.trans bb) fun p hp => by
    rw [hcp] at hp
    rw [vc p (by rw [hbp]; exact hp), vb p hp]
    exact Matrix.nonsing_inv_nonsing_inv _ (isUnit_iff_ne_zero.2 (ia.kmat ha p hp))
  obtain ⟨D, eD, -, vD⟩ := kronDeterminant_spec ha hI
  obtain ⟨DB, eDB, -, vDB⟩ := kronDeterminant_spec hb hI
  obtain ⟨S, L, eS, -, -, vS⟩ := kronSlogDeterminant_spec ha hI
  obtain ⟨SB, LB, eSB, -, -, vSB⟩ := kronSlogDeterminant_spec hb hI
  refine ⟨b, c, A, C, D, DB, S, L, SB, LB, eb, hb, fun F eF p hp => ?_, ec, eA, eC, h, eD, eDB, eS, eSB, fun p hp => ?_⟩
  · obtain ⟨F', eF', -, vF⟩ := hb.full
    rw [eF] at eF'; cases eF'
    rw [vF p hp]; exact ib p hp
  · have hp' : Valid b.bpre p := by rw [hbp]; exact hp
    have hne := ia.kmat ha p hp
    rw [vD p hp, vDB p hp', (vS p hp).1, (vS p hp).2, (vSB p hp').1, (vSB p hp').2, hdet p hp]
    refine ⟨inv_mul_cancel₀ hne, Real.sign_inv _, ?_⟩
    rw [tfLog, tfLog, abs_inv, if_neg (inv_ne_zero (abs_ne_zero.2 hne)), if_neg (abs_ne_zero.2 hne), Real.log_inv, EReal.coe_neg]

example : IsKronecker exKron.toReal [2, 2] ∧ ([2, 2] : List ℕ).prod < 2 ^ 31 ∧ AllInvertible exKron.toReal ([2, 2] : List ℕ).prod :=
  ⟨exKron_isKronecker, by norm_num, exKron_invertible⟩

/-- **C92.** Transposition does not change the determinant. -/
theorem C92_transpose {a : TT ℝ} {I : List ℕ} (ha : IsKronecker a I) (hI : I.prod < 2 ^ 31) :
    ∃ b D DB, ttTranspose a = Except.ok b ∧ IsKronecker b I ∧ kronDeterminant a = Except.ok D ∧ kronDeterminant b = Except.ok DB ∧
      DB ≃ₜ D := by
  obtain ⟨b, eb, hb, bb, vb⟩ := ha.ttTranspose
  have hbp : b.bpre = a.bpre := by rw [TT.bpre, TT.bpre, bb]
  obtain ⟨D, eD, sD, vD⟩ := kronDeterminant_spec ha hI
  obtain ⟨DB, eDB, sDB, vDB⟩ := kronDeterminant_spec hb hI
  refine ⟨b, D, DB, eb, hb, eD, eDB, by rw [sD, sDB, hbp], fun p hp => ?_⟩
  rw [sDB] at hp
  rw [vDB p hp, vD p (by rw [← hbp]; exact hp), vb p (by rw [← hbp]; exact hp), Matrix.det_transpose]

/-- **C92.** `inv(transpose(a))` and `transpose(inv(a))` represent the same dense matrices. -/
theorem C92_inv_transpose {a : TT ℝ} {I : List ℕ} (ha : IsKronecker a I) (ia : AllInvertible a I.prod) :
    ∃ t ti i it G H, ttTranspose a = Except.ok t ∧ kronInv t = Except.ok ti ∧ kronInv a = Except.ok i ∧ ttTranspose i = Except.ok it ∧
      full ti = Except.ok G ∧ full it = Except.ok H ∧ G ≃ₜ H := by
  obtain ⟨t, et, ht, bt, vt⟩ := ha.ttTranspose
  obtain ⟨i, ei, hi, bi, -, vi⟩ := kronInv_ok ha (ia.kmat ha)
  obtain ⟨it, eit, hit, bit, vit⟩ := hi.ttTranspose
  have htp : t.bpre = a.bpre := by rw [TT.bpre, TT.bpre, bt]
  have hip : i.bpre = a.bpre := by rw [TT.bpre, TT.bpre, bi]
  obtain ⟨ti, eti, hti, bti, -, vti⟩ := kronInv_ok ht fun p hp => by
    rw [htp] at hp
    rw [vt p hp, Matrix.det_transpose]
    exact ia.kmat ha p hp
  obtain ⟨G, H, eG, eH, h⟩ := hti.full_equiv hit (by rw [bti, bit, bt, bi]) fun p hp => by
    have hp' : Valid t.bpre p := by rw [TT.bpre, bti] at hp; exact hp
    have hpa : Valid a.bpre p := by rw [← htp]; exact hp'
    rw [vti p hp', vt p hpa, vit p (by rw [hip]; exact hpa), vi p hpa, Matrix.transpose_nonsing_inv]
  exact ⟨t, ti, i, it, G, H, et, eti, ei, eit, eG, eH, h⟩

/-- **C92.** `cholesky` splits the matrix: if it succeeds on symmetric positive definite factors, `L = cholesky(a)` satisfies
`matmul(L, transpose(L)) = a` (up to the squeezing of batches of one), `det(a) = det(L) ^ 2`, and `logdet(a)` is twice the
`logdet(L)`, the usual way to compute it. -/
theorem C92_cholesky {a : TT ℝ} {I : List ℕ} (ha : IsKronecker a I) (hI : I.prod < 2 ^ 31)
    (hd : ∀ k < a.ndims, ∀ p, Valid a.bpre p → (a.factor p k (I.getD k 0)).PosDef) :
    ∃ l lt m A M D DL S L SL LL, kronCholesky a = Except.ok l ∧ ttTranspose l = Except.ok lt ∧ ttTTMatmul l lt = Except.ok m ∧
      full a = Except.ok A ∧ full m = Except.ok M ∧
      (∀ o < a.batch.getD 1, M.mat (bsel m.batch o) I.prod I.prod = A.mat (bsel a.batch o) I.prod I.prod) ∧
      kronDeterminant a = Except.ok D ∧ kronDeterminant l = Except.ok DL ∧
      kronSlogDeterminant a = Except.ok (S, L) ∧ kronSlogDeterminant l = Except.ok (SL, LL) ∧
      ∀ p, Valid a.batch.toList p → D.get p = DL.get p ^ 2 ∧ 0 < D.get p ∧ S.get p = 1 ∧ L.get p = LL.get p + LL.get p ∧ L.get p ≠ ⊥ := by
  obtain ⟨l, el, hl, bl, -, vl⟩ := kronCholesky_ok ha hd
  have hlp : l.bpre = a.bpre := by rw [TT.bpre, TT.bpre, bl]
  obtain ⟨lt, elt, hlt, blt, vlt⟩ := hl.ttTranspose
  have hc : BCompat l.batch lt.batch := by
    rw [blt]; rcases l.batch with _ | n
    · trivial
    · exact Or.inl rfl
  have hq : bcast l.batch lt.batch = a.batch := by
    rw [blt, bl]; rcases a.batch with _ | n
    · rfl
    · simp [bcast]
  obtain ⟨m, em, hm, bm, vm⟩ := hl.matmul hlt hc
  rw [hq] at bm vm
  obtain ⟨A, eA, -, vA⟩ := ha.full
  obtain ⟨M, eM, -, vM⟩ := hm.full
  obtain ⟨D, eD, -, vD⟩ := kronDeterminant_spec ha hI
  obtain ⟨DL, eDL, -, vDL⟩ := kronDeterminant_spec hl hI
  obtain ⟨S, L, eS, -, -, vS⟩ := kronSlogDeterminant_spec ha hI
  obtain ⟨SL, LL, eSL, -, -, vSL⟩ := kronSlogDeterminant_spec hl hI
  refine ⟨l, lt, m, A, M, D, DL, S, L, SL, LL, el, elt, em, eA, eM, fun o ho => ?_, eD, eDL, eS, eSL, fun p hp => ?_⟩
  · have pa : Valid a.bpre (bsel a.batch o) := by
      refine bsel_left ha.wf (b := a) ?_
      rcases hb : a.batch with _ | n <;> rw [hb] at ho <;> simpa [bcast] using ho
    rw [vM _ (bsel_squeezed hm.wf bm ho), vA _ pa, vm o ho, blt, bl, vlt _ (by rw [hlp]; exact pa)]
    exact (vl _ pa).2.2
  · have hp' : Valid l.bpre p := by rw [hlp]; exact hp
    obtain ⟨h1, h2, h3⟩ := vl p hp
    have hdet : (kmat I (kfac a p)).det = (kmat I (kfac l p)).det * (kmat I (kfac l p)).det := by
      rw [← h3, Matrix.det_mul, Matrix.det_transpose]
    have hpos : 0 < (kmat I (kfac l p)).det := by
      rw [Matrix.det_of_isLowerTriangular _ (fun i j hij => h1 i j hij)]
      exact Finset.prod_pos fun x _ => h2 x
    rw [vD p hp, vDL p hp', (vS p hp).1, (vS p hp).2, (vSL p hp').2, hdet, abs_mul, tfLog_mul]
    refine ⟨(sq _).symm, mul_pos hpos hpos, Real.sign_of_pos (mul_pos hpos hpos), rfl, ?_⟩
    rw [← tfLog_mul, tfLog, if_neg (by positivity)]
    exact EReal.coe_ne_bot _

example : IsKronecker exKron.toReal [2, 2] ∧ ∀ k < exKron.toReal.ndims, ∀ p, Valid exKron.toReal.bpre p →
    (exKron.toReal.factor p k ([2, 2].getD k 0)).PosDef := ⟨exKron_isKronecker, exKron_posDef⟩

end T3f
