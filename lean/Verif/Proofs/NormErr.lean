import Verif.Proofs.OrthoErrLR
import Verif.Proofs.Norm

/-! # Norms in floating point arithmetic -/

namespace T3f

theorem normProd_nonneg (N r : ℕ → ℕ) (G : ℕ → ℕ → ℕ → ℕ → ℝ) (k : ℕ) : 0 ≤ normProd N r G k := Finset.prod_nonneg fun _ _ => bn_nonneg _ _ _ _

theorem fn_lmat_le {N r : ℕ → ℕ} {G : ℕ → ℕ → ℕ → ℕ → ℝ} (h0 : r 0 = 1) (k : ℕ) : fn (rowsN N k) (r k) (lmat N r G k) ≤ normProd N r G k := by
  induction k with
  | zero => rw [h0]; simp [fn, rowsN, lmat, normProd]
  | succ k ih =>
    rw [normProd, Finset.prod_range_succ, lmat_succ]
    exact (ext_le _ _ _ _ _ _).trans (mul_le_mul_of_nonneg_right ih (bn_nonneg _ _ _ _))

theorem entryNorm_le {t : TT ℝ} (h : t.WF) (p : List ℕ) : √(entryDot t t p) ≤ normProd t.N t.rank (t.fl p) t.ndims := by
  rw [← gram_entry h rfl rfl, gram_self_lmat, Real.sqrt_sq (fn_nonneg _ _ _)]
  have := fn_lmat_le (N := t.N) (G := t.fl p) h.rank_first t.ndims
  rwa [h.rank_last] at this

theorem sweepGrowth_ge (A : Arith) {ε : ℝ} (hε : 0 ≤ ε) (r : ℕ → ℕ) (i : ℕ) : 1 ≤ sweepGrowth A ε r i := by
  unfold sweepGrowth
  have h1 := one_le_pow₀ (n := i) (show (1 : ℝ) ≤ 1 + ε by linarith)
  have h2 := one_le_pow₀ (n := ∑ k ∈ Finset.range i, r (k + 1)) (show (1 : ℝ) ≤ 1 + A.u by linarith [A.nonneg])
  nlinarith

theorem square_err {s n b T P g η : ℝ} (hη : 0 ≤ η) (hg : 1 ≤ g) (hT : 0 ≤ T) (hTP : T ≤ P) (h1 : |b - T| ≤ (g - 1) * P)
    (h2 : |n - b| ≤ η * b) (h3 : |s - n ^ 2| ≤ η * n ^ 2) : |s - T ^ 2| ≤ ((1 + η) ^ 3 * g ^ 2 - 1) * P ^ 2 := by
  have hP : 0 ≤ P := hT.trans hTP
  set h := (1 + η) * g with hh
  have hbg : b ≤ g * P := by have := (abs_le.1 h1).2; linarith
  have hnT : |n - T| ≤ (h - 1) * P := by
    calc |n - T| ≤ |n - b| + |b - T| := abs_sub_le _ _ _
      _ ≤ η * (g * P) + (g - 1) * P := add_le_add (h2.trans (mul_le_mul_of_nonneg_left hbg hη)) h1
      _ = _ := by rw [hh]; ring
  have hh1 : 1 ≤ h := by rw [hh]; nlinarith
  have hnle : |n| ≤ h * P := by
    calc |n| = |(n - T) + T| := by ring_nf
      _ ≤ |n - T| + |T| := abs_add_le _ _
      _ ≤ (h - 1) * P + P := add_le_add hnT (by rw [abs_of_nonneg hT]; exact hTP)
      _ = _ := by ring
  have hn2 : n ^ 2 ≤ (h * P) ^ 2 := by rw [← sq_abs]; exact pow_le_pow_left₀ (abs_nonneg _) hnle 2
  have hsum : |n + T| ≤ (h + 1) * P := by
    calc |n + T| ≤ |n| + |T| := abs_add_le _ _
      _ ≤ h * P + P := add_le_add hnle (by rw [abs_of_nonneg hT]; exact hTP)
      _ = _ := by ring
  have hdiff : |n ^ 2 - T ^ 2| ≤ (h ^ 2 - 1) * P ^ 2 := by
    rw [show n ^ 2 - T ^ 2 = (n - T) * (n + T) by ring, abs_mul]
    calc _ ≤ (h - 1) * P * ((h + 1) * P) := mul_le_mul hnT hsum (abs_nonneg _) (mul_nonneg (by linarith) hP)
      _ = _ := by ring
  calc |s - T ^ 2| ≤ |s - n ^ 2| + |n ^ 2 - T ^ 2| := abs_sub_le _ _ _
    _ ≤ η * (h * P) ^ 2 + (h ^ 2 - 1) * P ^ 2 := add_le_add (h3.trans (mul_le_mul_of_nonneg_left hn2 hη)) hdiff
    _ = _ := by rw [hh]; ring

theorem square_nonneg {s n η : ℝ} (hη : η ≤ 1) (h : |s - n ^ 2| ≤ η * n ^ 2) : 0 ≤ s := by
  have := (abs_le.1 h).1
  nlinarith [sq_nonneg n]

theorem frobeniusQRF_ok {F : FloatRoutines} {A : Arith} (hF : F.Follows A) {qr : QRRoutine} {ε : ℝ} (hε : 0 ≤ ε) {M : ℕ} (hqr : qr.Backward ε M)
    {nr : NormRoutine} {η : ℝ} (hη : 0 ≤ η) (hnr : nr.Accurate η M)
    {t : TT ℝ} (h : t.WF) (hm : t.ModesPos) (hM : ∀ k < t.ndims, t.rank k * t.N k * t.rank (k + 1) ≤ M) :
    ∃ S, frobeniusNormSquaredQRF F qr nr t = Except.ok S ∧ S.shape = t.bpre ∧ ∀ p, Valid t.bpre p →
      (∃ n, |S.get p - n ^ 2| ≤ η * n ^ 2) ∧
      |S.get p - entryDot t t p| ≤ ((1 + η) ^ 3 * sweepGrowth A ε t.rank (t.ndims - 1) ^ 2 - 1) * normProd t.N t.rank (t.fl p) t.ndims ^ 2 := by
  obtain ⟨o, e, w, rs, b, nd, rk, res⟩ := orthoLRF_ok hF hε hqr h hm hM
  have hpos := h.pos
  have hbp : o.bpre = t.bpre := by simp [TT.bpre, b]
  have hB := blk_core w (k := o.ndims - 1) (by omega)
  rw [hbp, show o.ndims - 1 + 1 = o.ndims by omega, w.rank_last] at hB
  have hlast : pyGet o.cores.reverse 0 = Except.ok (o.core (o.ndims - 1)) := by
    have hl : 0 < o.cores.length := w.pos
    rw [pyGet_of_lt _ _ default (by rw [List.length_reverse]; exact hl), List.getD_eq_getElem _ _ (by rw [List.length_reverse]; exact hl),
      List.getElem_reverse, TT.core, List.getD_eq_getElem _ _ (by rw [TT.ndims]; omega)]
    rfl
  have hNo : o.N = t.N := by funext k; simp [TT.N, TT.modes, rs]
  set m := o.rank (o.ndims - 1) * (o.N (o.ndims - 1) * 1) with hm'
  have hmM : m ≤ M := by
    refine le_trans ?_ (hM (t.ndims - 1) (by omega))
    rw [hm', nd, hNo, rk _ (by omega), show t.ndims - 1 + 1 = t.ndims by omega, h.rank_last, Nat.mul_one, Nat.mul_one]
    exact Nat.mul_le_mul_right _ (lrRank_le _ _ h.rank_first _)
  have hsq : ∀ p, Valid t.bpre p → |√(∑ x ∈ Finset.range m, (o.core (o.ndims - 1)).flat (ravel t.bpre p * m + x) ^ 2) - √(entryDot t t p)| ≤
      (sweepGrowth A ε t.rank (t.ndims - 1) - 1) * normProd t.N t.rank (t.fl p) t.ndims := by
    intro p hp
    obtain ⟨Q, hQ⟩ := res p hp
    have := hQ.norm h rfl (by rw [← rk _ le_rfl, ← nd]; exact w.rank_last)
    rw [hB.sumsq hp, nd, hNo, rk _ (by omega)]
    exact this
  have key : ∀ p, Valid t.bpre p → ∀ x : ℕ → ℝ, (∀ i < m, x i = (o.core (o.ndims - 1)).flat (ravel t.bpre p * m + i)) →
      (∃ n, |nr.square (nr.norm m x) - n ^ 2| ≤ η * n ^ 2) ∧ |nr.square (nr.norm m x) - entryDot t t p| ≤
        ((1 + η) ^ 3 * sweepGrowth A ε t.rank (t.ndims - 1) ^ 2 - 1) * normProd t.N t.rank (t.fl p) t.ndims ^ 2 := by
    intro p hp x hx
    have h1 := hsq p hp
    have ex : ∑ i ∈ Finset.range m, x i ^ 2 = ∑ i ∈ Finset.range m, (o.core (o.ndims - 1)).flat (ravel t.bpre p * m + i) ^ 2 :=
      Finset.sum_congr rfl fun i hi => by rw [hx i (Finset.mem_range.1 hi)]
    rw [← ex] at h1
    have h0 : 0 ≤ entryDot t t p := Finset.sum_nonneg fun _ _ => mul_self_nonneg _
    refine ⟨⟨_, hnr.2 _⟩, ?_⟩
    have := square_err hη (sweepGrowth_ge A hε t.rank (t.ndims - 1)) (Real.sqrt_nonneg _) (entryNorm_le h p) h1
      (hnr.1 m hmM x) (hnr.2 _)
    rwa [Real.sq_sqrt h0] at this
  unfold frobeniusNormSquaredQRF
  rw [orthogonalizeF, if_pos rfl, e]
  simp only [R.ok_bind, hlast]
  cases hbt : t.batch with
  | none =>
    have hbpre : t.bpre = [] := by simp [TT.bpre, hbt]
    rw [if_neg (by simp [TT.isBatch, hbt])]
    refine ⟨_, rfl, by rw [hbpre]; rfl, fun p hp => ?_⟩
    rw [hbpre] at hp hB
    obtain rfl := (valid_nil_iff p).1 hp
    have hs := hB.1
    rw [List.prod_nil, one_mul, ← hm'] at hs
    have := key [] (by rw [hbpre]; trivial) (fun i => (o.core (o.ndims - 1)).get (unravel (o.core (o.ndims - 1)).shape i)) fun i _ => by
      rw [hbpre]
      show _ = (o.core (o.ndims - 1)).flat (0 * _ + i)
      rw [Nat.zero_mul, Nat.zero_add]
      rfl
    rw [← hs] at this
    exact this
  | some bs =>
    have hbpre : t.bpre = [bs] := by simp [TT.bpre, hbt]
    have hbs : 0 < bs := by
      have := batch_prod_pos h.batch_pos
      simpa [hbt] using this
    have hlz : t.lazyBatchSize = Except.ok bs := by simp [TT.lazyBatchSize, hbt]
    rw [if_pos (by simp [TT.isBatch, hbt]), hlz, R.ok_bind]
    rw [hbpre] at hB
    obtain ⟨Y, eY, sY, vY⟩ := reshape_flat (o.core (o.ndims - 1)) [some bs, none] [bs, m]
      (resolveShape_infer [some bs, none] m _ (by simp) (by simpa [knownProd] using hbs) (by rw [hB.1, ← hm']; simp [knownProd]))
    rw [eY, R.ok_bind, tfNormRowsF, sY]
    refine ⟨_, rfl, by rw [hbpre]; rfl, fun p hp => ?_⟩
    obtain ⟨q, rfl⟩ : ∃ q, p = [q] := by
      have := hp.length_eq; rw [hbpre] at this; exact List.length_eq_one_iff.1 this
    have hq : q < bs := by rw [hbpre] at hp; exact hp.1
    refine key [q] hp (fun x => Y.get [q, x]) fun x hx => ?_
    rw [← Tensor.flat_ravel Y (idx := [q, x]) (by rw [sY]; exact ⟨hq, hx, trivial⟩), sY, vY _ (by
      rw [hB.1, ← hm']
      have := mul_add_lt hq hx
      simpa [ravel] using this), hbpre]
    simp [ravel]

end T3f
