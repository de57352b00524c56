import Verif.Props.C78OrthoAccuracy
import Verif.Proofs.RoundErrTT
import Verif.Proofs.RoundProps

/-!
# C79: rounding to smaller TT-ranks in floating point arithmetic

`F` computes matrix products with the arithmetic `A` of unit roundoff `u`; `qr` and `svd` compute QR and singular value decompositions with backward errors
of `ε`. `M` bounds the sizes of the matrices. `m` is the argument `max_tt_rank` and `b k` the bound it gives for the `k`-th TT-rank.
-/

namespace T3f

open Matrix

/-! ## Lemmas -/

theorem svd_correct_backward {svd : SVDRoutine} (h : svd.Correct) (M : ℕ) : svd.Backward 0 M := by
  intro n m _ A
  obtain ⟨h1, h2, h3, h4, h5⟩ := h n m A
  refine ⟨svd.u n m A, svd.v n m A, h1, h2, h3, h4, ?_, ?_, ?_⟩
  · rw [h5, sub_self]; simp [matNorm]
  · rw [sub_self]; simp [matNorm]
  · rw [sub_self]; simp [matNorm]

/-- Singular values that are too large by the factor `1 + ε`. -/
noncomputable def skewS (svd : SVDRoutine) (ε : ℝ) : SVDRoutine := ⟨fun n m A i => (1 + ε) * svd.s n m A i, svd.u, svd.v⟩

/-- This routine has a backward error of `ε`. -/
theorem skewS_backward {svd : SVDRoutine} (h : svd.Correct) {ε : ℝ} (hε : 0 ≤ ε) (M : ℕ) : (skewS svd ε).Backward ε M := by
  intro n m _ A
  obtain ⟨h1, h2, h3, h4, h5⟩ := h n m A
  refine ⟨svd.u n m A, svd.v n m A, h1, h2, fun i => mul_nonneg (by linarith) (h3 i), fun i j hij => mul_le_mul_of_nonneg_left (h4 hij) (by linarith), ?_, ?_, ?_⟩
  · have e : svd.u n m A * diagonal ((skewS svd ε).s n m A) * (svd.v n m A)ᵀ = (1 + ε) • A := by
      have : diagonal ((skewS svd ε).s n m A) = (1 + ε) • diagonal (svd.s n m A) := by
        rw [← diagonal_smul]; rfl
      rw [this, Matrix.mul_smul, Matrix.smul_mul, h5]
    rw [e, show ε * matNorm A = √(ε ^ 2 * ∑ i, ∑ j, A i j ^ 2) by rw [Real.sqrt_mul (sq_nonneg ε), Real.sqrt_sq hε]; rfl, matNorm]
    refine Real.sqrt_le_sqrt (le_of_eq ?_)
    simp only [Finset.mul_sum, Matrix.sub_apply, Matrix.smul_apply, smul_eq_mul]
    exact Finset.sum_congr rfl fun i _ => Finset.sum_congr rfl fun j _ => by ring
  · rw [show (skewS svd ε).u n m A = svd.u n m A from rfl, sub_self]
    simpa [matNorm] using hε
  · rw [show (skewS svd ε).v n m A = svd.v n m A from rfl, sub_self]
    simpa [matNorm] using hε

theorem growth_round (A : Arith) (ε : ℝ) (t : TT ℝ) : growth (fun k => truncGrowth A ε (t.rank k)) t.ndims 1 * sweepGrowth A ε t.rank (t.ndims - 1) =
    (1 + ε) ^ (4 * (t.ndims - 1)) * (1 + A.u) ^ (∑ k ∈ Finset.Ico 1 t.ndims, t.rank k * (2 * t.rank k + 1)) := by
  have h1 : growth (fun k => truncGrowth A ε (t.rank k)) t.ndims 1 =
      (1 + ε) ^ (3 * (t.ndims - 1)) * (1 + A.u) ^ (∑ k ∈ Finset.Ico 1 t.ndims, 2 * t.rank k ^ 2) := by
    unfold growth truncGrowth
    rw [Finset.prod_mul_distrib, Finset.prod_const, Nat.card_Ico, ← pow_mul, Finset.prod_pow_eq_pow_sum]
  rw [h1, sweepGrowth_eq, show 4 * (t.ndims - 1) = 3 * (t.ndims - 1) + (t.ndims - 1) by ring, pow_add (1 + ε)]
  rw [show ∑ k ∈ Finset.Ico 1 t.ndims, t.rank k * (2 * t.rank k + 1) =
      ∑ k ∈ Finset.Ico 1 t.ndims, 2 * t.rank k ^ 2 + ∑ k ∈ Finset.Ico 1 t.ndims, t.rank k by
    rw [← Finset.sum_add_distrib]; exact Finset.sum_congr rfl fun k _ => by ring, pow_add (1 + A.u)]
  ring

theorem ttRoundF_eq {F : FloatRoutines} {qr : QRRoutine} {svd : SVDRoutine} {t : TT ℝ} {m : MaxRank} {eps : Option ℝ} (hbatch : t.isBatch → m.Single) :
    ttRoundF F qr svd t m eps = (maxRanks t.ndims m eps).bind (roundWithF F qr svd t) := by
  unfold ttRoundF
  by_cases hb : t.isBatch
  · rw [if_pos hb, maxRanksBatch_single (hbatch hb)]; rfl
  · rw [if_neg hb]; rfl

/-! ## The theorems -/

/-- With routines that do not round, the function is `ttRound`. -/
theorem C79_exact_routines (qr : QRRoutine) (svd : SVDRoutine) : ttRoundF exactRoutines qr svd = ttRound qr svd := by
  have h1 : roundStepF exactRoutines svd = roundStep svd := by
    unfold roundStepF roundStep
    simp only [exactRoutines]
  have h2 : roundWithF exactRoutines qr svd = roundWith qr svd := by
    funext ⟨c, s, r, b⟩ bounds
    cases b <;> simp only [roundWithF, roundWith, h1, (C78_exact_routines qr).1]
  funext t m eps
  simp only [ttRoundF, ttRound, h2]

/-- **C79.** `round` in floating point arithmetic does not fail, keeps the shape and the batch size, and the TT-ranks are those of exact arithmetic: at most
the given bounds and at most the old ranks. All cores but the first are orthonormal up to an error of `ε`. The distance of the result to the argument is at
most `√(d - 1)` times the distance of any tensor train within the bounds, plus `(√(d - 1) + 1) ((1 + ε) ^ (5 (d - 1)) (1 + u) ^ (Σ r_k (2 r_k + 1)) - 1)`
times the product of the norms of the cores of the argument. -/
theorem C79_quasi_optimal {F : FloatRoutines} {A : Arith} (hF : F.Follows A) {qr : QRRoutine} {svd : SVDRoutine} {ε : ℝ} (hε : 0 ≤ ε) {M : ℕ}
    (hqr : qr.Backward ε M) (hsvd : svd.Backward ε M) {t : TT ℝ} (h : t.WF) (hm : t.ModesPos)
    (hM : ∀ k < t.ndims, t.rank k * (t.modes k).prod * t.rank (k + 1) ≤ M)
    {m : MaxRank} {b : ℕ → ℕ} (hb : m.Bounds t.ndims b) (hbatch : t.isBatch → m.Single) {eps : Option ℝ} (he : ∀ e ∈ eps, 0 ≤ e) :
    ∃ x T X s, ttRoundF F qr svd t m eps = Except.ok x ∧ x.WF ∧ x.rawShape = t.rawShape ∧ x.batch = t.batch ∧
      (∀ k, 0 < k → k < t.ndims → x.rank k ≤ b k) ∧ (∀ k ≤ t.ndims, x.rank k ≤ t.rank k) ∧
      full t = Except.ok T ∧ full x = Except.ok X ∧ T.shape = t.bpre ++ s ∧ X.shape = t.bpre ++ s ∧ ∀ p, Valid t.bpre p →
        (∀ k, 0 < k → k < t.ndims → x.NearRightOrthonormal p k ε) ∧
        ∀ (S : TT ℝ) (G : Tensor ℝ), S.WF → S.rawShape = t.rawShape → S.batch = t.batch → (∀ k, 0 < k → k < t.ndims → S.rank k ≤ b k) →
          full S = Except.ok G →
          √(T.distSq X p s) ≤ √(t.ndims - 1 : ℕ) * √(T.distSq G p s) +
            (√(t.ndims - 1 : ℕ) + 1) *
              ((1 + ε) ^ (5 * (t.ndims - 1)) * (1 + A.u) ^ (∑ k ∈ Finset.Ico 1 t.ndims, t.rank k * (2 * t.rank k + 1)) - 1) *
              ∏ k ∈ Finset.range t.ndims, t.coreNorm p k := by
  obtain ⟨l, el, hl, hlb, hpos⟩ := maxRanks_ok hb he
  obtain ⟨x, e, w, rs, bt, nd, hrk, res⟩ := roundWithF_ok hF hε hqr hsvd h hm hM hl hpos
  obtain ⟨T, eT, sT, -⟩ := full_ok h
  obtain ⟨X, eX, sX, -⟩ := full_ok w
  have hbp : x.bpre = t.bpre := by simp [TT.bpre, bt]
  have hNx : x.N = t.N := by funext k; simp [TT.N, TT.modes, rs]
  rw [hbp, rs] at sX
  have hNp : ∀ k < t.ndims, 0 < t.N k := fun k hk => modes_pos h hm hk
  have hlp : ∀ k ≤ t.ndims, 0 < lrRank t.N t.rank k := fun k hk => lrRank_pos hNp h.rank_pos hk
  refine ⟨x, T, X, restShape t.rawShape, by rw [ttRoundF_eq hbatch, el]; exact e, w, rs, bt, fun k h0 hk => ?_, fun k hk => ?_, eT, eX, sT, sX,
    fun p hp => ⟨fun k h0 hk => ?_, fun S G hS hSr hSb hSk eG => ?_⟩⟩
  · rw [hrk k (by omega), rdRank_step _ _ _ h0 hk, ← hlb k (by omega)]
    exact keptRank_le_bound
  · rw [hrk k hk]
    rcases Nat.eq_zero_or_pos k with rfl | h0
    · rw [rdRank_zero, h.rank_first]
    rcases Nat.lt_or_ge k t.ndims with h1 | h1
    · rw [rdRank_step _ _ _ h0 h1]
      refine (keptRank_le_min (hlp k hk) (Nat.mul_pos (hNp k h1) (rdRank_pos hpos hNp hlp (by omega)))).trans ?_
      exact (min_le_left _ _).trans (lrRank_le _ _ h.rank_first k)
    · obtain rfl : k = t.ndims := le_antisymm hk h1
      rw [rdRank_last, h.rank_last]
  · obtain ⟨V, h1, h2⟩ := (res p hp).1 k h0 hk
    refine ⟨V, fun a ha a' ha' => ?_, ?_⟩
    · have := h1 a ha a' ha'
      rw [δ] at this
      rw [← this, ← hNx]
      rfl
    · rw [← hNx] at h2
      exact h2
  · have h1 := (res p hp).2 S hS hSr (ndims_eq_of_rawShape hS h hSr) fun k h0 hk => by rw [hlb k (by omega)]; exact hSk k h0 hk
    rw [dense_dist h w rs bt eT eX hp, dense_dist h hS hSr hSb eT eG hp, ← normProd_eq]
    rw [growth_round, ← mul_assoc, ← pow_add, show t.ndims - 1 + 4 * (t.ndims - 1) = 5 * (t.ndims - 1) by ring] at h1
    refine h1.trans ?_
    set P := normProd t.N t.rank (t.fl p) t.ndims with hP
    have hP0 : 0 ≤ P := normProd_nonneg _ _ _ _
    set U := (1 + A.u) ^ (∑ k ∈ Finset.Ico 1 t.ndims, t.rank k * (2 * t.rank k + 1)) with hU
    have hU0 : 0 ≤ U := by have := A.nonneg; positivity
    have hE : (1 + ε) ^ (4 * (t.ndims - 1)) * U ≤ (1 + ε) ^ (5 * (t.ndims - 1)) * U :=
      mul_le_mul_of_nonneg_right (pow_le_pow_right₀ (by linarith) (by omega)) hU0
    have hw := Real.sqrt_nonneg ((t.ndims - 1 : ℕ) : ℝ)
    have h2 := mul_le_mul_of_nonneg_left (mul_le_mul_of_nonneg_right (sub_le_sub_right hE 1) hP0) hw
    linarith

/-- **C79.** If the ranks of the argument are within the bounds, then only the rounding errors remain. -/
theorem C79_no_truncation {F : FloatRoutines} {A : Arith} (hF : F.Follows A) {qr : QRRoutine} {svd : SVDRoutine} {ε : ℝ} (hε : 0 ≤ ε) {M : ℕ}
    (hqr : qr.Backward ε M) (hsvd : svd.Backward ε M) {t : TT ℝ} (h : t.WF) (hm : t.ModesPos)
    (hM : ∀ k < t.ndims, t.rank k * (t.modes k).prod * t.rank (k + 1) ≤ M)
    {m : MaxRank} {b : ℕ → ℕ} (hb : m.Bounds t.ndims b) (hbatch : t.isBatch → m.Single) {eps : Option ℝ} (he : ∀ e ∈ eps, 0 ≤ e)
    (hr : ∀ k, 0 < k → k < t.ndims → t.rank k ≤ b k) :
    ∃ x T X s, ttRoundF F qr svd t m eps = Except.ok x ∧ full t = Except.ok T ∧ full x = Except.ok X ∧ T.shape = t.bpre ++ s ∧ X.shape = t.bpre ++ s ∧
      ∀ p, Valid t.bpre p → √(T.distSq X p s) ≤ (√(t.ndims - 1 : ℕ) + 1) *
        ((1 + ε) ^ (5 * (t.ndims - 1)) * (1 + A.u) ^ (∑ k ∈ Finset.Ico 1 t.ndims, t.rank k * (2 * t.rank k + 1)) - 1) *
        ∏ k ∈ Finset.range t.ndims, t.coreNorm p k := by
  obtain ⟨x, T, X, s, e, -, -, -, -, -, eT, eX, sT, sX, hx⟩ := C79_quasi_optimal hF hε hqr hsvd h hm hM hb hbatch he
  refine ⟨x, T, X, s, e, eT, eX, sT, sX, fun p hp => ?_⟩
  have h1 := (hx p hp).2 t T h rfl rfl hr eT
  rw [(distSq_zero sT sT).2 ⟨rfl, fun _ _ => rfl⟩ p hp, Real.sqrt_zero, mul_zero, zero_add] at h1
  exact h1

/-! ## The hypotheses can be met -/

/-- Every arithmetic, with routines that have a backward error of `10⁻⁶`. -/
example (A : Arith) : ∃ (qr : QRRoutine) (svd : SVDRoutine), ∀ M, (naiveRoutines A).Follows A ∧ qr.Backward (1 / 10 ^ 6) M ∧ svd.Backward (1 / 10 ^ 6) M := by
  obtain ⟨qr, h⟩ := qrRoutine_exists
  obtain ⟨svd, h'⟩ := svdRoutine_exists
  exact ⟨skewR qr _, skewS svd _, fun M => ⟨naive_follows A, skewR_backward h (by norm_num) M, skewS_backward h' (by norm_num) M⟩⟩

/-- A tensor that is truncated: the bounds are smaller than its ranks. -/
example : exTensor3.toReal.WF ∧ exTensor3.toReal.ModesPos ∧ (MaxRank.list [1, 1, 2, 1]).Bounds exTensor3.toReal.ndims (fun k => [1, 1, 2, 1].getD k 0) ∧
    ∀ k < exTensor3.toReal.ndims, exTensor3.toReal.rank k * (exTensor3.toReal.modes k).prod * exTensor3.toReal.rank (k + 1) ≤ 8 := by
  refine ⟨TT.WF.toReal (by decide), by simp [TT.ModesPos, TT.toReal, exTensor3], Or.inr ⟨[1, 1, 2, 1], rfl, rfl, by simp, fun _ _ => rfl⟩, fun k hk => ?_⟩
  have : k < 3 := hk
  interval_cases k <;> simp [TT.rank, TT.modes, TT.toReal, exTensor3]

/-- A batch. -/
example : exBatch.toReal.WF ∧ exBatch.toReal.ModesPos ∧ (MaxRank.num 1).Bounds exBatch.toReal.ndims (fun _ => 1) ∧ (MaxRank.num 1).Single ∧
    ∀ k < exBatch.toReal.ndims, exBatch.toReal.rank k * (exBatch.toReal.modes k).prod * exBatch.toReal.rank (k + 1) ≤ 6 := by
  refine ⟨TT.WF.toReal (by decide), by simp [TT.ModesPos, TT.toReal, exBatch], Or.inl ⟨1, by omega, Or.inl rfl, fun _ => rfl⟩,
    fun l hl => (by cases hl), fun k hk => ?_⟩
  have : k < 2 := hk
  interval_cases k <;> simp [TT.rank, TT.modes, TT.toReal, exBatch]

end T3f
