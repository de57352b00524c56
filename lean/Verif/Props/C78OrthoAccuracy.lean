import Verif.Proofs.NormErr
import Verif.Proofs.OrthoErrRL
import Verif.Proofs.RoundNaive
import Verif.Proofs.SkewQR
import Verif.Spec.NearOrth
import Verif.Spec.Kron
import Mathlib.Tactic.IntervalCases

/-!
# C78: orthogonalization and norms in floating point arithmetic

`F` computes matrix products with the arithmetic `A` of unit roundoff `u`, `qr` computes QR decompositions with a backward error of `ε`, and `nr` computes
norms of vectors with a relative error of `η`. `M` bounds the sizes of the matrices. The distances are those of the tensors that the cores represent.
-/

namespace T3f

/-! ## Lemmas -/

theorem coreNorm_eq (t : TT ℝ) (p : List ℕ) (k : ℕ) : t.coreNorm p k = bn (t.rank k) (t.N k) (t.rank (k + 1)) (t.fl p k) := rfl

theorem normProd_eq (t : TT ℝ) (p : List ℕ) : normProd t.N t.rank (t.fl p) t.ndims = ∏ k ∈ Finset.range t.ndims, t.coreNorm p k := rfl

theorem sweepGrowth_eq (A : Arith) (ε : ℝ) (t : TT ℝ) :
    sweepGrowth A ε t.rank (t.ndims - 1) = (1 + ε) ^ (t.ndims - 1) * (1 + A.u) ^ (∑ k ∈ Finset.Ico 1 t.ndims, t.rank k) := by
  rw [sweepGrowth, Finset.sum_Ico_eq_sum_range]
  simp only [Nat.add_comm]

theorem growth_two (A : Arith) (ε : ℝ) (t : TT ℝ) : (1 + ε) ^ (t.ndims - 1) * sweepGrowth A ε t.rank (t.ndims - 1) =
    (1 + ε) ^ (2 * (t.ndims - 1)) * (1 + A.u) ^ (∑ k ∈ Finset.Ico 1 t.ndims, t.rank k) := by
  rw [sweepGrowth_eq, ← mul_assoc, ← pow_add, two_mul]

theorem correct_backward {qr : QRRoutine} (h : qr.Correct) (M : ℕ) : qr.Backward 0 M := by
  intro n m _ A
  obtain ⟨h1, h2, -⟩ := h n m A
  refine ⟨qr.q n m A, h1, ?_, ?_⟩
  · rw [h2, sub_self]; simp [matNorm]
  · rw [sub_self]; simp [matNorm]

/-- Arithmetic without rounding. -/
def noRounding : Arith := ⟨0, (· + ·), (· * ·), fun x y z => x * y + z, le_rfl, by simp, by simp, by simp⟩

theorem exact_accurate (g : List (Tensor ℝ) → R (Tensor ℝ)) (N : ℕ) (ops : List (Tensor ℝ)) : Accurate noRounding g N ops (g ops) := by
  unfold Accurate
  cases g ops with
  | error e => rfl
  | ok C => exact ⟨C, rfl, rfl, fun B _ idx _ => by simp [noRounding]⟩

theorem exactRoutines_follows : exactRoutines.Follows noRounding :=
  ⟨fun a b => exact_accurate (fun l => matmul (l.getD 0 default) (l.getD 1 default)) _ [a, b], fun spec ops => exact_accurate (einsum spec) _ ops,
    fun x y => by simp [exactRoutines, noRounding], fun c n => by simp [exactRoutines, noRounding]⟩

/-! ## The theorems -/

/-- With routines that do not round, the functions are those of the other modules. -/
theorem C78_exact_routines (qr : QRRoutine) : orthogonalizeF exactRoutines qr = orthogonalize qr ∧
    (fun t => frobeniusNormSquaredQRF exactRoutines qr exactNorm t) = fun t => frobeniusNormSquared qr t false := by
  have h1 : orthoLRStepF exactRoutines qr = orthoLRStep qr := by
    unfold orthoLRStepF orthoLRStep
    simp only [exactRoutines]
  have h2 : orthoLRF exactRoutines qr = orthoLR qr := by
    funext ⟨c, s, r, b⟩
    cases b <;> simp only [orthoLRF, orthoLR, h1]
  have h3 : orthoRLStepF exactRoutines qr = orthoRLStep qr := by
    unfold orthoRLStepF orthoRLStep
    simp only [exactRoutines]
  have h4 : orthoRLF exactRoutines qr = orthoRL qr := by
    funext t
    simp only [orthoRLF, orthoRL, h3]
  have h5 : orthogonalizeF exactRoutines qr = orthogonalize qr := by
    funext t lr
    simp only [orthogonalizeF, orthogonalize, h2, h4]
  refine ⟨h5, ?_⟩
  funext t
  unfold frobeniusNormSquaredQRF frobeniusNormSquared
  rw [h5, if_neg (by simp)]
  rfl

/-- **C78.** Orthogonalization from left to right in floating point arithmetic does not fail and keeps the shape and the batch size; the TT-ranks do not
grow. All cores but the last are orthonormal up to an error of `ε`. The distance of the result to the argument is at most
`(1 + ε) ^ (2 (d - 1)) (1 + u) ^ (r_1 + … + r_{d-1}) - 1` times the product of the norms of the cores of the argument. -/
theorem C78_left_to_right {F : FloatRoutines} {A : Arith} (hF : F.Follows A) {qr : QRRoutine} {ε : ℝ} (hε : 0 ≤ ε) {M : ℕ} (hqr : qr.Backward ε M)
    {t : TT ℝ} (h : t.WF) (hm : t.ModesPos) (hM : ∀ k < t.ndims, t.rank k * (t.modes k).prod * t.rank (k + 1) ≤ M) :
    ∃ o T O s, orthogonalizeF F qr t true = Except.ok o ∧ o.WF ∧ o.rawShape = t.rawShape ∧ o.batch = t.batch ∧ (∀ k ≤ t.ndims, o.rank k ≤ t.rank k) ∧
      full t = Except.ok T ∧ full o = Except.ok O ∧ T.shape = t.bpre ++ s ∧ O.shape = t.bpre ++ s ∧ ∀ p, Valid t.bpre p →
        (∀ k, k + 1 < t.ndims → o.NearLeftOrthonormal p k ε) ∧
        √(T.distSq O p s) ≤ ((1 + ε) ^ (2 * (t.ndims - 1)) * (1 + A.u) ^ (∑ k ∈ Finset.Ico 1 t.ndims, t.rank k) - 1) *
          ∏ k ∈ Finset.range t.ndims, t.coreNorm p k := by
  obtain ⟨o, e, w, rs, b, nd, rk, res⟩ := orthoLRF_ok hF hε hqr h hm hM
  obtain ⟨T, eT, sT, -⟩ := full_ok h
  obtain ⟨O, eO, sO, -⟩ := full_ok w
  have hbp : o.bpre = t.bpre := by simp [TT.bpre, b]
  have hNo : o.N = t.N := by funext k; simp [TT.N, TT.modes, rs]
  rw [hbp, rs] at sO
  refine ⟨o, T, O, restShape t.rawShape, e, w, rs, b, fun k hk => by rw [rk k hk]; exact lrRank_le _ _ h.rank_first k, eT, eO, sT, sO, fun p hp => ?_⟩
  obtain ⟨Q, hQ⟩ := res p hp
  refine ⟨fun k hk => ⟨Q k, fun b hb b' hb' => ?_, ?_⟩, ?_⟩
  · rw [rk _ (by omega)] at hb hb' ⊢
    have := hQ.orth k (by omega) b hb b' hb'
    rw [δ] at this
    rw [← this, ← hNo]
    rfl
  · have := hQ.near k (by omega)
    rw [← rk k (by omega), ← rk (k + 1) (by omega), ← hNo] at this
    exact this
  · rw [dense_dist h w rs b eT eO hp, ← growth_two, ← normProd_eq]
    have hpos := h.pos
    have := hQ.err
    rw [show t.ndims - 1 + 1 = t.ndims by omega] at this
    refine le_trans (le_of_eq ?_) this
    rw [← chainDist_entry h w rs nd, chainDist_lmat, Real.sqrt_sq (fn_nonneg _ _ _), ← fn_neg]
    refine fn_congr fun x hx y hy => ?_
    have e1 : lmat t.N o.rank (o.fl p) t.ndims x y = lmat t.N (lrRank t.N t.rank) (o.fl p) t.ndims x y :=
      lmat_rank_congr fun k hk => rk k (by omega)
    rw [e1]
    ring

/-- **C78.** The same for the sweep from right to left, which there is for single objects only. -/
theorem C78_right_to_left {F : FloatRoutines} {A : Arith} (hF : F.Follows A) {qr : QRRoutine} {ε : ℝ} (hε : 0 ≤ ε) {M : ℕ} (hqr : qr.Backward ε M)
    {t : TT ℝ} (h : t.WF) (hb : t.batch = none) (hm : t.ModesPos) (hM : ∀ k < t.ndims, t.rank k * (t.modes k).prod * t.rank (k + 1) ≤ M) :
    ∃ o T O s, orthogonalizeF F qr t false = Except.ok o ∧ o.WF ∧ o.rawShape = t.rawShape ∧ o.batch = none ∧ (∀ k ≤ t.ndims, o.rank k ≤ t.rank k) ∧
      full t = Except.ok T ∧ full o = Except.ok O ∧ T.shape = s ∧ O.shape = s ∧
      (∀ k, 0 < k → k < t.ndims → o.NearRightOrthonormal [] k ε) ∧
      √(T.distSq O [] s) ≤ ((1 + ε) ^ (2 * (t.ndims - 1)) * (1 + A.u) ^ (∑ k ∈ Finset.Ico 1 t.ndims, t.rank k) - 1) *
        ∏ k ∈ Finset.range t.ndims, t.coreNorm [] k := by
  obtain ⟨o, e, w, rs, b, nd, rk, Q, hQ⟩ := orthoRLF_ok hF hε hqr h hb hm hM
  obtain ⟨T, eT, sT, -⟩ := full_ok h
  obtain ⟨O, eO, sO, -⟩ := full_ok w
  have hpre : t.bpre = [] := by simp [TT.bpre, hb]
  have hpre' : o.bpre = [] := by simp [TT.bpre, b]
  have hNo : o.N = t.N := by funext k; simp [TT.N, TT.modes, rs]
  rw [hpre', rs] at sO
  rw [hpre] at sT
  have hpos := h.pos
  have hrank : ∀ k ≤ t.ndims, mirR t.ndims (rlRank t.N t.rank t.ndims) k = mirR t.ndims o.rank k := fun k hk => (rk _ (by omega)).symm
  refine ⟨o, T, O, restShape t.rawShape, ?_, w, rs, b, fun k hk => by rw [rk k hk]; exact rlRank_le _ _ h.rank_last hk, eT, eO, sT, sO,
    fun k hk0 hk => ?_, ?_⟩
  · rw [orthogonalizeF, if_neg (by simp), if_neg (by simp [TT.isBatch, hb])]
    exact e
  · have h1 := hQ.orth (t.ndims - 1 - k) (by omega)
    have h2 := hQ.near (t.ndims - 1 - k) (by omega)
    have e1 : t.ndims - (t.ndims - 1 - k) = k + 1 := by omega
    have e2 : t.ndims - (t.ndims - 1 - k + 1) = k := by omega
    have e3 : t.ndims - 1 - (t.ndims - 1 - k) = k := by omega
    refine ⟨fun n a b => Q (t.ndims - 1 - k) n b a, fun a ha a' ha' => ?_, ?_⟩
    · rw [rk k (by omega)] at ha ha'
      have := h1 a (by rw [mirR, e2]; exact ha) a' (by rw [mirR, e2]; exact ha')
      simp only [mirR, mirN, e1, e3, δ] at this
      rw [← this, Finset.sum_comm, rk _ (by omega), ← hNo]
      rfl
    · simp only [mirR, mirN, mirA, e1, e2, e3] at h2
      rw [bn_flip, ← rk k (by omega), ← rk (k + 1) (by omega), ← hNo] at h2
      exact h2
  · rw [dense_dist h w rs (b.trans hb.symm) eT eO (p := []) (by rw [hpre]; trivial), ← growth_two, ← normProd_eq, ← normProd_mir]
    have := hQ.err
    rw [show t.ndims - 1 + 1 = t.ndims by omega] at this
    refine le_trans (le_of_eq ?_) this
    rw [← chainDist_entry h w rs nd, ← chainDist_mir _ _ h.rank_last (by rw [← nd]; exact w.rank_last) h.rank_first w.rank_first, chainDist_lmat,
      Real.sqrt_sq (fn_nonneg _ _ _), ← fn_neg]
    refine fn_congr fun x hx y hy => ?_
    have e1 : lmat (mirN t.ndims t.N) (mirR t.ndims (rlRank t.N t.rank t.ndims)) (mirA t.ndims (o.fl [])) t.ndims x y =
        lmat (mirN t.ndims t.N) (mirR t.ndims o.rank) (mirA t.ndims (o.fl [])) t.ndims x y := lmat_rank_congr fun k hk => hrank k (by omega)
    rw [e1]
    ring

/-- **C78.** `frobenius_norm_squared` (with the default `differentiable=False`) in floating point arithmetic: the error is at most
`(1 + η) ^ 3 (1 + ε) ^ (2 (d - 1)) (1 + u) ^ (2 (r_1 + … + r_{d-1})) - 1` times the square of the product of the norms of the cores. The result is never
negative. -/
theorem C78_norm {F : FloatRoutines} {A : Arith} (hF : F.Follows A) {qr : QRRoutine} {ε : ℝ} (hε : 0 ≤ ε) {M : ℕ} (hqr : qr.Backward ε M)
    {nr : NormRoutine} {η : ℝ} (hη : 0 ≤ η) (hη1 : η ≤ 1) (hnr : nr.Accurate η M)
    {t : TT ℝ} (h : t.WF) (hm : t.ModesPos) (hM : ∀ k < t.ndims, t.rank k * (t.modes k).prod * t.rank (k + 1) ≤ M) :
    ∃ S T s, frobeniusNormSquaredQRF F qr nr t = Except.ok S ∧ full t = Except.ok T ∧ S.shape = t.bpre ∧ T.shape = t.bpre ++ s ∧ ∀ p, Valid t.bpre p →
      0 ≤ S.get p ∧
      |S.get p - T.normSq p s| ≤
        ((1 + η) ^ 3 * (1 + ε) ^ (2 * (t.ndims - 1)) * (1 + A.u) ^ (2 * ∑ k ∈ Finset.Ico 1 t.ndims, t.rank k) - 1) *
          (∏ k ∈ Finset.range t.ndims, t.coreNorm p k) ^ 2 := by
  obtain ⟨S, eS, sS, vS⟩ := frobeniusQRF_ok hF hε hqr hη hnr h hm hM
  obtain ⟨T, eT, sT, -⟩ := full_ok h
  refine ⟨S, T, restShape t.rawShape, eS, eT, sS, sT, fun p hp => ?_⟩
  obtain ⟨⟨n, hn⟩, h2⟩ := vS p hp
  refine ⟨square_nonneg hη1 hn, ?_⟩
  rw [dense_norm h eT hp, ← normProd_eq]
  refine h2.trans (le_of_eq ?_)
  rw [sweepGrowth_eq, mul_pow, ← pow_mul, ← pow_mul, Nat.mul_comm (t.ndims - 1), Nat.mul_comm _ 2]
  ring

/-- **C78.** If all cores of the argument but the last are orthonormal, then the bound is relative to the norm of the tensor: the product of the norms of
the cores is the norm times the square root of the product of the TT-ranks. -/
theorem C78_orthonormal_argument {t : TT ℝ} (h : t.WF) {p : List ℕ} (hp : Valid t.bpre p) (ho : ∀ k, k + 1 < t.ndims → t.LeftOrthonormal p k) :
    ∃ T s, full t = Except.ok T ∧ T.shape = t.bpre ++ s ∧
      ∏ k ∈ Finset.range t.ndims, t.coreNorm p k = √(∏ k ∈ Finset.Ico 1 t.ndims, (t.rank k : ℝ)) * √(T.normSq p s) := by
  obtain ⟨T, eT, sT, -⟩ := full_ok h
  refine ⟨T, restShape t.rawShape, eT, sT, ?_⟩
  have hpos := h.pos
  rw [dense_norm h eT hp, entryDot_last h ho]
  obtain ⟨d, hd⟩ : ∃ d, t.ndims = d + 1 := ⟨t.ndims - 1, by omega⟩
  have hl := h.rank_last
  rw [hd] at hl ⊢
  rw [Nat.add_sub_cancel, Finset.prod_range_succ]
  congr 1
  · rw [Finset.prod_Ico_eq_prod_range, Nat.add_sub_cancel, Real.sqrt_prod _ fun _ _ => Nat.cast_nonneg _]
    refine Finset.prod_congr rfl fun k hk => ?_
    rw [Finset.mem_range] at hk
    rw [TT.coreNorm]
    congr 1
    have : ∀ b ∈ Finset.range (t.rank (k + 1)),
        ∑ a ∈ Finset.range (t.rank k), ∑ n ∈ Finset.range (t.modes k).prod, t.fl p k n a b ^ 2 = 1 := fun b hb => by
      have := ho k (by omega) b (Finset.mem_range.1 hb) b (Finset.mem_range.1 hb)
      rw [if_pos rfl] at this
      rw [← this]
      exact Finset.sum_congr rfl fun _ _ => Finset.sum_congr rfl fun _ _ => by ring
    calc _ = ∑ b ∈ Finset.range (t.rank (k + 1)), ∑ a ∈ Finset.range (t.rank k), ∑ n ∈ Finset.range (t.modes k).prod, t.fl p k n a b ^ 2 := by
          rw [Finset.sum_comm (s := Finset.range (t.rank (k + 1)))]
          exact Finset.sum_congr rfl fun a _ => Finset.sum_comm
      _ = _ := by rw [Finset.sum_congr rfl this, Nat.add_comm 1 k]; simp
  · rw [TT.coreNorm, hl]
    simp only [Finset.sum_range_one]
    rfl

/-! ## The bound cannot be relative to the norm of the tensor -/

/-- It has a backward error of `ε`. -/
theorem skewR_backward {qr : QRRoutine} (h : qr.Correct) {ε : ℝ} (hε : 0 ≤ ε) (M : ℕ) : (skewR qr ε).Backward ε M := by
  intro n m _ A
  obtain ⟨h1, h2, -⟩ := h n m A
  refine ⟨qr.q n m A, h1, ?_, ?_⟩
  · have e : ∀ i j, (qr.q n m A * (skewR qr ε).r n m A - A) i j = (if (j : ℕ) = 0 then ε else 0) * A i j := by
      intro i j
      have h3 : (qr.q n m A * (skewR qr ε).r n m A) i j = (if (j : ℕ) = 0 then 1 + ε else 1) * (qr.q n m A * qr.r n m A) i j := by
        rw [Matrix.mul_apply, Matrix.mul_apply, Finset.mul_sum]
        exact Finset.sum_congr rfl fun l _ => by simp only [skewR]; ring
      rw [Matrix.sub_apply, h3, h2]
      split_ifs <;> ring
    rw [show ε * matNorm A = √(ε ^ 2 * ∑ i, ∑ j, A i j ^ 2) by rw [Real.sqrt_mul (sq_nonneg ε), Real.sqrt_sq hε]; rfl, matNorm]
    refine Real.sqrt_le_sqrt ?_
    rw [Finset.mul_sum]
    refine Finset.sum_le_sum fun i _ => ?_
    rw [Finset.mul_sum]
    refine Finset.sum_le_sum fun j _ => ?_
    rw [e, mul_pow]
    refine mul_le_mul_of_nonneg_right ?_ (sq_nonneg _)
    split_ifs
    · exact le_rfl
    · rw [zero_pow (by norm_num)]; positivity
  · rw [show (skewR qr ε).q n m A = qr.q n m A from rfl, sub_self]
    simpa [matNorm] using hε

/-- **C78.** There is no bound relative to the norm of the tensor: for every `ε > 0` there is a routine with a backward error of `ε` with which (and with
exact matrix products) the zero tensor, given by cores that cancel, becomes a tensor with the element `ε`. -/
theorem C78_not_relative {ε : ℝ} (hε : 0 < ε) : ∃ (qr : QRRoutine) (t o : TT ℝ) (T O : Tensor ℝ), (∀ M, qr.Backward ε M) ∧ t.WF ∧ t.ModesPos ∧
    orthogonalizeF exactRoutines qr t true = Except.ok o ∧ full t = Except.ok T ∧ full o = Except.ok O ∧ T.shape = [1, 1] ∧ O.shape = [1, 1] ∧
    T.get [0, 0] = 0 ∧ O.get [0, 0] = ε := by
  obtain ⟨qr, hqr⟩ := qrRoutine_exists
  have hwf : exVanish.toReal.WF := TT.WF.toReal (by decide)
  have hmp : exVanish.toReal.ModesPos := by simp [TT.ModesPos, TT.toReal, exVanish]
  obtain ⟨o, e, h1, h2⟩ := skew_run qr ε
  obtain ⟨o', e', w, rs, b, nd, rk, -⟩ := orthoLRF_ok exactRoutines_follows
    hε.le (skewR_backward hqr hε.le 4) hwf hmp (by
      intro k hk
      have : k < 2 := hk
      interval_cases k <;> simp [TT.rank, TT.N, TT.modes, TT.toReal, exVanish])
  obtain rfl := Except.ok.inj (e.symm.trans e')
  obtain ⟨T, eT, sT, vT⟩ := full_ok hwf
  obtain ⟨O, eO, sO, vO⟩ := full_ok w
  refine ⟨skewR qr ε, exVanish.toReal, o, T, O, skewR_backward hqr hε.le, hwf, hmp, e, eT, eO, sT, ?_, ?_, ?_⟩
  · rw [sO, rs, TT.bpre, b]; rfl
  · have h3 := vT [] [0, 0] trivial (by decide)
    rw [List.nil_append] at h3
    rw [h3]
    have c00 : (exVanish.toReal.core 0).get [0, 0, 0] = ((1 : ℤ) : ℝ) := rfl
    have c01 : (exVanish.toReal.core 0).get [0, 0, 1] = ((1 : ℤ) : ℝ) := rfl
    have c10 : (exVanish.toReal.core 1).get [0, 0, 0] = ((1 : ℤ) : ℝ) := rfl
    have c11 : (exVanish.toReal.core 1).get [1, 0, 0] = ((-1 : ℤ) : ℝ) := rfl
    have m0 : restModes exVanish.toReal.rawShape [0, 0] 0 = [0] := rfl
    have m1 : restModes exVanish.toReal.rawShape [0, 0] 1 = [0] := rfl
    have r0 : exVanish.toReal.rank 0 = 1 := rfl
    have r1 : exVanish.toReal.rank 1 = 2 := rfl
    rw [TT.entry, show exVanish.toReal.ndims = 2 from rfl]
    simp [lprod, r0, r1, TT.slice, Finset.sum_range_succ, m0, m1, c00, c01, c10, c11]
  · have h3 := vO [] [0, 0] (by rw [TT.bpre, b]; trivial) (by rw [rs]; decide)
    rw [List.nil_append] at h3
    have r0 : o.rank 0 = 1 := rk 0 (by decide)
    have r1 : o.rank 1 = 1 := rk 1 (by decide)
    have m0 : restModes o.rawShape [0, 0] 0 = [0] := by rw [rs]; rfl
    have m1 : restModes o.rawShape [0, 0] 1 = [0] := by rw [rs]; rfl
    obtain ⟨-, hA, -⟩ := hqr 1 2 cancelMat
    have hA' : ∀ j : Fin 2, qr.q 1 2 cancelMat 0 ⟨0, by decide⟩ * qr.r 1 2 cancelMat ⟨0, by decide⟩ j = 1 := by
      intro j
      have h4 := congrFun (congrFun hA 0) j
      rw [Matrix.mul_apply, cancelMat_apply] at h4
      rw [← h4]
      exact (Fin.sum_univ_one fun l : Fin 1 => qr.q 1 2 cancelMat 0 l * qr.r 1 2 cancelMat l j).symm
    have g0 : (ofMats [] (min 1 2) 2 fun _ => (skewR qr ε).r 1 2 cancelMat).get [0, 0] = (1 + ε) * qr.r 1 2 cancelMat ⟨0, by decide⟩ 0 := rfl
    have g1 : (ofMats [] (min 1 2) 2 fun _ => (skewR qr ε).r 1 2 cancelMat).get [0, 1] = 1 * qr.r 1 2 cancelMat ⟨0, by decide⟩ 1 := rfl
    rw [h3, TT.entry, show o.ndims = 2 from nd]
    simp only [lprod, r0, r1, TT.slice, m0, m1, List.nil_append, List.cons_append, h1, h2, if_true, one_mul,
      Finset.sum_range_succ, Finset.sum_range_zero, zero_add, g0, g1]
    have e0 := hA' 0
    have e1 := hA' 1
    simp only [List.getD_cons_zero, List.getD_cons_succ, Int.cast_one, Int.cast_neg]
    linear_combination (1 + ε) * e0 - e1

/-! ## The hypotheses can be met -/

/-- Every arithmetic, with a routine that has a backward error of `10⁻⁶`. -/
example (A : Arith) : ∃ qr, ∀ M, (naiveRoutines A).Follows A ∧ QRRoutine.Backward qr (1 / 10 ^ 6) M := by
  obtain ⟨qr, h⟩ := qrRoutine_exists
  exact ⟨skewR qr _, fun M => ⟨naive_follows A, skewR_backward h (by norm_num) M⟩⟩

example : exTensor3.toReal.WF ∧ exTensor3.toReal.batch = none ∧ exTensor3.toReal.ModesPos ∧
    ∀ k < exTensor3.toReal.ndims, exTensor3.toReal.rank k * (exTensor3.toReal.modes k).prod * exTensor3.toReal.rank (k + 1) ≤ 8 := by
  refine ⟨TT.WF.toReal (by decide), rfl, by simp [TT.ModesPos, TT.toReal, exTensor3], fun k hk => ?_⟩
  have : k < 3 := hk
  interval_cases k <;> simp [TT.rank, TT.modes, TT.toReal, exTensor3]

example : exBatch.toReal.WF ∧ exBatch.toReal.ModesPos ∧
    ∀ k < exBatch.toReal.ndims, exBatch.toReal.rank k * (exBatch.toReal.modes k).prod * exBatch.toReal.rank (k + 1) ≤ 6 := by
  refine ⟨TT.WF.toReal (by decide), by simp [TT.ModesPos, TT.toReal, exBatch], fun k hk => ?_⟩
  have : k < 2 := hk
  interval_cases k <;> simp [TT.rank, TT.modes, TT.toReal, exBatch]

/-- A routine for norms that is too large by the factor `1 + η`. -/
example {η : ℝ} (hη : 0 ≤ η) (M : ℕ) : NormRoutine.Accurate ⟨fun n x => (1 + η) * √(∑ i ∈ Finset.range n, x i ^ 2), fun x => (1 + η) * x ^ 2⟩ η M := by
  refine ⟨fun n _ x => ?_, fun x => ?_⟩
  · rw [show ∀ a : ℝ, (1 + η) * a - a = η * a from fun a => by ring, abs_of_nonneg (by positivity)]
  · rw [show ∀ a : ℝ, (1 + η) * a - a = η * a from fun a => by ring, abs_of_nonneg (by positivity)]
/-- The results of `orthogonalize_tt_cores` have orthonormal cores. -/
example (qr : QRRoutine) (hqr : qr.Correct) : ∃ o, orthogonalize qr exTensor3.toReal true = Except.ok o ∧ o.WF ∧ Valid o.bpre [] ∧
    ∀ k, k + 1 < o.ndims → o.LeftOrthonormal [] k := by
  obtain ⟨o, e, w, -, b, nd, -, orth, -⟩ := orthoLR_ok hqr (t := exTensor3.toReal) (TT.WF.toReal (by decide)) (by simp [TT.ModesPos, TT.toReal, exTensor3])
  exact ⟨o, e, w, by rw [TT.bpre, b]; trivial, fun k hk => orth [] trivial k (by rw [← nd]; exact hk)⟩

end T3f
