import Verif.Proofs.RoundProps
import Verif.Spec.Kron

/-!
# C31, C32, C34: rounding

`qr` and `svd` are arbitrary routines that return factorizations with the usual properties. `m` is the argument `max_tt_rank`
and `b k` the bound it gives for the `k`-th TT-rank. A batch takes a single number only. `T.distSq X p s` is the squared Frobenius distance
of the batch items `p` of two dense tensors.
-/

namespace T3f

/-- C31: rounding keeps the shape, and the TT-ranks are at most the given bounds and at most the old ranks. -/
theorem C31_ranks {qr : QRRoutine} (hqr : qr.Correct) {svd : SVDRoutine} (hsvd : svd.Correct) {t : TT ℝ} (h : t.WF) (hm : t.ModesPos)
    {m : MaxRank} {b : ℕ → ℕ} (hb : m.Bounds t.ndims b) (hbatch : t.isBatch → m.Single) {eps : Option ℝ} (he : ∀ e ∈ eps, 0 ≤ e) :
    ∃ x, ttRound qr svd t m eps = Except.ok x ∧ x.WF ∧ x.rawShape = t.rawShape ∧ x.batch = t.batch ∧
      (∀ k, 0 < k → k < t.ndims → x.rank k ≤ b k) ∧ ∀ k ≤ t.ndims, x.rank k ≤ t.rank k := by
  obtain ⟨l, el, hl, hlb, hpos⟩ := maxRanks_ok hb he
  obtain ⟨x, e, w, rs, bt, -, r1, r2, -⟩ := roundWith_ok hqr hsvd h hm hl hpos
  exact ⟨x, by rw [ttRound_eq hbatch, el]; exact e, w, rs, bt, fun k h0 hk => by rw [← hlb k (by omega)]; exact r1 k h0 hk, r2⟩

example : (∃ qr : QRRoutine, qr.Correct) ∧ (∃ svd : SVDRoutine, svd.Correct) ∧ exTensor3.toReal.WF ∧ exTensor3.toReal.ModesPos ∧
    (MaxRank.list [1, 2, 3, 1]).Bounds exTensor3.toReal.ndims (fun k => [1, 2, 3, 1].getD k 0) ∧
    exBatchMatrix.toReal.WF ∧ exBatchMatrix.toReal.ModesPos ∧ (MaxRank.num 2).Bounds exBatchMatrix.toReal.ndims (fun _ => 2) ∧
    (MaxRank.num 2).Single :=
  ⟨qrRoutine_exists, svdRoutine_exists, TT.WF.toReal (by decide), by simp [TT.ModesPos, TT.toReal, exTensor3],
    Or.inr ⟨[1, 2, 3, 1], rfl, rfl, by simp, fun _ _ => rfl⟩, TT.WF.toReal (by decide), by simp [TT.ModesPos, TT.toReal, exBatchMatrix],
    Or.inl ⟨2, by omega, Or.inl rfl, fun _ => rfl⟩, fun l hl => by cases hl⟩

/-- C31: rounding is exact whenever the tensor has a representation within the bounds, in particular when the ranks
of the argument are. -/
theorem C31_exact {qr : QRRoutine} (hqr : qr.Correct) {svd : SVDRoutine} (hsvd : svd.Correct) {t : TT ℝ} (h : t.WF) (hm : t.ModesPos)
    {m : MaxRank} {b : ℕ → ℕ} (hb : m.Bounds t.ndims b) (hbatch : t.isBatch → m.Single) {eps : Option ℝ} (he : ∀ e ∈ eps, 0 ≤ e)
    {S : TT ℝ} (hS : S.WF) (hrs : S.rawShape = t.rawShape) (hSb : S.batch = t.batch) (hr : ∀ k, 0 < k → k < t.ndims → S.rank k ≤ b k)
    {T F : Tensor ℝ} (hT : full t = Except.ok T) (hF : full S = Except.ok F) (hTF : F ≃ₜ T) :
    ∃ x X, ttRound qr svd t m eps = Except.ok x ∧ full x = Except.ok X ∧ X ≃ₜ T := by
  obtain ⟨l, el, hl, hlb, hpos⟩ := maxRanks_ok hb he
  obtain ⟨x, e, w, rs, bt, -, r1, r2, -, tail, ht⟩ := roundWith_ok hqr hsvd h hm hl hpos
  have hSn : S.ndims = t.ndims := ndims_eq_of_rawShape hS h hrs
  have hp : x.bpre = t.bpre := by simp [TT.bpre, bt]
  have hp' : S.bpre = t.bpre := by simp [TT.bpre, hSb]
  obtain ⟨X, eX, sX, vX⟩ := full_ok w
  obtain ⟨T', eT', sT, -⟩ := full_ok h
  obtain ⟨F', eF', sF, -⟩ := full_ok hS
  obtain rfl : T' = T := Except.ok.inj (eT'.symm.trans hT)
  obtain rfl : F' = F := Except.ok.inj (eF'.symm.trans hF)
  rw [hp, rs] at sX
  rw [hp', hrs] at sF
  refine ⟨x, X, by rw [ttRound_eq hbatch, el]; exact e, eX, (distSq_zero sT sX).1 fun p hpv => ?_⟩
  obtain ⟨h1, -, h3⟩ := ht p hpv
  rw [dense_dist h w rs bt hT eX hpv]
  refine le_antisymm ?_ (Finset.sum_nonneg fun _ _ => sq_nonneg _)
  rw [h1]
  refine Finset.sum_nonpos fun j hj => ?_
  rw [Finset.mem_range] at hj
  have h4 := h3 (j + 1) (by omega) (by omega) S hS hrs hSn (by rw [hlb _ (by omega)]; exact hr _ (by omega) (by omega))
  rw [← dense_dist h hS hrs hSb hT hF hpv, (distSq_zero sT sF).2 hTF p hpv] at h4
  exact h4

example : exTensor3.toReal.WF ∧ exTensor3.toReal.ModesPos ∧ (MaxRank.num 3).Bounds exTensor3.toReal.ndims (fun _ => 3) ∧
    ∀ k, 0 < k → k < exTensor3.toReal.ndims → exTensor3.toReal.rank k ≤ 3 :=
  ⟨TT.WF.toReal (by decide), by simp [TT.ModesPos, TT.toReal, exTensor3], Or.inl ⟨3, by omega, Or.inl rfl, fun _ => rfl⟩, by
    intro k h0 hk
    have : k < 3 := hk
    interval_cases k <;> simp [TT.rank, TT.toReal, exTensor3]⟩

/-- C32: the error of rounding is orthogonal to the result: `‖T - X‖² = ‖T‖² - ‖X‖²`, in every batch item. It is bounded by the sum over
the cuts of the errors of any approximations within the bound for that cut. -/
theorem C32_error {qr : QRRoutine} (hqr : qr.Correct) {svd : SVDRoutine} (hsvd : svd.Correct) {t : TT ℝ} (h : t.WF) (hm : t.ModesPos)
    {m : MaxRank} {b : ℕ → ℕ} (hb : m.Bounds t.ndims b) (hbatch : t.isBatch → m.Single) {eps : Option ℝ} (he : ∀ e ∈ eps, 0 ≤ e) :
    ∃ x T X s, ttRound qr svd t m eps = Except.ok x ∧ full t = Except.ok T ∧ full x = Except.ok X ∧
      T.shape = t.bpre ++ s ∧ X.shape = t.bpre ++ s ∧ ∀ p, Valid t.bpre p →
        T.distSq X p s = T.normSq p s - X.normSq p s ∧
        ∀ (S : ℕ → TT ℝ) (F : ℕ → Tensor ℝ), (∀ k, 0 < k → k < t.ndims → (S k).WF ∧ (S k).rawShape = t.rawShape ∧ (S k).batch = t.batch ∧
            (S k).rank k ≤ b k ∧ full (S k) = Except.ok (F k)) →
          T.distSq X p s ≤ ∑ k ∈ Finset.Ico 1 t.ndims, T.distSq (F k) p s := by
  obtain ⟨l, el, hl, hlb, hpos⟩ := maxRanks_ok hb he
  obtain ⟨x, e, w, rs, bt, -, r1, r2, -, tail, ht⟩ := roundWith_ok hqr hsvd h hm hl hpos
  have hp : x.bpre = t.bpre := by simp [TT.bpre, bt]
  obtain ⟨X, eX, sX, vX⟩ := full_ok w
  obtain ⟨T, eT, sT, -⟩ := full_ok h
  rw [hp, rs] at sX
  refine ⟨x, T, X, restShape t.rawShape, by rw [ttRound_eq hbatch, el]; exact e, eT, eX, sT, sX, fun p hpv => ?_⟩
  obtain ⟨h1, h2, h3⟩ := ht p hpv
  have e3 := dense_norm w eX (p := p) (by rw [hp]; exact hpv)
  rw [rs] at e3
  rw [dense_dist h w rs bt eT eX hpv, dense_norm h eT hpv, e3]
  refine ⟨h2, fun S F hSF => ?_⟩
  rw [h1, Finset.sum_Ico_eq_sum_range]
  refine Finset.sum_le_sum fun j hj => ?_
  rw [Finset.mem_range] at hj
  obtain ⟨q1, q2, q3, q4, q5⟩ := hSF (1 + j) (by omega) (by omega)
  rw [dense_dist h q1 q2 q3 eT q5 hpv, Nat.add_comm 1 j]
  rw [Nat.add_comm 1 j] at q1 q2 q4
  exact h3 (j + 1) (by omega) (by omega) _ q1 q2 (ndims_eq_of_rawShape q1 h q2) (by rw [hlb _ (by omega)]; exact q4)

/-- C32: the squared error is at most `d - 1` times the squared error of any tensor train within the bounds. -/
theorem C32_quasi_optimal {qr : QRRoutine} (hqr : qr.Correct) {svd : SVDRoutine} (hsvd : svd.Correct) {t : TT ℝ} (h : t.WF) (hm : t.ModesPos)
    {m : MaxRank} {b : ℕ → ℕ} (hb : m.Bounds t.ndims b) (hbatch : t.isBatch → m.Single) {eps : Option ℝ} (he : ∀ e ∈ eps, 0 ≤ e)
    {S : TT ℝ} (hS : S.WF) (hrs : S.rawShape = t.rawShape) (hSb : S.batch = t.batch) (hr : ∀ k, 0 < k → k < t.ndims → S.rank k ≤ b k) :
    ∃ x T X F s, ttRound qr svd t m eps = Except.ok x ∧ full t = Except.ok T ∧ full x = Except.ok X ∧ full S = Except.ok F ∧
      T.shape = t.bpre ++ s ∧ X.shape = t.bpre ++ s ∧ F.shape = t.bpre ++ s ∧ ∀ p, Valid t.bpre p →
        T.distSq X p s ≤ (t.ndims - 1 : ℕ) * T.distSq F p s := by
  obtain ⟨x, T, X, s, e, eT, eX, sT, sX, hx⟩ := C32_error hqr hsvd h hm hb hbatch he
  obtain ⟨F, eF, sF, -⟩ := full_ok hS
  obtain ⟨T', eT', sT', -⟩ := full_ok h
  obtain rfl : T' = T := Except.ok.inj (eT'.symm.trans eT)
  have hp : S.bpre = t.bpre := by simp [TT.bpre, hSb]
  have hs : s = restShape t.rawShape := List.append_cancel_left (sT.symm.trans sT')
  refine ⟨x, T', X, F, s, e, eT, eX, eF, sT, sX, by rw [sF, hp, hrs, hs], fun p hpv => ?_⟩
  have := (hx p hpv).2 (fun _ => S) (fun _ => F) fun k h0 hk => ⟨hS, hrs, hSb, hr k h0 hk, eF⟩
  rwa [Finset.sum_const, Nat.card_Ico, nsmul_eq_mul] at this

example : exTensor.toReal.WF ∧ exTensor.toReal.ModesPos ∧ (MaxRank.num 1).Bounds exTensor.toReal.ndims (fun _ => 1) ∧ exTensor'.toReal.WF ∧
    exTensor'.toReal.rawShape = exTensor.toReal.rawShape ∧ exTensor'.toReal.batch = exTensor.toReal.batch ∧
    (∀ k, 0 < k → k < exTensor.toReal.ndims → exTensor'.toReal.rank k ≤ 1) :=
  ⟨TT.WF.toReal (by decide), by simp [TT.ModesPos, TT.toReal, exTensor], Or.inl ⟨1, by omega, Or.inl rfl, fun _ => rfl⟩, TT.WF.toReal (by decide),
    rfl, rfl, by
    intro k h0 hk
    have : k < 2 := hk
    interval_cases k; simp [TT.rank, TT.toReal, exTensor']⟩

/-- C34: a bound below one, or a list whose length is neither one nor the number of cores plus one, is a ValueError in `round` and in
`to_tt_tensor`. -/
theorem C34_rank_errors (qr : QRRoutine) (svd : SVDRoutine) (t : TT ℝ) (X : Tensor ℝ) (eps : Option ℝ) :
    (∀ r : ℤ, r < 1 → ttRound qr svd t (.num r) eps = Except.error Err.value ∧ toTTTensor svd X (.num r) eps = Except.error Err.value) ∧
    (∀ l : List ℤ, (∃ r ∈ l, r < 1) →
      ttRound qr svd t (.list l) eps = Except.error Err.value ∧ toTTTensor svd X (.list l) eps = Except.error Err.value) ∧
    (∀ l : List ℤ, l.length ≠ 1 →
      (l.length ≠ t.ndims + 1 → ttRound qr svd t (.list l) eps = Except.error Err.value) ∧
      (l.length ≠ X.shape.length + 1 → toTTTensor svd X (.list l) eps = Except.error Err.value)) :=
  ⟨fun _ hr => ⟨ttRound_error (maxRanks_bad_num hr eps), toTTTensor_error (maxRanks_bad_num hr eps)⟩,
    fun _ hl => ⟨ttRound_error (maxRanks_bad_list (Or.inl hl) eps), toTTTensor_error (maxRanks_bad_list (Or.inl hl) eps)⟩,
    fun _ h1 => ⟨fun h2 => ttRound_error (maxRanks_bad_list (Or.inr ⟨h1, h2⟩) eps),
      fun h2 => toTTTensor_error (maxRanks_bad_list (Or.inr ⟨h1, h2⟩) eps)⟩⟩

/-- C34: a negative `epsilon` is a ValueError. -/
theorem C34_epsilon_error (qr : QRRoutine) (svd : SVDRoutine) (t : TT ℝ) (X : Tensor ℝ) {m : MaxRank} (hm : m ≠ .none) {e : ℝ} (he : e < 0) :
    ttRound qr svd t m (some e) = Except.error Err.value ∧ toTTTensor svd X m (some e) = Except.error Err.value :=
  ⟨ttRound_error (maxRanks_bad_eps hm he), toTTTensor_error (maxRanks_bad_eps hm he)⟩

example : MaxRank.num 3 ≠ .none ∧ (-1 / 2 : ℝ) < 0 := ⟨by decide, by norm_num⟩

/-- C34: the documented `np.inf` and the default `None` are rejected; so is a list with more than one number for a batch. -/
theorem C34_inf_none_errors (qr : QRRoutine) (svd : SVDRoutine) (t : TT ℝ) (X : Tensor ℝ) (eps : Option ℝ) :
    (ttRound qr svd t .inf eps = Except.error Err.value ∧ toTTTensor svd X .inf eps = Except.error Err.value) ∧
    (ttRound qr svd t .none eps = Except.error Err.type ∧ toTTTensor svd X .none eps = Except.error Err.type) ∧
    (t.isBatch → ∀ l, 1 < l.length → ttRound qr svd t (.list l) eps = Except.error Err.value) := by
  refine ⟨⟨ttRound_error rfl, toTTTensor_error rfl⟩, ⟨?_, toTTTensor_error rfl⟩, fun hb l hl => ?_⟩
  · unfold ttRound
    split_ifs <;> rfl
  · unfold ttRound
    rw [if_pos hb, maxRanksBatch, if_pos hl]; rfl

/-- C34: apart from that, `epsilon` has no influence on the result, although it is documented to control the accuracy. -/
theorem C34_epsilon_ignored (qr : QRRoutine) (svd : SVDRoutine) (t : TT ℝ) (X : Tensor ℝ) (m : MaxRank) {e : ℝ} (he : 0 ≤ e) :
    ttRound qr svd t m (some e) = ttRound qr svd t m none ∧ toTTTensor svd X m (some e) = toTTTensor svd X m none := by
  refine ⟨?_, by unfold toTTTensor; simp only [maxRanks_eps _ _ he]⟩
  have h1 : maxRanksBatch t.ndims m (some e) = maxRanksBatch t.ndims m none := by
    cases m <;> simp only [maxRanksBatch, maxRanks_eps _ _ he]
  unfold ttRound
  rw [h1, maxRanks_eps _ _ he]

example : (0 : ℝ) ≤ 9 / 10 := by norm_num

end T3f
