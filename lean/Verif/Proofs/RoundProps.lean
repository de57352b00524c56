import Verif.Proofs.RoundFull
import Verif.Spec.RankBound

/-! # Rounding and dense tensors -/

namespace T3f

theorem full_eqv {t o : TT ℝ} (h : t.WF) (ho : o.WF) (hs : o.rawShape = t.rawShape) (hb : o.batch = t.batch)
    (he : ∀ p, Valid t.bpre p → ∀ g, (∀ j < t.ndims, Valid (t.modes j) (g j)) → o.entry p g = t.entry p g) :
    ∃ T O, full t = Except.ok T ∧ full o = Except.ok O ∧ O ≃ₜ T := by
  obtain ⟨T, eT, sT, vT⟩ := full_ok h
  obtain ⟨O, eO, sO, vO⟩ := full_ok ho
  have hp : o.bpre = t.bpre := by simp [TT.bpre, hb]
  rw [hp, hs] at sO
  refine ⟨T, O, eT, eO, by rw [sO, sT], fun i hi => ?_⟩
  rw [sO] at hi
  obtain ⟨p, j, rfl, h1, h2⟩ := valid_append_iff.1 hi
  rw [vO p j (by rw [hp]; exact h1) (by rw [hs]; exact h2), vT p j h1 h2, hs]
  exact he p h1 _ (validModes_rest h h2)

theorem dense_dist {t s : TT ℝ} {T S : Tensor ℝ} (h : t.WF) (hs : s.WF) (hr : s.rawShape = t.rawShape) (hb : s.batch = t.batch)
    (hT : full t = Except.ok T) (hS : full s = Except.ok S) {p : List ℕ} (hp : Valid t.bpre p) :
    T.distSq S p (restShape t.rawShape) = entryDist t s p := by
  obtain ⟨T', eT, sT, vT⟩ := full_ok h
  obtain ⟨S', eS, sS, vS⟩ := full_ok hs
  obtain rfl : T' = T := Except.ok.inj (eT.symm.trans hT)
  obtain rfl : S' = S := Except.ok.inj (eS.symm.trans hS)
  have hp' : s.bpre = t.bpre := by simp [TT.bpre, hb]
  refine Finset.sum_congr rfl fun n hn => ?_
  have hn := unravel_valid (Finset.mem_range.1 hn)
  rw [vT p _ hp hn, vS p _ (by rw [hp']; exact hp) (by rw [hr]; exact hn), hr]

theorem dense_norm {t : TT ℝ} {T : Tensor ℝ} (h : t.WF) (hT : full t = Except.ok T) {p : List ℕ} (hp : Valid t.bpre p) :
    T.normSq p (restShape t.rawShape) = entryDot t t p := by
  obtain ⟨T', eT, sT, vT⟩ := full_ok h
  obtain rfl : T' = T := Except.ok.inj (eT.symm.trans hT)
  refine Finset.sum_congr rfl fun n hn => ?_
  rw [vT p _ hp (unravel_valid (Finset.mem_range.1 hn)), sq]

theorem distSq_zero {X Y : Tensor ℝ} {pre s : List ℕ} (hX : X.shape = pre ++ s) (hY : Y.shape = pre ++ s) :
    (∀ p, Valid pre p → X.distSq Y p s = 0) ↔ Y ≃ₜ X := by
  constructor
  · intro h
    refine ⟨by rw [hX, hY], fun i hi => ?_⟩
    rw [hY] at hi
    obtain ⟨p, j, rfl, h1, h2⟩ := valid_append_iff.1 hi
    have h0 := h p h1
    unfold Tensor.distSq at h0
    rw [Finset.sum_eq_zero_iff_of_nonneg fun _ _ => sq_nonneg _] at h0
    have := h0 (ravel s j) (Finset.mem_range.2 (ravel_lt h2))
    rw [unravel_ravel h2] at this
    linarith [pow_eq_zero_iff (n := 2) (by norm_num) |>.1 this]
  · intro h p hp
    refine Finset.sum_eq_zero fun n hn => ?_
    rw [h.2 (p ++ unravel s n) (by rw [hY]; exact valid_append hp (unravel_valid (Finset.mem_range.1 hn))), sub_self]
    ring

/-- What the checks of the arguments return. -/
theorem maxRanks_ok {d : ℕ} {m : MaxRank} {b : ℕ → ℕ} (h : m.Bounds d b) {eps : Option ℝ} (he : ∀ e ∈ eps, 0 ≤ e) :
    ∃ l, maxRanks d m eps = Except.ok l ∧ l.length = d + 1 ∧ (∀ k ≤ d, l.getD k 0 = b k) ∧ ∀ k ≤ d, 0 < l.getD k 0 := by
  have hce : checkEps eps = Except.ok () := by unfold checkEps require; rw [if_pos he]
  have rep : ∀ r : ℕ, ∀ k ≤ d, (List.replicate (d + 1) r).getD k 0 = r := fun r k hk => by
    rw [List.getD_eq_getElem _ _ (by rw [List.length_replicate]; omega)]; simp
  rcases h with ⟨r, hr, hm, hb⟩ | ⟨l, hm, hl, h1, hb⟩
  · refine ⟨List.replicate (d + 1) r, ?_, by simp, fun k hk => by rw [rep r k hk, hb], fun k hk => by rw [rep r k hk]; omega⟩
    rcases hm with rfl | rfl
    · simp only [maxRanks, require]
      rw [if_pos (by omega), R.ok_bind, hce, R.ok_bind]; rfl
    · simp only [maxRanks, require]
      rw [if_pos (by simpa using hr), R.ok_bind, hce, R.ok_bind, if_pos (by simp)]; rfl
  · subst hm
    have hpos : ∀ k ≤ d, 0 < l.getD k 0 := fun k hk => by
      rw [List.getD_eq_getElem _ _ (by omega)]; exact h1 _ (List.getElem_mem _)
    simp only [maxRanks, require]
    rw [if_pos (by simpa using h1), R.ok_bind, hce, R.ok_bind]
    by_cases h2 : l.length = 1
    · obtain ⟨r, rfl⟩ := List.length_eq_one_iff.1 h2
      have : d = 0 := by simpa using hl.symm
      subst this
      refine ⟨[r], by rw [if_pos (by simp)]; simp, rfl, fun k hk => (hb k hk).symm, hpos⟩
    · refine ⟨l, ?_, hl, fun k hk => (hb k hk).symm, hpos⟩
      rw [if_neg (by simpa using h2), List.length_map, if_pos hl, R.ok_bind, R.pure_eq]
      congr 1
      rw [List.map_map]
      exact List.map_id' l

theorem maxRanksBatch_single {d : ℕ} {m : MaxRank} (h : m.Single) (eps : Option ℝ) : maxRanksBatch d m eps = maxRanks d m eps := by
  cases m with
  | list l =>
    have := h l rfl
    rw [maxRanksBatch, if_neg (by omega)]
  | _ => rfl

theorem ttRound_eq {qr : QRRoutine} {svd : SVDRoutine} {t : TT ℝ} {m : MaxRank} {eps : Option ℝ} (hbatch : t.isBatch → m.Single) :
    ttRound qr svd t m eps = (maxRanks t.ndims m eps).bind (roundWith qr svd t) := by
  unfold ttRound
  by_cases hb : t.isBatch
  · rw [if_pos hb, maxRanksBatch_single (hbatch hb)]; rfl
  · rw [if_neg hb]; rfl

theorem maxRanks_bad_num {d : ℕ} {r : ℤ} (hr : r < 1) (eps : Option ℝ) : maxRanks d (.num r) eps = Except.error Err.value := by
  simp only [maxRanks, require]
  rw [if_neg (by omega)]; rfl

theorem maxRanks_bad_list {d : ℕ} {l : List ℤ} (hl : (∃ r ∈ l, r < 1) ∨ (l.length ≠ 1 ∧ l.length ≠ d + 1)) (eps : Option ℝ) :
    maxRanks d (.list l) eps = Except.error Err.value := by
  simp only [maxRanks, require]
  by_cases h1 : ∀ r ∈ l, 1 ≤ r
  · rw [if_pos h1, R.ok_bind]
    have h2 : l.length ≠ 1 ∧ l.length ≠ d + 1 := by
      rcases hl with ⟨r, hr, h⟩ | h
      · exact absurd (h1 r hr) (by omega)
      · exact h
    rw [if_neg h2.1, if_neg h2.2]
    unfold checkEps require
    split_ifs <;> rfl
  · rw [if_neg h1]; rfl

theorem maxRanks_bad_eps {d : ℕ} {m : MaxRank} (hm : m ≠ .none) {e : ℝ} (he : e < 0) : maxRanks d m (some e) = Except.error Err.value := by
  have hce : checkEps (some e) = Except.error Err.value := by
    unfold checkEps require; rw [if_neg (by simpa using he)]
  cases m with
  | none => exact absurd rfl hm
  | inf => rfl
  | num r =>
    simp only [maxRanks, require, hce]
    split_ifs <;> rfl
  | list l =>
    simp only [maxRanks, require, hce]
    split_ifs <;> rfl

theorem ttRound_error {qr : QRRoutine} {svd : SVDRoutine} {t : TT ℝ} {m : MaxRank} {eps : Option ℝ}
    (h : maxRanks t.ndims m eps = Except.error Err.value) : ttRound qr svd t m eps = Except.error Err.value := by
  unfold ttRound
  by_cases hb : t.isBatch
  · rw [if_pos hb]
    cases m with
    | list l =>
      rw [maxRanksBatch]
      split_ifs
      · rfl
      · rw [h]; rfl
    | none => rw [maxRanksBatch, h]; rfl; simp
    | inf => rw [maxRanksBatch, h]; rfl; simp
    | num r => rw [maxRanksBatch, h]; rfl; simp
  · rw [if_neg hb, h]; rfl

theorem toTTTensor_error {svd : SVDRoutine} {X : Tensor ℝ} {m : MaxRank} {eps : Option ℝ} {e : Err}
    (h : maxRanks X.shape.length m eps = Except.error e) : toTTTensor svd X m eps = Except.error e := by
  unfold toTTTensor
  simp only [h]; rfl

theorem maxRanks_eps (d : ℕ) (m : MaxRank) {e : ℝ} (he : 0 ≤ e) : maxRanks d m (some e) = maxRanks d m none := by
  have h1 : checkEps (some e) = checkEps none := by
    unfold checkEps; congr 1; simpa using he
  cases m <;> simp only [maxRanks, h1]

end T3f
