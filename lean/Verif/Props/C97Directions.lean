import Verif.Props.C95Bounds

/-!
# C97: rounding a tensor train and decomposing the dense tensor

`round(t, max_tt_rank)` and `to_tt_tensor(full(t), max_tt_rank)` both approximate the tensor that `t` represents within the same bounds. They
truncate the cuts in opposite orders and may return different tensors with different errors. With two cores the errors agree, and in general each
squared error is at most `d - 1` times the other.
-/

namespace T3f

/-- The tensor with the elements `63`, `60`, `32` at the positions `000`, `110`, `101`. -/
def exSides : TT ℤ where
  cores := [.ofList [1, 2, 2] [1, 0, 0, 1], .ofList [2, 2, 2] [63, 0, 0, 0, 0, 32, 60, 0], .ofList [2, 2, 1] [1, 0, 0, 1]]
  rawShape := [[2, 2, 2]]
  ttRanks := [1, 2, 2, 1]
  batch := none

/-- The tensor of shape `(2, 2, 2)` with these elements at `000`, `110`, `101`, and zeros elsewhere. -/
def exPoints (a b c : ℝ) (i : List ℕ) : ℝ := if i = [0, 0, 0] then a else if i = [1, 1, 0] then b else if i = [1, 0, 1] then c else 0

theorem exSides_full : ∃ T, full exSides.toReal = Except.ok T ∧ T.shape = [2, 2, 2] ∧ ∀ i, Valid [2, 2, 2] i → T.get i = exPoints 63 60 32 i := by
  have hw : exSides.toReal.WF := TT.WF.toReal (by decide)
  obtain ⟨T, eT, sT, vT⟩ := full_ok hw
  refine ⟨T, eT, sT, fun i hi => ?_⟩
  obtain ⟨a, ha, b, hb, c, hc, rfl⟩ := valid_three hi
  refine (vT [] [a, b, c] trivial hi).trans ?_
  show exSides.toReal.entry [] (tIdx [a, b, c]) = _
  have h1 : exSides.toReal.entry [] (tIdx [a, b, c]) = ((exSides.entry [] (tIdx [a, b, c]) : ℤ) : ℝ) :=
    TT.entry_mapEntries (Int.castRingHom ℝ) exSides [] (tIdx [a, b, c])
  rw [h1]
  have h2 : exSides.entry [] (tIdx [a, b, c]) = if [a, b, c] = [0, 0, 0] then 63 else if [a, b, c] = [1, 1, 0] then 60 else
      if [a, b, c] = [1, 0, 1] then 32 else 0 := by
    interval_cases a <;> interval_cases b <;> interval_cases c <;> decide
  rw [h2, exPoints]
  push_cast
  rfl

/-- The second cut of the tensor. -/
theorem exSides_svd2 {X : List ℕ → ℝ} (hX : ∀ i, Valid [2, 2, 2] i → X i = exPoints 63 60 32 i) : CutSVD [2, 2, 2] 2 X 2
    (fun l x => if l = 0 then (if x = [0, 0] then 21 / 29 else if x = [1, 1] then 20 / 29 else 0) else if x = [1, 0] then 1 else 0)
    (exSigma 87 32) exUnit where
  count := rfl
  value i j hi hj := by
    obtain ⟨a, b, rfl, ha, hb⟩ := (valid_pair _ _ _).1 hi
    obtain ⟨c, hc, rfl⟩ := valid_one hj
    have hv : Valid [2, 2, 2] ([a, b] ++ [c]) := ⟨ha, hb, hc, trivial⟩
    refine (hX _ hv).trans ?_
    interval_cases a <;> interval_cases b <;> interval_cases c <;> norm_num [exPoints, exSigma, exUnit, Finset.sum_range_succ]
  left l hl l' hl' := by
    interval_cases l <;> interval_cases l' <;> norm_num [dot, unravel, Finset.sum_range_succ]
  right l hl l' hl' := by
    interval_cases l <;> interval_cases l' <;> norm_num [dot, unravel, exUnit, Finset.sum_range_succ]
  nonneg l _ := exSigma_nonneg (by norm_num) (by norm_num) l
  decreasing l l' h _ := exSigma_anti (by norm_num) (by norm_num) l l' h

/-- The first cut after that. -/
theorem exFirst_svd1 : CutSVD [2, 2, 2] 1 (exPoints 63 60 0) 2 exUnit (exSigma 63 60) (fun l x => if x = [l, 0] then 1 else 0) where
  count := rfl
  value i j hi hj := by
    obtain ⟨a, ha, rfl⟩ := valid_one hi
    obtain ⟨b, c, rfl, hb, hc⟩ := (valid_pair _ _ _).1 hj
    interval_cases a <;> interval_cases b <;> interval_cases c <;> norm_num [exPoints, exSigma, exUnit, Finset.sum_range_succ]
  left l hl l' hl' := by
    interval_cases l <;> interval_cases l' <;> norm_num [dot, unravel, exUnit, Finset.sum_range_succ]
  right l hl l' hl' := by
    interval_cases l <;> interval_cases l' <;> norm_num [dot, unravel, Finset.sum_range_succ]
  nonneg l _ := exSigma_nonneg (by norm_num) (by norm_num) l
  decreasing l l' h _ := exSigma_anti (by norm_num) (by norm_num) l l' h

/-- The first cut of the tensor. -/
theorem exSides_svd1 {X : List ℕ → ℝ} (hX : ∀ i, Valid [2, 2, 2] i → X i = exPoints 63 60 32 i) : CutSVD [2, 2, 2] 1 X 2 exFlip (exSigma 68 63)
    (fun l x => if l = 0 then (if x = [1, 0] then 15 / 17 else if x = [0, 1] then 8 / 17 else 0) else if x = [0, 0] then 1 else 0) where
  count := rfl
  value i j hi hj := by
    obtain ⟨a, ha, rfl⟩ := valid_one hi
    obtain ⟨b, c, rfl, hb, hc⟩ := (valid_pair _ _ _).1 hj
    have hv : Valid [2, 2, 2] ([a] ++ [b, c]) := ⟨ha, hb, hc, trivial⟩
    refine (hX _ hv).trans ?_
    interval_cases a <;> interval_cases b <;> interval_cases c <;> norm_num [exPoints, exSigma, exFlip, Finset.sum_range_succ]
  left := exFlip_orth
  right l hl l' hl' := by
    interval_cases l <;> interval_cases l' <;> norm_num [dot, unravel, Finset.sum_range_succ]
  nonneg l _ := exSigma_nonneg (by norm_num) (by norm_num) l
  decreasing l l' h _ := exSigma_anti (by norm_num) (by norm_num) l l' h

/-- The second cut after that. -/
theorem exLast_svd2 : CutSVD [2, 2, 2] 2 (exPoints 0 60 32) 2 (fun l x => if x = [1, 1 - l] then 1 else 0) (exSigma 60 32) exUnit where
  count := rfl
  value i j hi hj := by
    obtain ⟨a, b, rfl, ha, hb⟩ := (valid_pair _ _ _).1 hi
    obtain ⟨c, hc, rfl⟩ := valid_one hj
    interval_cases a <;> interval_cases b <;> interval_cases c <;> norm_num [exPoints, exSigma, exUnit, Finset.sum_range_succ]
  left l hl l' hl' := by
    interval_cases l <;> interval_cases l' <;> norm_num [dot, unravel, Finset.sum_range_succ]
  right l hl l' hl' := by
    interval_cases l <;> interval_cases l' <;> norm_num [dot, unravel, exUnit, Finset.sum_range_succ]
  nonneg l _ := exSigma_nonneg (by norm_num) (by norm_num) l
  decreasing l l' h _ := exSigma_anti (by norm_num) (by norm_num) l l' h

theorem exSides_backward {X : List ℕ → ℝ} (hX : ∀ i, Valid [2, 2, 2] i → X i = exPoints 63 60 32 i) :
    Gaps [2, 2, 2] (fun _ => 1) [2, 1] X (exPoints 63 0 0) := by
  refine .cut (by omega) (by simp) (exSides_svd2 hX) (fun _ => by norm_num [exSigma]) (Z := exPoints 63 60 0) ?_
    (.cut (by omega) (by simp) exFirst_svd1 (fun _ => by norm_num [exSigma]) ?_ (.done fun _ _ => rfl))
  · intro i j hi hj
    obtain ⟨a, b, rfl, ha, hb⟩ := (valid_pair _ _ _).1 hi
    obtain ⟨c, hc, rfl⟩ := valid_one hj
    interval_cases a <;> interval_cases b <;> interval_cases c <;> norm_num [exPoints, exSigma, exUnit]
  · intro i j hi hj
    obtain ⟨a, ha, rfl⟩ := valid_one hi
    obtain ⟨b, c, rfl, hb, hc⟩ := (valid_pair _ _ _).1 hj
    interval_cases a <;> interval_cases b <;> interval_cases c <;> norm_num [exPoints, exSigma, exUnit]

theorem exSides_forward {X : List ℕ → ℝ} (hX : ∀ i, Valid [2, 2, 2] i → X i = exPoints 63 60 32 i) :
    Gaps [2, 2, 2] (fun _ => 1) [1, 2] X (exPoints 0 60 0) := by
  refine .cut (by omega) (by simp) (exSides_svd1 hX) (fun _ => by norm_num [exSigma]) (Z := exPoints 0 60 32) ?_
    (.cut (by omega) (by simp) exLast_svd2 (fun _ => by norm_num [exSigma]) ?_ (.done fun _ _ => rfl))
  · intro i j hi hj
    obtain ⟨a, ha, rfl⟩ := valid_one hi
    obtain ⟨b, c, rfl, hb, hc⟩ := (valid_pair _ _ _).1 hj
    interval_cases a <;> interval_cases b <;> interval_cases c <;> norm_num [exPoints, exSigma, exFlip]
  · intro i j hi hj
    obtain ⟨a, b, rfl, ha, hb⟩ := (valid_pair _ _ _).1 hi
    obtain ⟨c, hc, rfl⟩ := valid_one hj
    interval_cases a <;> interval_cases b <;> interval_cases c <;> norm_num [exPoints, exSigma, exUnit]

theorem exPoints_dist {T X : Tensor ℝ} {a b c a' b' c' : ℝ} (hT : ∀ i, Valid [2, 2, 2] i → T.get i = exPoints a b c i)
    (hX : ∀ i, Valid [2, 2, 2] i → X.get i = exPoints a' b' c' i) : T.distSq X [] [2, 2, 2] = (a - a') ^ 2 + (b - b') ^ 2 + (c - c') ^ 2 := by
  have h : T.distSq X [] [2, 2, 2] = ∑ n ∈ Finset.range 8, (exPoints a b c (unravel [2, 2, 2] n) - exPoints a' b' c' (unravel [2, 2, 2] n)) ^ 2 := by
    refine Finset.sum_congr rfl fun n hn => ?_
    have hv : Valid [2, 2, 2] (unravel [2, 2, 2] n) := unravel_valid (Finset.mem_range.1 hn)
    rw [List.nil_append, hT _ hv, hX _ hv]
  rw [h]
  simp [Finset.sum_range_succ, unravel, exPoints]
  ring

/-- **C97 (finding).** For this tensor of shape `(2, 2, 2)` and `max_tt_rank=1`, `round` keeps the element `63` (squared error `4624`), while
`to_tt_tensor` of the dense tensor keeps the element `60` (squared error `4993`), whatever routines compute the decompositions. -/
theorem C97_different {qr : QRRoutine} (hqr : qr.Correct) {svd svd' : SVDRoutine} (hsvd : svd.Correct) (hsvd' : svd'.Correct) :
    exSides.toReal.WF ∧ ∃ T x y X Y, full exSides.toReal = Except.ok T ∧ T.shape = [2, 2, 2] ∧
      ttRound qr svd exSides.toReal (.num 1) none = Except.ok x ∧ full x = Except.ok X ∧ X.get [0, 0, 0] = 63 ∧ T.distSq X [] [2, 2, 2] = 4624 ∧
      toTTTensor svd' T (.num 1) none = Except.ok y ∧ full y = Except.ok Y ∧ Y.get [0, 0, 0] = 0 ∧ T.distSq Y [] [2, 2, 2] = 4993 := by
  have hw : exSides.toReal.WF := TT.WF.toReal (by decide)
  have hm : exSides.toReal.ModesPos := by simp [TT.ModesPos, TT.toReal, exSides]
  have hnb : ¬ exSides.toReal.isBatch := by simp [TT.isBatch, TT.toReal, exSides]
  obtain ⟨T, eT, sT, vT⟩ := exSides_full
  have hb : (MaxRank.num 1).Bounds 3 (fun _ => 1) := Or.inl ⟨1, by omega, Or.inl rfl, fun _ => rfl⟩
  obtain ⟨x, X, e, eX, -, -, hx⟩ := C70_round_gaps hqr hsvd hw hm (s := [2, 2, 2]) rfl (m := .num 1) (b := fun _ => 1) hb (fun h => absurd h hnb)
    (eps := none) (by simp) eT (Y := fun _ => exPoints 63 0 0) (fun p hp => by
      have hp : Valid [] p := hp
      match p, hp with
      | [], _ => exact exSides_backward vT)
  have hX : ∀ i, Valid [2, 2, 2] i → X.get i = exPoints 63 0 0 i := fun i hi => hx [] i trivial hi
  obtain ⟨y, Y, e', eY, sY, hY⟩ := C70_tensor_gaps hsvd' (X := T) (by simp [sT]) (by simp [sT]) (m := .num 1) (b := fun _ => 1) (by rw [sT]; exact hb)
    (eps := none) (by simp) (Y := exPoints 0 60 0) (by rw [sT]; exact exSides_forward vT)
  rw [sT] at hY
  have h0 : Valid [2, 2, 2] [0, 0, 0] := ⟨by omega, by omega, by omega, trivial⟩
  refine ⟨hw, T, x, y, X, Y, eT, sT, e, eX, ?_, ?_, e', eY, ?_, ?_⟩
  · rw [hX _ h0]; simp [exPoints]
  · rw [exPoints_dist vT hX]; norm_num
  · rw [hY _ h0]; simp [exPoints]
  · rw [exPoints_dist vT hY]; norm_num

example : (∃ qr : QRRoutine, qr.Correct) ∧ (∃ svd : SVDRoutine, svd.Correct) := ⟨qrRoutine_exists, svdRoutine_exists⟩

/-- **C97.** Each of the two squared errors is at most `d - 1` times the other; with two cores they are equal. -/
theorem C97_limit {qr : QRRoutine} (hqr : qr.Correct) {svd svd' : SVDRoutine} (hsvd : svd.Correct) (hsvd' : svd'.Correct) {t : TT ℝ} (h : t.WF)
    (hm : t.ModesPos) (ht : ¬ t.isMatrix) (hbt : t.batch = none) (hd : 2 ≤ t.ndims) {m : MaxRank} {b : ℕ → ℕ} (hb : m.Bounds t.ndims b)
    {eps eps' : Option ℝ} (he : ∀ e ∈ eps, 0 ≤ e) (he' : ∀ e ∈ eps', 0 ≤ e) :
    ∃ T x y X Y, full t = Except.ok T ∧ ttRound qr svd t m eps = Except.ok x ∧ full x = Except.ok X ∧ toTTTensor svd' T m eps' = Except.ok y ∧
      full y = Except.ok Y ∧ X.shape = T.shape ∧ Y.shape = T.shape ∧
      T.distSq X [] T.shape ≤ (t.ndims - 1 : ℕ) * T.distSq Y [] T.shape ∧ T.distSq Y [] T.shape ≤ (t.ndims - 1 : ℕ) * T.distSq X [] T.shape ∧
      (t.ndims = 2 → T.distSq X [] T.shape = T.distSq Y [] T.shape) := by
  have hnb : ¬ t.isBatch := by simp [TT.isBatch, hbt]
  obtain ⟨s, hs⟩ : ∃ s, t.rawShape = [s] := by
    rcases h.rows with h1 | h1
    · exact List.length_eq_one_iff.1 h1
    · exact absurd (by simp [TT.isMatrix, h1]) ht
  obtain ⟨T, eT, sT, -⟩ := full_ok h
  have sT : T.shape = s := by rw [sT, bpre_none hbt, hs]; rfl
  have hn : T.shape.length = t.ndims := by rw [sT]; exact h.rows_len s (by rw [hs]; simp)
  have hpos : ∀ n ∈ T.shape, 0 < n := by rw [sT]; exact hm s (by rw [hs]; simp)
  have hb' : m.Bounds T.shape.length b := by rw [hn]; exact hb
  obtain ⟨x, e, w, rs, bt, hr, -⟩ := C31_ranks hqr hsvd h hm hb (fun h => absurd h hnb) he
  obtain ⟨y, e', w', rs', bt', hr'⟩ := C33_tensor_ranks hsvd' (by omega) hpos hb' he'
  obtain ⟨x1, T1, X, Y, s1, e1, eT1, eX, eY, sT1, sX, sY, h1⟩ := C32_quasi_optimal hqr hsvd h hm hb (fun h => absurd h hnb) he (S := y) w'
    (by rw [rs', sT, hs]) (by rw [bt', hbt]) fun k h0 hk => hr' k h0 (by omega)
  obtain rfl : x1 = x := Except.ok.inj (e1.symm.trans e)
  obtain rfl : T1 = T := Except.ok.inj (eT1.symm.trans eT)
  obtain ⟨y1, Y1, X1, e2, eY1, eX1, -, -, h2⟩ := C33_tensor_quasi_optimal hsvd' (by omega) hpos hb' he' (S := x1) w (by rw [rs, hs, sT]) (by rw [bt, hbt])
    fun k h0 hk => hr k h0 (by omega)
  obtain rfl : y1 = y := Except.ok.inj (e2.symm.trans e')
  obtain rfl : Y1 = Y := Except.ok.inj (eY1.symm.trans eY)
  obtain rfl : X1 = X := Except.ok.inj (eX1.symm.trans eX)
  rw [bpre_none hbt, List.nil_append] at sT1 sX sY
  subst sT1
  have h1 := h1 [] (by rw [bpre_none hbt]; trivial)
  rw [hn] at h2
  refine ⟨T1, x1, y1, X1, Y1, eT, e, eX, e', eY, sX, sY, h1, h2, fun h3 => ?_⟩
  rw [h3, Nat.cast_one, one_mul] at h1 h2
  exact le_antisymm h1 h2

example : exSides.toReal.WF ∧ exSides.toReal.ModesPos ∧ ¬ exSides.toReal.isMatrix ∧ exSides.toReal.batch = none ∧ 2 ≤ exSides.toReal.ndims ∧
    (MaxRank.num 1).Bounds exSides.toReal.ndims (fun _ => 1) :=
  ⟨TT.WF.toReal (by decide), by simp [TT.ModesPos, TT.toReal, exSides], by simp [TT.isMatrix, TT.toReal, exSides], rfl,
    by simp [TT.ndims, TT.toReal, exSides], Or.inl ⟨1, by omega, Or.inl rfl, fun _ => rfl⟩⟩

end T3f
