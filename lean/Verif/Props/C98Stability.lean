import Verif.Props.C56Descent
import Verif.Props.C97Directions

/-!
# C98: stability of rounding

Rounding recovers a tensor of low TT-ranks from perturbed data up to a multiple of the perturbation. For other tensors it is not continuous.
-/

namespace T3f

/-- **C98.** If `S` is within the bounds and `t` is a perturbation of it, the result of `round` has at most the distance `1 + √(d - 1)` times the
perturbation from `S`, in every batch item. -/
theorem C98_round {qr : QRRoutine} (hqr : qr.Correct) {svd : SVDRoutine} (hsvd : svd.Correct) {t : TT ℝ} (h : t.WF) (hm : t.ModesPos)
    {m : MaxRank} {b : ℕ → ℕ} (hb : m.Bounds t.ndims b) (hbatch : t.isBatch → m.Single) {eps : Option ℝ} (he : ∀ e ∈ eps, 0 ≤ e)
    {S : TT ℝ} (hS : S.WF) (hrs : S.rawShape = t.rawShape) (hSb : S.batch = t.batch) (hr : ∀ k, 0 < k → k < t.ndims → S.rank k ≤ b k) :
    ∃ x T X F s, ttRound qr svd t m eps = Except.ok x ∧ full t = Except.ok T ∧ full x = Except.ok X ∧ full S = Except.ok F ∧
      T.shape = t.bpre ++ s ∧ X.shape = t.bpre ++ s ∧ F.shape = t.bpre ++ s ∧ ∀ p, Valid t.bpre p →
        √(X.distSq F p s) ≤ (1 + √((t.ndims : ℝ) - 1)) * √(T.distSq F p s) := by
  obtain ⟨x, T, X, F, s, e, eT, eX, eF, sT, sX, sF, hx⟩ := C32_quasi_optimal hqr hsvd h hm hb hbatch he hS hrs hSb hr
  refine ⟨x, T, X, F, s, e, eT, eX, eF, sT, sX, sF, fun p hp => ?_⟩
  have h1 := Real.sqrt_le_sqrt (hx p hp)
  have h2 := dist_triangle X T F p s
  have h3 := h.pos
  rw [distSq_comm, Real.sqrt_mul (by positivity), Nat.cast_sub (by omega), Nat.cast_one] at h1
  linarith

/-- **C98.** The same for `to_tt_tensor` of a perturbed dense tensor. -/
theorem C98_tensor {svd : SVDRoutine} (hsvd : svd.Correct) {X : Tensor ℝ} (hd : 2 ≤ X.shape.length) (hs : ∀ n ∈ X.shape, 0 < n)
    {m : MaxRank} {b : ℕ → ℕ} (hb : m.Bounds X.shape.length b) {eps : Option ℝ} (he : ∀ e ∈ eps, 0 ≤ e)
    {S : TT ℝ} (hS : S.WF) (hrs : S.rawShape = [X.shape]) (hSb : S.batch = none) (hr : ∀ k, 0 < k → k < X.shape.length → S.rank k ≤ b k) :
    ∃ x Y F, toTTTensor svd X m eps = Except.ok x ∧ full x = Except.ok Y ∧ full S = Except.ok F ∧ Y.shape = X.shape ∧ F.shape = X.shape ∧
      √(Y.distSq F [] X.shape) ≤ (1 + √((X.shape.length : ℝ) - 1)) * √(X.distSq F [] X.shape) := by
  obtain ⟨x, Y, F, e, eY, eF, sY, sF, hx⟩ := C33_tensor_quasi_optimal hsvd hd hs hb he hS hrs hSb hr
  refine ⟨x, Y, F, e, eY, eF, sY, sF, ?_⟩
  have h1 := Real.sqrt_le_sqrt hx
  have h2 := dist_triangle Y X F [] X.shape
  rw [distSq_comm, Real.sqrt_mul (by positivity), Nat.cast_sub (by omega), Nat.cast_one] at h1
  linarith

/-- A rank one tensor of shape `(2, 2, 2)`: the elements are all one. -/
def exFlat3 : TT ℤ := ⟨[.ofList [1, 2, 1] [1, 1], .ofList [1, 2, 1] [1, 1], .ofList [1, 2, 1] [1, 1]], [[2, 2, 2]], [1, 1, 1, 1], none⟩

example : exSides.toReal.WF ∧ exSides.toReal.ModesPos ∧ (MaxRank.num 1).Bounds exSides.toReal.ndims (fun _ => 1) ∧ exFlat3.toReal.WF ∧
    exFlat3.toReal.rawShape = exSides.toReal.rawShape ∧ exFlat3.toReal.batch = exSides.toReal.batch ∧
    ∀ k, 0 < k → k < exSides.toReal.ndims → exFlat3.toReal.rank k ≤ 1 :=
  ⟨TT.WF.toReal (by decide), by simp [TT.ModesPos, TT.toReal, exSides], Or.inl ⟨1, by omega, Or.inl rfl, fun _ => rfl⟩, TT.WF.toReal (by decide), rfl, rfl,
    fun k h0 hk => by
      have hk : k < 3 := hk
      interval_cases k <;> simp [TT.rank, TT.toReal, exFlat3]⟩

/-- The pattern of a diagonal matrix as a tensor with two axes. -/
def exDiagPattern : TT ℤ := ⟨[.ofList [1, 2, 2] [2, 0, 0, 3], .ofList [2, 2, 1] [1, 0, 0, 1]], [[2, 2]], [1, 2, 1], none⟩

/-- The diagonal matrix with the elements `u` and `v` as a tensor with two axes. -/
noncomputable def exDiagUV (u v : ℝ) : TT ℝ := exDiagPattern.mapEntries fun z : ℤ => if z = 2 then u else if z = 3 then v else (z : ℝ)

theorem exDiagUV_wf (u v : ℝ) : (exDiagUV u v).WF := TT.WF.mapEntries _ (by decide)

theorem exDiagUV_full (u v : ℝ) : ∃ T, full (exDiagUV u v) = Except.ok T ∧ T.shape = [2, 2] ∧
    ∀ a < 2, ∀ b < 2, T.get [a, b] = if a = b then (if a = 0 then u else v) else 0 := by
  obtain ⟨T, eT, sT, vT⟩ := full_ok (exDiagUV_wf u v)
  refine ⟨T, eT, sT, fun a ha b hb => ?_⟩
  have hv : Valid [2, 2] [a, b] := ⟨ha, hb, trivial⟩
  refine (vT [] [a, b] trivial hv).trans ?_
  show (exDiagUV u v).entry [] (tIdx [a, b]) = _
  interval_cases a <;> interval_cases b <;>
    simp [TT.entry, exDiagUV, TT.mapEntries, exDiagPattern, TT.ndims, lprod, TT.slice, TT.core, TT.rank, tIdx, Tensor.map, Tensor.ofList, ravel, Finset.sum_range_succ]

/-- The matrix with the element `w` at the position `(k, k)`. -/
def exSpike (k : ℕ) (w : ℝ) (i : List ℕ) : ℝ := if i = [k, k] then w else 0

theorem exDiagUV_gaps {u v : ℝ} (hv : 0 ≤ v) (h : v < u) {X : List ℕ → ℝ}
    (hX : ∀ a < 2, ∀ b < 2, X [a, b] = if a = b then (if a = 0 then u else v) else 0) : Gaps [2, 2] (fun _ => 1) [1] X (exSpike 0 u) := by
  have hsvd : CutSVD [2, 2] 1 X 2 exUnit (exSigma u v) exUnit :=
    { count := rfl
      value := fun i j hi hj => by
        obtain ⟨a, ha, rfl⟩ := valid_one hi
        obtain ⟨b, hb, rfl⟩ := valid_one hj
        refine (hX a ha b hb).trans ?_
        interval_cases a <;> interval_cases b <;> norm_num [exUnit, exSigma, Finset.sum_range_succ]
      left := fun l hl l' hl' => by
        interval_cases l <;> interval_cases l' <;> norm_num [dot, unravel, exUnit, Finset.sum_range_succ]
      right := fun l hl l' hl' => by
        interval_cases l <;> interval_cases l' <;> norm_num [dot, unravel, exUnit, Finset.sum_range_succ]
      nonneg := fun l _ => exSigma_nonneg (by linarith) hv l
      decreasing := fun l l' hl _ => exSigma_anti hv h.le l l' hl }
  refine .cut (by omega) (by simp) hsvd (fun _ => by simpa [exSigma] using h) ?_ (.done fun _ _ => rfl)
  intro i j hi hj
  obtain ⟨a, ha, rfl⟩ := valid_one hi
  obtain ⟨b, hb, rfl⟩ := valid_one hj
  interval_cases a <;> interval_cases b <;> norm_num [exUnit, exSigma, exSpike]

theorem exDiagUV_gaps' {u v : ℝ} (hu : 0 ≤ u) (h : u < v) {X : List ℕ → ℝ}
    (hX : ∀ a < 2, ∀ b < 2, X [a, b] = if a = b then (if a = 0 then u else v) else 0) : Gaps [2, 2] (fun _ => 1) [1] X (exSpike 1 v) := by
  have hsvd : CutSVD [2, 2] 1 X 2 exFlip (exSigma v u) exFlip :=
    { count := rfl
      value := fun i j hi hj => by
        obtain ⟨a, ha, rfl⟩ := valid_one hi
        obtain ⟨b, hb, rfl⟩ := valid_one hj
        refine (hX a ha b hb).trans ?_
        interval_cases a <;> interval_cases b <;> norm_num [exFlip, exSigma, Finset.sum_range_succ]
      left := exFlip_orth
      right := exFlip_orth
      nonneg := fun l _ => exSigma_nonneg (by linarith) hu l
      decreasing := fun l l' hl _ => exSigma_anti hu h.le l l' hl }
  refine .cut (by omega) (by simp) hsvd (fun _ => by simpa [exSigma] using h) ?_ (.done fun _ _ => rfl)
  intro i j hi hj
  obtain ⟨a, ha, rfl⟩ := valid_one hi
  obtain ⟨b, hb, rfl⟩ := valid_one hj
  interval_cases a <;> interval_cases b <;> norm_num [exFlip, exSigma, exSpike]

theorem exDiagUV_round {qr : QRRoutine} (hqr : qr.Correct) {svd : SVDRoutine} (hsvd : svd.Correct) {u v : ℝ} {T : Tensor ℝ}
    (eT : full (exDiagUV u v) = Except.ok T) {Y : List ℕ → ℝ} (hg : Gaps [2, 2] (fun _ => 1) [1] T.get Y) :
    ∃ x X, ttRound qr svd (exDiagUV u v) (.num 1) none = Except.ok x ∧ full x = Except.ok X ∧ X.shape = [2, 2] ∧ ∀ i, Valid [2, 2] i → X.get i = Y i := by
  have hm : (exDiagUV u v).ModesPos := by simp [TT.ModesPos, exDiagUV, TT.mapEntries, exDiagPattern]
  have hnb : ¬ (exDiagUV u v).isBatch := by simp [TT.isBatch, exDiagUV, TT.mapEntries, exDiagPattern]
  obtain ⟨x, X, e, eX, sT, sX, hx⟩ := C70_round_gaps hqr hsvd (exDiagUV_wf u v) hm (s := [2, 2]) rfl (m := .num 1) (b := fun _ => 1)
    (Or.inl ⟨1, by omega, Or.inl rfl, fun _ => rfl⟩) (fun h => absurd h hnb) (eps := none) (by simp) eT (Y := fun _ => Y) (fun p hp => by
      have hp : Valid [] p := hp
      match p, hp with
      | [], _ => exact hg)
  exact ⟨x, X, e, eX, sX.trans sT, fun i hi => hx [] i trivial hi⟩

/-- **C98 (finding).** `round` is not continuous: there are tensors of shape `(2, 2)` that are arbitrarily near to each other while the results of
`round(., max_tt_rank=1)` have a distance of more than one, whatever routines compute the decompositions. -/
theorem C98_jump {qr : QRRoutine} (hqr : qr.Correct) {svd : SVDRoutine} (hsvd : svd.Correct) {ε : ℝ} (hε : 0 < ε) :
    ∃ t t' T T' x x' X X', t.WF ∧ t'.WF ∧ full t = Except.ok T ∧ full t' = Except.ok T' ∧ T.shape = [2, 2] ∧ T'.shape = [2, 2] ∧
      T.distSq T' [] [2, 2] < ε ^ 2 ∧ ttRound qr svd t (.num 1) none = Except.ok x ∧ ttRound qr svd t' (.num 1) none = Except.ok x' ∧
      full x = Except.ok X ∧ full x' = Except.ok X' ∧ X.shape = [2, 2] ∧ X'.shape = [2, 2] ∧ 1 < X.distSq X' [] [2, 2] := by
  have hδ : 0 < ε / 2 := by linarith
  obtain ⟨T, eT, sT, vT⟩ := exDiagUV_full (1 + ε / 2) 1
  obtain ⟨T', eT', sT', vT'⟩ := exDiagUV_full 1 (1 + ε / 2)
  obtain ⟨x, X, e, eX, sX, hX⟩ := exDiagUV_round hqr hsvd eT (exDiagUV_gaps (by norm_num) (by linarith) vT)
  obtain ⟨x', X', e', eX', sX', hX'⟩ := exDiagUV_round hqr hsvd eT' (exDiagUV_gaps' (by norm_num) (by linarith) vT')
  have dist : ∀ A B : Tensor ℝ, A.distSq B [] [2, 2] = (A.get [0, 0] - B.get [0, 0]) ^ 2 + (A.get [0, 1] - B.get [0, 1]) ^ 2 +
      (A.get [1, 0] - B.get [1, 0]) ^ 2 + (A.get [1, 1] - B.get [1, 1]) ^ 2 := by
    intro A B
    have : A.distSq B [] [2, 2] = ∑ n ∈ Finset.range 4, (A.get ([] ++ unravel [2, 2] n) - B.get ([] ++ unravel [2, 2] n)) ^ 2 := rfl
    rw [this]
    simp [Finset.sum_range_succ, unravel]
  have hv : ∀ a < 2, ∀ b < 2, Valid [2, 2] [a, b] := fun a ha b hb => ⟨ha, hb, trivial⟩
  refine ⟨_, _, T, T', x, x', X, X', exDiagUV_wf _ _, exDiagUV_wf _ _, eT, eT', sT, sT', ?_, e, e', eX, eX', sX, sX', ?_⟩
  · rw [dist, vT 0 (by omega) 0 (by omega), vT 0 (by omega) 1 (by omega), vT 1 (by omega) 0 (by omega), vT 1 (by omega) 1 (by omega),
      vT' 0 (by omega) 0 (by omega), vT' 0 (by omega) 1 (by omega), vT' 1 (by omega) 0 (by omega), vT' 1 (by omega) 1 (by omega)]
    norm_num
    nlinarith
  · rw [dist, hX _ (hv 0 (by omega) 0 (by omega)), hX _ (hv 0 (by omega) 1 (by omega)), hX _ (hv 1 (by omega) 0 (by omega)),
      hX _ (hv 1 (by omega) 1 (by omega)), hX' _ (hv 0 (by omega) 0 (by omega)), hX' _ (hv 0 (by omega) 1 (by omega)),
      hX' _ (hv 1 (by omega) 0 (by omega)), hX' _ (hv 1 (by omega) 1 (by omega))]
    norm_num [exSpike]
    nlinarith

example : (∃ qr : QRRoutine, qr.Correct) ∧ (∃ svd : SVDRoutine, svd.Correct) ∧ (0 : ℝ) < 1 / 1000 :=
  ⟨qrRoutine_exists, svdRoutine_exists, by norm_num⟩

end T3f
