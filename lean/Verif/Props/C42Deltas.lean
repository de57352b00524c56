import Verif.Proofs.Deltas
import Verif.Props.C40AddNProjected

/-! # C42: tangent vectors and their blocks

`left` and `right` are the two orthogonalizations of the point `x`. `deltaTerm left right deltas p k` (`Spec/Projected.lean`) is the TT-object with the cores
of `left` before the core `k`, the block `k`, and the cores of `right` after it.
-/

namespace T3f

/-- C42: `deltas_to_tangent_space` returns the sum of the terms with one block each. The orthogonalizations can be passed as arguments or not. The blocks may
have a batch axis. -/
theorem C42_from_deltas {qr : QRRoutine} (hqr : qr.Correct) {x left right : TT ℝ} (h : x.WF) (hb : x.batch = none) (hm : x.ModesPos) (hd : 2 ≤ x.ndims)
    (hl : orthogonalize qr x true = Except.ok left) (hr : orthogonalize qr left false = Except.ok right)
    (hk : ∀ k, 0 < k → k + 1 < x.ndims → right.rank k = left.rank k) {lo ro : Option (TT ℝ)} (hlo : lo = none ∨ lo = some left)
    (hro : ro = none ∨ ro = some right) {out : Option ℕ} (hout : out ≠ some 0) {deltas : List (Tensor ℝ)} (hlen : deltas.length = x.ndims)
    (hD : ∀ k < x.ndims, (deltas.getD k default).shape = out.toList ++ left.rank k :: (x.modes k ++ [right.rank (k + 1)])) :
    ∃ y Y, ∃ T : List ℕ → ℕ → Tensor ℝ, deltasToTangent qr deltas x lo ro = Except.ok y ∧ y.WF ∧ y.rawShape = x.rawShape ∧ y.batch = out ∧
      (∀ k, 0 < k → k < x.ndims → y.rank k = right.rank k + left.rank k) ∧ full y = Except.ok Y ∧ Y.shape = out.toList ++ x.dense.shape ∧
      (∀ p, Valid out.toList p → ∀ k < x.ndims, (deltaTerm left right deltas p k).WF ∧ full (deltaTerm left right deltas p k) = Except.ok (T p k)) ∧
      ∀ p i, Valid out.toList p → Valid x.dense.shape i → Y.get (p ++ i) = ∑ k ∈ Finset.range x.ndims, (T p k).get i := by
  obtain ⟨hF, F⟩ := frame_of hqr h hb hm hl hr
  obtain ⟨y, e, T, yb⟩ := deltasToTangent_ok F h hb hd hk (lo := lo) (ro := ro) (by rcases hlo with rfl | rfl; exacts [hl, rfl])
    (by rcases hro with rfl | rfl; exacts [hr, rfl]) hout hlen hD
  obtain ⟨Y, eY, sY, vY⟩ := full_ok T.wf
  have hry : y.rawShape = x.rawShape := T.rows.trans F.rl
  have hpy : y.bpre = out.toList := by rw [TT.bpre, yb]
  rw [hry, hpy] at sY vY
  have hwf : ∀ p, Valid out.toList p → ∀ k < x.ndims, (deltaTerm left right deltas p k).WF := fun p hp k hk' => deltaTerm_wf F hD hp.length_eq hk'
  have hfull : ∀ p, Valid out.toList p → ∀ k < x.ndims, ∃ Z, full (deltaTerm left right deltas p k) = Except.ok Z ∧
      ∀ i, Valid (restShape x.rawShape) i → Z.get i = (deltaTerm left right deltas p k).entry [] (restModes x.rawShape i) := by
    intro p hp k hk'
    obtain ⟨Z, eZ, _, vZ⟩ := full_single (hwf p hp k hk') rfl
    rw [show (deltaTerm left right deltas p k).rawShape = x.rawShape from F.rl] at vZ
    exact ⟨Z, eZ, vZ⟩
  choose! Z eZ vZ using hfull
  rw [dense_shape_single hb]
  refine ⟨y, Y, Z, e, T.wf, hry, yb, fun k h0 h1 => ?_, eY, sY, fun p hp k hk' => ⟨hwf p hp k hk', eZ p hp k hk'⟩, fun p i hp hi => ?_⟩
  · rw [T.rank k (by rw [F.nl]; omega), F.nl, addRk, if_neg (by omega)]
  · rw [vY p i hp hi, T.entry_terms F (by rw [hpy]; exact hp) (validModes_rest h hi)]
    exact Finset.sum_congr rfl fun k hk' => (vZ p hp k (Finset.mem_range.1 hk') i hi).symm

/-- C42: `tangent_space_to_deltas` recovers the blocks from the result of `deltas_to_tangent_space`. -/
theorem C42_roundtrip {qr : QRRoutine} (hqr : qr.Correct) {x left right : TT ℝ} (h : x.WF) (hb : x.batch = none) (hm : x.ModesPos) (hd : 2 ≤ x.ndims)
    (hl : orthogonalize qr x true = Except.ok left) (hr : orthogonalize qr left false = Except.ok right)
    (hk : ∀ k, 0 < k → k + 1 < x.ndims → right.rank k = left.rank k) (hk' : left.rank (x.ndims - 1) ≤ right.rank (x.ndims - 1) + 1)
    {out : Option ℕ} (hout : out ≠ some 0) {deltas : List (Tensor ℝ)} (hlen : deltas.length = x.ndims)
    (hD : ∀ k < x.ndims, (deltas.getD k default).shape = out.toList ++ left.rank k :: (x.modes k ++ [right.rank (k + 1)])) (o : ℕ) :
    ∃ y deltas', deltasToTangent qr deltas x none none = Except.ok y ∧ tangentSpaceToDeltas ⟨y, some o⟩ = Except.ok deltas' ∧
      deltas'.length = deltas.length ∧ ∀ k < x.ndims, deltas'.getD k default ≃ₜ deltas.getD k default := by
  obtain ⟨hF, F⟩ := frame_of hqr h hb hm hl hr
  obtain ⟨y, e, T, yb⟩ := deltasToTangent_ok F h hb hd hk (lo := none) (ro := none) hl hr hout hlen hD
  have hH : Halves x left right := halves_of F fun k h0 h1 => by
    by_cases hc : k + 1 < x.ndims
    · have := hk k h0 hc; omega
    · obtain rfl : k = x.ndims - 1 := by omega
      exact hk'
  obtain ⟨ds, e', hl', hv⟩ := tangentSpaceToDeltas_ok F hd hH hk T o
  exact ⟨y, ds, e, e', by rw [hl', hlen], hv⟩

/-- C42: for every projection on the tangent space at `x`, `tangent_space_to_deltas` returns blocks that `deltas_to_tangent_space` turns into the same tensor.
The blocks satisfy the gauge conditions: all but the last one are orthogonal to the cores of `left`. -/
theorem C42_projected {qr : QRRoutine} (hqr : qr.Correct) {x left right : TT ℝ} (h : x.WF) (hb : x.batch = none) (hm : x.ModesPos) (hd : 2 ≤ x.ndims)
    (hl : orthogonalize qr x true = Except.ok left) (hr : orthogonalize qr left false = Except.ok right)
    (hk : ∀ k, 0 < k → k + 1 < x.ndims → right.rank k = left.rank k) (hk' : left.rank (x.ndims - 1) ≤ right.rank (x.ndims - 1) + 1)
    {y : TT ℝ} (hy : ProjectedOn qr x y) (o : ℕ) :
    ∃ deltas y' Y Y', tangentSpaceToDeltas ⟨y, some o⟩ = Except.ok deltas ∧ deltas.length = x.ndims ∧
      (∀ k < x.ndims, (deltas.getD k default).shape = y.bpre ++ left.rank k :: (x.modes k ++ [right.rank (k + 1)])) ∧
      (∀ p, Valid y.bpre p → ∀ k, k + 1 < x.ndims → ∀ c < left.rank (k + 1), ∀ b < right.rank (k + 1),
        ∑ a ∈ Finset.range (left.rank k), ∑ n ∈ Finset.range (x.modes k).prod,
          (left.core k).get (a :: (unravel (x.modes k) n ++ [c])) * (deltas.getD k default).get (p ++ a :: (unravel (x.modes k) n ++ [b])) = 0) ∧
      deltasToTangent qr deltas x none none = Except.ok y' ∧ y'.batch = y.batch ∧ full y = Except.ok Y ∧ full y' = Except.ok Y' ∧ Y' ≃ₜ Y := by
  obtain ⟨hF, F⟩ := frame_of hqr h hb hm hl hr
  have hH : Halves x left right := halves_of F fun k h0 h1 => by
    by_cases hc : k + 1 < x.ndims
    · have := hk k h0 hc; omega
    · obtain rfl : k = x.ndims - 1 := by omega
      exact hk'
  obtain ⟨D, T⟩ := projectedOn_gauged h hb hd hF F hH hy
  obtain ⟨ds, e, hlen, hv⟩ := tangentSpaceToDeltas_ok F hd hH hk T.tan o
  have hsh : ∀ k < x.ndims, (ds.getD k default).shape = y.batch.toList ++ left.rank k :: (x.modes k ++ [right.rank (k + 1)]) := fun k hk => by
    rw [(hv k hk).1, T.tan.blkShape k (by rw [F.nl]; exact hk), F.ml]; rfl
  have hval : ∀ k < x.ndims, ∀ p, Valid y.bpre p → ∀ v, Valid (x.modes k) v → ∀ a < left.rank k, ∀ b < right.rank (k + 1),
      (ds.getD k default).get (p ++ a :: (v ++ [b])) = (D k).get (p ++ a :: (v ++ [b])) := fun k hk p hp v hv' a ha b hb' =>
    (hv k hk).2 _ (by rw [hsh k hk]; exact valid_append hp (valid_rmr ha hv' hb'))
  have hout : y.batch ≠ some 0 := T.tan.wf.batch_pos
  obtain ⟨y', e', T', yb⟩ := deltasToTangent_ok F h hb hd hk (lo := none) (ro := none) hl hr hout hlen hsh
  obtain ⟨Y, eY, sY, vY⟩ := full_ok T.tan.wf
  obtain ⟨Y', eY', sY', vY'⟩ := full_ok T'.wf
  rw [show y.rawShape = x.rawShape from T.tan.rows.trans F.rl] at sY vY
  rw [show y'.rawShape = x.rawShape from T'.rows.trans F.rl, show y'.bpre = y.bpre by rw [TT.bpre, TT.bpre, yb]] at sY' vY'
  refine ⟨ds, y', Y, Y', e, hlen, hsh, fun p hp k h1 c hc b hb' => ?_, e', yb, eY, eY', sY'.trans sY.symm, fun i hi => ?_⟩
  · rw [← T.gauge p hp k h1 c hc b hb']
    refine Finset.sum_congr rfl fun a ha => Finset.sum_congr rfl fun n hn => ?_
    rw [hval k (by omega) p hp _ (unravel_valid (Finset.mem_range.1 hn)) a (Finset.mem_range.1 ha) b hb', TT.fl, F.ml, flat, blk]
    rfl
  · rw [sY'] at hi
    obtain ⟨p, i, rfl, hp, hi⟩ := valid_append_iff.1 hi
    have hmv := validModes_rest h hi
    rw [vY p i hp hi, vY' p i hp hi, T.tan.entry_vec F hp hmv, T'.entry_vec F (by rw [TT.bpre, yb]; exact hp) hmv]
    exact frameVec_congr fun k hk a ha b hb' => hval k hk p hp _ (hmv k hk) a ha b hb'

/-- C42: for a point with minimal ranks the hypotheses on the ranks hold. -/
theorem C42_minimal {qr : QRRoutine} (hqr : qr.Correct) {x : TT ℝ} (h : x.WF) (hb : x.batch = none) (hm : x.ModesPos) (hd : 2 ≤ x.ndims)
    (hmin : x.MinimalRanks) :
    ∃ left right, orthogonalize qr x true = Except.ok left ∧ orthogonalize qr left false = Except.ok right ∧
      (∀ k, 0 < k → k + 1 < x.ndims → right.rank k = left.rank k) ∧ left.rank (x.ndims - 1) ≤ right.rank (x.ndims - 1) + 1 ∧
      ∀ k ≤ x.ndims, left.rank k = x.rank k ∧ right.rank k = x.rank k := by
  obtain ⟨left, right, hl, hr, _, _, _⟩ := C40_minimal hqr h hb hm hd hmin
  obtain ⟨_, F⟩ := frame_of hqr h hb hm hl hr
  have hk := fun k hk => F.rank_eq h hb hmin (k := k) hk
  refine ⟨left, right, hl, hr, fun k _ h1 => ?_, ?_, hk⟩
  · rw [(hk k (by omega)).1, (hk k (by omega)).2]
  · rw [(hk _ (by omega)).1, (hk (x.ndims - 1) (by omega)).2]; omega

/-- A tensor with three modes of size two and ranks two. -/
def exTrain : TT ℤ where
  cores := [.ofList [1, 2, 2] [1, 2, 3, 4], .ofList [2, 2, 2] [1, 0, 2, 1, 0, 1, 3, 1], .ofList [2, 2, 1] [1, 1, 0, 2]]
  rawShape := [[2, 2, 2]]
  ttRanks := [1, 2, 2, 1]
  batch := none

theorem exTrain_wf : exTrain.toReal.WF := TT.WF.toReal (by decide)

example : ∃ (qr : QRRoutine) (left right : TT ℝ), qr.Correct ∧ exTrain.toReal.WF ∧ exTrain.toReal.batch = none ∧ exTrain.toReal.ModesPos ∧
    2 ≤ exTrain.toReal.ndims ∧ orthogonalize qr exTrain.toReal true = Except.ok left ∧ orthogonalize qr left false = Except.ok right ∧
    (∀ k, 0 < k → k + 1 < exTrain.toReal.ndims → right.rank k = left.rank k) ∧
    left.rank (exTrain.toReal.ndims - 1) ≤ right.rank (exTrain.toReal.ndims - 1) + 1 ∧
    ∃ deltas : List (Tensor ℝ), deltas.length = exTrain.toReal.ndims ∧ ∀ k < exTrain.toReal.ndims,
      (deltas.getD k default).shape = (some 2).toList ++ left.rank k :: (exTrain.toReal.modes k ++ [right.rank (k + 1)]) := by
  have hm : exTrain.toReal.ModesPos := by simp [TT.ModesPos, TT.toReal, exTrain]
  obtain ⟨qr, hqr⟩ := qrRoutine_exists
  obtain ⟨left, right, e, F⟩ := tangentFrame_ok hqr exTrain_wf rfl hm
  obtain ⟨h1, h2⟩ := tangentFrame_inv e
  have hl0 := F.l0
  have hl1 : left.rank 1 = 2 := by rw [F.kl 1 (by decide)]; rfl
  have hl2 : left.rank 2 = 2 := by rw [F.kl 2 (by decide)]; rfl
  have hr3 : right.rank 3 = 1 := F.rd
  have hr2 : right.rank 2 = 2 := by
    rw [F.kr 2 (by decide), rlRank_step _ _ (by decide), hl2]; rfl
  have hr1 : right.rank 1 = 2 := by
    rw [F.kr 1 (by decide), rlRank_step _ _ (by decide), ← F.kr 2 (by decide), hr2, hl1]; rfl
  have hn : exTrain.toReal.ndims = 3 := rfl
  refine ⟨qr, left, right, hqr, exTrain_wf, rfl, hm, by decide, h1, h2, fun k h0 h1 => ?_, ?_,
    [.ofList [2, 1, 2, 2] [], .ofList [2, 2, 2, 2] [], .ofList [2, 2, 2, 1] []], rfl, fun k hk => ?_⟩
  · obtain rfl : k = 1 := by omega
    rw [hl1, hr1]
  · rw [hn, hl2, hr2]; omega
  · rw [hn] at hk
    interval_cases k
    · rw [hl0, hr1]; rfl
    · rw [hl1, hr2]; rfl
    · rw [hl2, hr3]; rfl

/-- C42: if the ranks of the two orthogonalizations differ at a place other than the last one, `deltas_to_tangent_space` fails for all deltas of the right shapes
(the block of zeros has the ranks of `left` on both sides). -/
theorem C42_rank_error {qr : QRRoutine} (hqr : qr.Correct) {x left right : TT ℝ} (h : x.WF) (hb : x.batch = none) (hm : x.ModesPos) (hd : 2 ≤ x.ndims)
    (hl : orthogonalize qr x true = Except.ok left) (hr : orthogonalize qr left false = Except.ok right)
    (hk : ∃ k, 0 < k ∧ k + 1 < x.ndims ∧ right.rank k ≠ left.rank k) {out : Option ℕ} {deltas : List (Tensor ℝ)} (hlen : deltas.length = x.ndims)
    (hD : ∀ k < x.ndims, (deltas.getD k default).shape = out.toList ++ left.rank k :: (x.modes k ++ [right.rank (k + 1)])) :
    deltasToTangent qr deltas x none none = Except.error Err.tf := by
  obtain ⟨_, F⟩ := frame_of hqr h hb hm hl hr
  exact deltasToTangent_error F h hb hd hk (lo := none) (ro := none) hl hr hlen hD

/-- A tensor of shape `5 × 2 × 2` with ranks 5 and 2. -/
def exTall : TT ℤ where
  cores := [.ofList [1, 5, 5] [], .ofList [5, 2, 2] [1, 2, 3], .ofList [2, 2, 1] [1, 1, 0, 2]]
  rawShape := [[5, 2, 2]]
  ttRanks := [1, 5, 2, 1]
  batch := none

example : ∃ (qr : QRRoutine) (left right : TT ℝ), qr.Correct ∧ exTall.toReal.WF ∧ exTall.toReal.batch = none ∧ exTall.toReal.ModesPos ∧
    2 ≤ exTall.toReal.ndims ∧ orthogonalize qr exTall.toReal true = Except.ok left ∧ orthogonalize qr left false = Except.ok right ∧
    ∃ k, 0 < k ∧ k + 1 < exTall.toReal.ndims ∧ right.rank k ≠ left.rank k := by
  have hw : exTall.toReal.WF := TT.WF.toReal (by decide)
  have hm : exTall.toReal.ModesPos := by simp [TT.ModesPos, TT.toReal, exTall]
  obtain ⟨qr, hqr⟩ := qrRoutine_exists
  obtain ⟨left, right, e, F⟩ := tangentFrame_ok hqr hw rfl hm
  obtain ⟨h1, h2⟩ := tangentFrame_inv e
  refine ⟨qr, left, right, hqr, hw, rfl, hm, by decide, h1, h2, 1, by omega, by decide, ?_⟩
  have hl1 : left.rank 1 = 5 := by rw [F.kl 1 (by decide)]; rfl
  have hr2 : right.rank 2 ≤ 2 := by
    rw [F.kr 2 (by decide), rlRank_step _ _ (by decide)]
    exact min_le_left _ _
  have hr1 : right.rank 1 ≤ 2 * right.rank 2 := by
    rw [F.kr 1 (by decide), rlRank_step _ _ (by decide), ← F.kr 2 (by decide)]
    exact min_le_left _ _
  omega

/-- C42: `tangent_space_to_deltas` raises ValueError for objects that are not projections, and for odd ranks other than the last one. -/
theorem C42_errors (u : Projected) (hu : u.tt.WF) (hn : u.on = none ∨ ∃ k, 0 < k ∧ k + 1 < u.tt.ndims ∧ u.tt.rank k % 2 = 1) :
    tangentSpaceToDeltas u = Except.error Err.value := by
  unfold tangentSpaceToDeltas
  by_cases hon : u.on = none
  · rw [require_neg (by simp [hon])]; rfl
  · obtain ⟨k, h0, h1, h2⟩ := hn.resolve_left hon
    rw [require_pos (Option.isSome_iff_ne_none.2 hon), R.ok_bind]
    have : mapRange (u.tt.ndims - 2) (fun i => do
        let r ← pyGet u.tt.ttRanks (i + 1)
        require (r % 2 = 0) Err.value) = Except.error Err.value := by
      refine mapRange_error _ _ Err.value ⟨k - 1, by omega, ?_⟩ fun i hi => ?_
      · rw [hu.pyRank (by omega), R.ok_bind, show k - 1 + 1 = k by omega, require_neg (by omega)]
      · rw [hu.pyRank (by omega), R.ok_bind]
        by_cases hc : u.tt.rank (i + 1) % 2 = 0
        · exact Or.inl ⟨(), require_pos hc _⟩
        · exact Or.inr (require_neg hc _)
    simp only [this]
    rfl

example : exTall.toReal.WF ∧ ∃ k, 0 < k ∧ k + 1 < exTall.toReal.ndims ∧ exTall.toReal.rank k % 2 = 1 :=
  ⟨TT.WF.toReal (by decide), 1, by decide, by decide, rfl⟩

end T3f
