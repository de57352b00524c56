import Verif.Props.C37Project
import Verif.Spec.Projected
import Verif.Proofs.BatchOps

/-!
# C38: projection of a sum

`project_sum(what, where, weights)` in terms of the items of `project(what, where)` (C37). An object that is not a batch is treated as
a batch with one item.
-/

namespace T3f

theorem projectSum_expand (qr : QRRoutine) {z w x : TT ℝ} {n : ℕ} (e : expandBatchDim z = Except.ok w) (hb : w.batch = some n)
    (weights : Option (Tensor ℝ)) : projectSum qr z x weights = projectSum qr w x weights := by
  have : expandBatchDim w = Except.ok w := by simp [expandBatchDim, hb]
  unfold projectSum
  rw [e, this]

/-- C38: the result of `project_sum` is the weighted sum of the projections of the items. -/
theorem C38_project_sum {qr : QRRoutine} (hqr : qr.Correct) {x z : TT ℝ} (h : x.WF) (hb : x.batch = none) (hm : x.ModesPos) (hd : 2 ≤ x.ndims)
    (hz : z.WF) (hr : z.rawShape = x.rawShape) {weights : Option (Tensor ℝ)} {out : Option ℕ} {c : List ℕ → ℕ → ℝ}
    (hw : ProjWeights (z.batch.getD 1) weights out c) :
    ∃ y u Y U, projectSum qr z x weights = Except.ok y ∧ project qr z x = Except.ok u ∧ y.WF ∧ y.rawShape = x.rawShape ∧ y.batch = out ∧
      (∀ k, 0 < k → k < x.ndims → y.rank k ≤ 2 * x.rank k) ∧ full y = Except.ok Y ∧ full u = Except.ok U ∧
      Y.shape = out.toList ++ x.dense.shape ∧ U.shape = z.bpre ++ x.dense.shape ∧
      ∀ p i, Valid out.toList p → Valid x.dense.shape i →
        Y.get (p ++ i) = ∑ s ∈ Finset.range (z.batch.getD 1), c p s * U.get (z.bpre.map (fun _ => s) ++ i) := by
  obtain ⟨left, right, hF, F⟩ := tangentFrame_ok hqr h hb hm
  obtain ⟨w, n, ew, ww, bw, rw', kw, nw, hcase, hfl⟩ := expand_fl hz
  have hn : z.batch.getD 1 = n := by
    rcases hcase with ⟨e, _⟩ | ⟨e, e'⟩ <;> simp [e]
    exact e'.symm
  rw [hn] at hw ⊢
  have hc : (weights = none ∧ c = (fun _ _ => 1) ∨ (∃ wt, weights = some wt ∧ wt.shape = [n] ∧ c = fun _ s => wt.get [s]) ∨
      ∃ wt o, weights = some wt ∧ wt.shape = [n, o] ∧ 1 < o ∧ c = fun p s => wt.get (s :: p)) ∧ sumOutBatch weights = out := by
    cases hw with
    | ones => exact ⟨Or.inl ⟨rfl, rfl⟩, rfl⟩
    | vector wt h => exact ⟨Or.inr (Or.inl ⟨wt, rfl, h, rfl⟩), by simp [sumOutBatch, h]⟩
    | matrix wt o h ho => exact ⟨Or.inr (Or.inr ⟨wt, o, rfl, h, ho, rfl⟩), by simp [sumOutBatch, h, ho]⟩
  obtain ⟨y, D, e, T, hyb, hD⟩ := projectSum_ok h hb hd hF F ww bw (rw'.trans hr) weights c hc.1
  rw [hc.2] at hyb
  obtain ⟨u, E, e', T', hub, hE⟩ := project_ok h hb hd hF F hz hr
  have hyr : y.rawShape = x.rawShape := T.rows.trans F.rl
  have hur : u.rawShape = x.rawShape := T'.rows.trans F.rl
  obtain ⟨Y, eY, sY, vY⟩ := full_ok T.wf
  obtain ⟨U, eU, sU, vU⟩ := full_ok T'.wf
  have hyp : y.bpre = out.toList := by simp [TT.bpre, hyb]
  have hup : u.bpre = z.bpre := by simp [TT.bpre, hub]
  rw [hyr, hyp] at sY vY
  rw [hur, hup] at sU vU
  refine ⟨y, u, Y, U, (projectSum_expand qr ew bw weights).trans e, e', T.wf, hyr, hyb, fun k h1 h2 => ?_, eY, eU, ?_, ?_, fun p i hp hi => ?_⟩
  · have hk := T.rank k (by rw [F.nl]; omega)
    rw [F.nl, addRk, if_neg (by omega)] at hk
    have l1 := F.le_left h h2.le
    have l2 := F.le_right h h2.le
    omega
  · rw [sY, dense_shape_single hb]
  · rw [sU, dense_shape_single hb]
  · rw [dense_shape_single hb] at hi
    have hmv := validModes_rest h hi
    rw [vY p i hp hi, T.entry_vec F (by rw [hyp]; exact hp) hmv]
    have hs : ∀ s ∈ Finset.range n, Valid z.bpre (z.bpre.map fun _ => s) := by
      intro s hs
      have hs := Finset.mem_range.1 hs
      rcases hcase with ⟨e, _⟩ | ⟨e, _⟩
      · simp [TT.bpre, e, hs]
      · simp [TT.bpre, e]
    rw [Finset.sum_congr rfl fun s hs' => by
      rw [vU _ i (hs s hs') hi, T'.entry_vec F (by rw [hup]; exact hs s hs') hmv, ← frameVec_smul]]
    rw [← frameVec_sum (Finset.range n) (fun s k v a b => c p s * (E k).get ((z.bpre.map fun _ => s) ++ a :: (v ++ [b])))]
    refine frameVec_congr fun k hk a ha b hb' => ?_
    have hmk := hmv k hk
    have hr1 := unravel_ravel hmk
    have hD' := hD k hk p (by rw [hyp]; exact hp) (ravel (x.modes k) (restModes x.rawShape i k)) (ravel_lt hmk) a ha b hb'
    rw [hr1] at hD'
    rw [hD']
    refine Finset.sum_congr rfl fun s hs' => ?_
    have hE' := hE k hk _ (hs s hs') (ravel (x.modes k) (restModes x.rawShape i k)) (ravel_lt hmk) a ha b hb'
    rw [hr1] at hE'
    rw [hE']
    congr 1
    have hfs : w.fl [s] = z.fl (z.bpre.map fun _ => s) := by
      rcases hcase with ⟨e, rfl⟩ | ⟨e, _⟩
      · simp [TT.bpre, e]
      · have := (hfl s).resolve_right (by simp [e])
        rw [this]
        simp [TT.bpre, e, bproj]
    rw [tBlock, tBlock, kw, hfs]

example : exEye2.toReal.WF ∧ exEye2.toReal.ModesPos ∧ exPair2.toReal.WF ∧ exPair2.toReal.rawShape = exEye2.toReal.rawShape ∧
    ProjWeights (exPair2.toReal.batch.getD 1) none none (fun _ _ => 1) ∧
    ProjWeights (exPair2.toReal.batch.getD 1) (some ⟨[2], fun i => i.getD 0 0⟩) none (fun _ s => s) ∧
    ProjWeights (exPair2.toReal.batch.getD 1) (some ⟨[2, 3], fun i => i.getD 0 0 + i.getD 1 0⟩) (some 3) (fun p s => s + p.getD 0 0) :=
  ⟨exEye2_wf, by simp [TT.ModesPos, TT.toReal, exEye2], exPair2_wf, rfl, .ones, .vector ⟨[2], fun i => i.getD 0 0⟩ rfl,
    .matrix ⟨[2, 3], fun i => i.getD 0 0 + i.getD 1 0⟩ 3 rfl (by omega)⟩

/-- C38: all other weights are an error, in particular a matrix with one column. -/
theorem C38_weights_error {qr : QRRoutine} (hqr : qr.Correct) {x z : TT ℝ} (h : x.WF) (hb : x.batch = none) (hm : x.ModesPos)
    (hz : z.WF) (hr : z.rawShape = x.rawShape) {wt : Tensor ℝ} (h1 : wt.shape ≠ [z.batch.getD 1]) (h2 : ∀ o, 1 < o → wt.shape ≠ [z.batch.getD 1, o]) :
    projectSum qr z x (some wt) = Except.error Err.tf := by
  obtain ⟨left, right, hF, F⟩ := tangentFrame_ok hqr h hb hm
  obtain ⟨w, n, ew, ww, bw, rw', kw, nw, hcase, hfl⟩ := expand_fl hz
  have hn : z.batch.getD 1 = n := by
    rcases hcase with ⟨e, _⟩ | ⟨e, e'⟩ <;> simp [e]
    exact e'.symm
  rw [hn] at h1 h2
  have P : PSetup x left right w n := ⟨F, h, ww, bw, rw'.trans hr, nw.trans (ndims_of_rows hz h hr)⟩
  have hpos := h.pos
  obtain ⟨rhs, er, lr, hR⟩ := P.rhs_ok hpos
  obtain ⟨lhs, el, ll, hL⟩ := P.lhs_ok hpos
  have hbs : w.lazyBatchSize = Except.ok n := by simp [TT.lazyBatchSize, bw]
  obtain ⟨⟨E, e, s, v⟩, -⟩ := P.block_ok ll lr hL hR hpos
  have hfail : projectSumBlock (modeLabels x) (some wt) lhs rhs x.ndims 0 (w.core 0) (left.core 0) = Except.error Err.tf := by
    unfold projectSumBlock
    simp only [e, R.ok_bind]
    refine if_neg ?_
    rintro ⟨g1, g2, -⟩
    rcases hws : wt.shape with _ | ⟨a, _ | ⟨b, _ | ⟨c, l⟩⟩⟩
    · simp [hws] at g1
    · have := g2 ('s', n) (by
        refine List.mem_flatten.2 ⟨_, List.mem_cons_of_mem _ (List.mem_cons_self ..), ?_⟩
        simp [s])
      simp [einDims, hws] at this
      exact h1 (by rw [hws, this])
    · by_cases hb1 : 1 < b
      · have hso : sumOutBatch (some wt) = some b := by simp [sumOutBatch, hws, hb1]
        rw [hso] at g2
        have := g2 ('s', n) (by
          refine List.mem_flatten.2 ⟨_, List.mem_cons_of_mem _ (List.mem_cons_self ..), ?_⟩
          simp [s])
        simp [einDims, hws] at this
        exact h2 b hb1 (by rw [hws, this])
      · have hso : sumOutBatch (some wt) = none := by simp [sumOutBatch, hws, hb1]
        rw [hso] at g1
        simp [hws, bLabel] at g1
    · cases hso : sumOutBatch (some wt) <;> rw [hso] at g1 <;> simp [hws, bLabel] at g1
  rw [projectSum_expand qr ew bw]
  unfold projectSum projectChecks
  rw [show expandBatchDim w = Except.ok w by simp [expandBatchDim, bw], R.ok_bind, require_pos hb, require_pos (rw'.trans hr).symm, hF]
  simp only [R.ok_bind, hbs, er, el]
  rw [mapRange_first_error x.ndims 0 _ Err.tf hpos (fun i hi => by omega) (by
    simp only [P.cw hpos, F.cl hpos, F.cr hpos, R.ok_bind, hfail]; rfl)]
  rfl

example : exEye2.toReal.WF ∧ exPair2.toReal.WF ∧ (⟨[2, 1], fun _ => 1⟩ : Tensor ℝ).shape ≠ [exPair2.toReal.batch.getD 1] ∧
    ∀ o, 1 < o → (⟨[2, 1], fun _ => 1⟩ : Tensor ℝ).shape ≠ [exPair2.toReal.batch.getD 1, o] :=
  ⟨exEye2_wf, exPair2_wf, by simp, fun o ho => by simp; omega⟩

end T3f
