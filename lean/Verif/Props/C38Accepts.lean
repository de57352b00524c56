import Verif.Props.C38ProjectSum
import Verif.Proofs.ProjectProps
import Verif.Props.C11Inner

/-! # C38: exactly which calls of `project_sum` succeed -/

namespace T3f

theorem projectSum_one_dim {qr : QRRoutine} (hqr : qr.Correct) {x z : TT ℝ} (h : x.WF) (hb : x.batch = none) (hm : x.ModesPos) (hd : x.ndims = 1)
    (hz : z.WF) (hr : z.rawShape = x.rawShape) {weights : Option (Tensor ℝ)} {out : Option ℕ} {c : List ℕ → ℕ → ℝ}
    (hw : ProjWeights (z.batch.getD 1) weights out c) : projectSum qr z x weights = Except.error Err.value := by
  obtain ⟨left, right, hF, F⟩ := tangentFrame_ok hqr h hb hm
  obtain ⟨w, n, ew, ww, bw, rw', kw, nw, hcase, hfl⟩ := expand_fl hz
  have hn : z.batch.getD 1 = n := by
    rcases hcase with ⟨e, _⟩ | ⟨e, e'⟩ <;> simp [e]
    exact e'.symm
  rw [hn] at hw
  have P : PSetup x left right w n := ⟨F, h, ww, bw, rw'.trans hr, nw.trans (ndims_of_rows hz h hr)⟩
  have hpos := h.pos
  obtain ⟨rhs, er, lr, hR⟩ := P.rhs_ok hpos
  obtain ⟨lhs, el, ll, hL⟩ := P.lhs_ok hpos
  have hbs : w.lazyBatchSize = Except.ok n := by simp [TT.lazyBatchSize, bw]
  obtain ⟨E, e, s, hout⟩ : ∃ E, projectSumBlock (modeLabels x) weights lhs rhs x.ndims 0 (w.core 0) (left.core 0) = Except.ok E ∧
      E.shape = out.toList ++ left.rank 0 :: (x.modes 0 ++ [right.rank (0 + 1)]) ∧ sumOutBatch weights = out := by
    obtain ⟨⟨E, e, s, v⟩, ⟨E', e', s', v'⟩⟩ := P.block_ok ll lr hL hR hpos
    cases hw with
    | ones => exact ⟨E', e', s', rfl⟩
    | vector wt hs =>
      have hout : sumOutBatch (some wt) = none := by simp [sumOutBatch, hs]
      obtain ⟨E2, e2, s2, v2⟩ := weightEin1 (P.ax 0) hs s
      refine ⟨E2, ?_, s2, hout⟩
      unfold projectSumBlock
      simp only [hout, bLabel, e, R.ok_bind]
      exact e2
    | matrix wt o hs ho =>
      have hout : sumOutBatch (some wt) = some o := by simp [sumOutBatch, hs, ho]
      obtain ⟨E2, e2, s2, v2⟩ := weightEin2 (P.ax 0) hs s
      refine ⟨E2, ?_, s2, hout⟩
      unfold projectSumBlock
      simp only [hout, bLabel, e, R.ok_bind]
      exact e2
  obtain ⟨axL, axR⟩ := rankDims x h
  have ho : (if out.isSome then 1 else 0) = out.toList.length := by cases out <;> rfl
  rw [hb] at axR
  obtain ⟨elc, erc, C, e1, e2, e3, e4⟩ := assemble_single F h hd (isMat := x.isMatrix) Iff.rfl out s (zeroBlockShape x left right out 0)
    (axL := x.leftRankDim + out.toList.length) (axR := x.rightRankDim + out.toList.length) (by rw [axR]; simp; omega)
  rw [projectSum_expand qr ew bw]
  unfold projectSum projectChecks
  rw [show expandBatchDim w = Except.ok w by simp [expandBatchDim, bw], R.ok_bind, require_pos hb, require_pos (rw'.trans hr).symm, hF]
  simp only [R.ok_bind, hbs, er, el, hout, ho]
  rw [show (mapRange x.ndims) = mapRange 1 by rw [hd]]
  rw [← e4]
  simp only [mapRange, List.range_one, List.mapM_cons, List.mapM_nil, bind_assoc, pure_bind]
  rw [P.cw hpos, F.cl hpos, F.cr hpos]
  simp only [R.ok_bind, e, e1, e2, e3]

/-- C37: `project(z, x)` succeeds exactly if `x` is a single object with at least two cores and the raw shapes agree. -/
theorem C37_iff {qr : QRRoutine} (hqr : qr.Correct) {x z : TT ℝ} (h : x.WF) (hm : x.ModesPos) (hz : z.WF) :
    (∃ y, project qr z x = Except.ok y) ↔ x.batch = none ∧ 2 ≤ x.ndims ∧ z.rawShape = x.rawShape := by
  have hpos := h.pos
  constructor
  · rintro ⟨y, e⟩
    by_contra hn
    rw [C37_errors hqr h hm hz (by
      by_contra hn'
      push Not at hn'
      obtain ⟨h1, h2, h3⟩ := hn'
      exact hn ⟨by simpa [TT.isBatch] using h1, by omega, h2⟩)] at e
    cases e
  · rintro ⟨hb, hd, hr⟩
    obtain ⟨T, -, hT⟩ := C37_project_any hqr h hb hm hd
    obtain ⟨y, -, -, e, -⟩ := hT z hz hr
    exact ⟨y, e⟩

/-- C38: a batch as `where`, different raw shapes, and objects with one core (for weights that are accepted otherwise) raise ValueError. -/
theorem C38_errors {qr : QRRoutine} (hqr : qr.Correct) {x z : TT ℝ} (h : x.WF) (hm : x.ModesPos) (hz : z.WF) {weights : Option (Tensor ℝ)} :
    (x.isBatch ∨ z.rawShape ≠ x.rawShape → projectSum qr z x weights = Except.error Err.value) ∧
    ∀ {out : Option ℕ} {c : List ℕ → ℕ → ℝ}, ProjWeights (z.batch.getD 1) weights out c → x.ndims = 1 →
      projectSum qr z x weights = Except.error Err.value := by
  have h1 : x.isBatch ∨ z.rawShape ≠ x.rawShape → projectSum qr z x weights = Except.error Err.value := by
    intro he
    obtain ⟨w, n, ew, ww, bw, rw', kw, nw, hcase, hfl⟩ := expand_fl hz
    unfold projectSum projectChecks
    rw [ew, R.ok_bind]
    by_cases hb : x.batch = none
    · rcases he with he | he
      · simp [TT.isBatch, hb] at he
      · rw [require_pos hb, require_neg (fun e => he (rw'.symm.trans e.symm))]; rfl
    · rw [require_neg hb]; rfl
  refine ⟨h1, fun hw hd => ?_⟩
  by_cases hb : x.batch = none
  swap
  · exact h1 (Or.inl (by simpa [TT.isBatch] using Option.isSome_iff_ne_none.2 hb))
  by_cases hr : z.rawShape = x.rawShape
  swap
  · exact h1 (Or.inr hr)
  exact projectSum_one_dim hqr h hb hm hd hz hr hw

example : exSquare.toReal.WF ∧ exSquare.toReal.ModesPos ∧ exSquare.toReal.ndims = 1 ∧
    ProjWeights (exSquare.toReal.batch.getD 1) none none (fun _ _ => 1) :=
  ⟨TT.WF.toReal (by decide), by simp [TT.ModesPos, TT.toReal, exSquare], rfl, .ones⟩

/-- C38: `project_sum(z, x, weights)` succeeds exactly if `x` is a single object with at least two cores, the raw shapes agree and there are no weights, a
vector with one weight for each item, or a matrix with a row for each item and at least two columns. -/
theorem C38_iff {qr : QRRoutine} (hqr : qr.Correct) {x z : TT ℝ} (h : x.WF) (hm : x.ModesPos) (hz : z.WF) {weights : Option (Tensor ℝ)} :
    (∃ y, projectSum qr z x weights = Except.ok y) ↔ x.batch = none ∧ 2 ≤ x.ndims ∧ z.rawShape = x.rawShape ∧
      ∀ wt, weights = some wt → wt.shape = [z.batch.getD 1] ∨ ∃ o, 1 < o ∧ wt.shape = [z.batch.getD 1, o] := by
  have hpos := h.pos
  have acc : (∀ wt, weights = some wt → wt.shape = [z.batch.getD 1] ∨ ∃ o, 1 < o ∧ wt.shape = [z.batch.getD 1, o]) →
      ∃ out c, ProjWeights (z.batch.getD 1) weights out c := by
    intro hw
    cases weights with
    | none => exact ⟨_, _, .ones⟩
    | some wt =>
      rcases hw wt rfl with h | ⟨o, ho, h⟩
      · exact ⟨_, _, .vector wt h⟩
      · exact ⟨_, _, .matrix wt o h ho⟩
  constructor
  · rintro ⟨y, e⟩
    obtain ⟨E1, E2⟩ := C38_errors hqr h hm hz (weights := weights)
    have hb : x.batch = none := by
      by_contra hb
      rw [E1 (Or.inl (by simpa [TT.isBatch] using Option.isSome_iff_ne_none.2 hb))] at e
      cases e
    have hr : z.rawShape = x.rawShape := by
      by_contra hr
      rw [E1 (Or.inr hr)] at e
      cases e
    have hw : ∀ wt, weights = some wt → wt.shape = [z.batch.getD 1] ∨ ∃ o, 1 < o ∧ wt.shape = [z.batch.getD 1, o] := by
      rintro wt rfl
      by_contra hn
      push Not at hn
      rw [C38_weights_error hqr h hb hm hz hr hn.1 hn.2] at e
      cases e
    refine ⟨hb, ?_, hr, hw⟩
    by_contra hd
    obtain ⟨out, c, hw⟩ := acc hw
    rw [E2 hw (by omega)] at e
    cases e
  · rintro ⟨hb, hd, hr, hw⟩
    obtain ⟨out, c, hw⟩ := acc hw
    obtain ⟨y, -, -, -, e, -⟩ := C38_project_sum hqr h hb hm hd hz hr hw
    exact ⟨y, e⟩

example : exEye2.toReal.WF ∧ exEye2.toReal.ModesPos ∧ exPair2.toReal.WF :=
  ⟨exEye2_wf, by simp [TT.ModesPos, TT.toReal, exEye2], exPair2_wf⟩

end T3f
