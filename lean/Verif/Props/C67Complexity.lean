import Verif.Proofs.CostMatmul
import Verif.Proofs.CostTangentLower
import Verif.Props.C66Complexity
import Verif.Props.C37Project
import Verif.Props.C38ProjectSum
import Verif.Props.C39ProjectMatmul
import Verif.Props.C41Pairwise

/-!
# C67: the documented complexity of orthogonalization and of projections on the tangent space

A multiplication, a subtraction and a comparison of entries count as one operation each; see `Tf/Cost.lean` and `Tf/CostLinalg.lean`.
-/

namespace T3f

/-- Counting does not change the results and the errors, whatever the arguments, the contraction strategy and the QR routine. -/
theorem C67_values (S : Strategy) (qr : QRRoutine) (x z A : TT ℝ) (b : Bool) (w : Option (Tensor ℝ)) (u v : Projected) :
    (orthogonalizeC qr x b).value = orthogonalize qr x b ∧ (projectC S qr z x).value = project qr z x ∧
    (projectSumC S qr z x w).value = projectSum qr z x w ∧ (projectMatmulC S qr z x A).value = projectMatmul qr z x A ∧
    (pairwiseProjectedC S u v).value = pairwiseProjected u v :=
  ⟨value_orthogonalizeC qr x b, value_projectC S qr z x, value_projectSumC S qr z x w, value_projectMatmulC S qr z x A,
    value_pairwiseProjectedC S u v⟩

/-! ## Orthogonalization -/

/-- `orthogonalize_tt_cores` of a tensor (or a batch of `B` elements) with TT-ranks of at most `r` and cores with at most `n` matrices: at most
`2 B d r³ n` operations. -/
theorem C67_orthogonalize {qr : QRRoutine} (hqr : qr.Correct) {t : TT ℝ} (h : t.WF) (hm : t.ModesPos) {r n : ℕ}
    (hr : ∀ k ≤ t.ndims, t.rank k ≤ r) (hn : ∀ k < t.ndims, (t.modes k).prod ≤ n) (leftToRight : Bool)
    (hb : leftToRight = false → t.batch = none) :
    ∃ o c, (orthogonalizeC qr t leftToRight).run = Except.ok (o, c) ∧ orthogonalize qr t leftToRight = Except.ok o ∧
      c ≤ 2 * (t.batch.getD 1 * t.ndims * r ^ 3 * n) := by
  cases leftToRight with
  | true =>
    obtain ⟨o, e, -⟩ := orthoLR_ok hqr h hm
    obtain ⟨c, hc, hle⟩ := (orthoLRC_le hqr h hr hn).result (value_orthoLRC qr t) e
    exact ⟨o, c, by simpa [orthogonalizeC] using hc, by simpa [orthogonalize] using e, hle⟩
  | false =>
    have hb := hb rfl
    obtain ⟨o, e, -⟩ := orthoRL_ok hqr h hb hm
    obtain ⟨c, hc, hle⟩ := (orthoRLC_le hqr h hb hm hr hn).result (value_orthoRLC qr t) e
    have hb' : ¬ t.isBatch := by simp [TT.isBatch, hb]
    exact ⟨o, c, by simpa [orthogonalizeC, hb'] using hc, by simpa [orthogonalize, hb'] using e, by simpa [hb] using hle⟩

example : (∃ qr : QRRoutine, qr.Correct) ∧ exPair2.toReal.WF ∧ exPair2.toReal.ModesPos ∧ exPair2.toReal.batch = some 2 ∧
    exEye2.toReal.WF ∧ exEye2.toReal.ModesPos ∧ exEye2.toReal.batch = none ∧ (∀ k ≤ exEye2.toReal.ndims, exEye2.toReal.rank k ≤ 2) ∧
    (∀ k < exEye2.toReal.ndims, (exEye2.toReal.modes k).prod ≤ 2) :=
  ⟨qrRoutine_exists, exPair2_wf, by simp [TT.ModesPos, TT.toReal, exPair2], rfl, exEye2_wf, by simp [TT.ModesPos, TT.toReal, exEye2], rfl,
    show ∀ k ≤ exEye2.ndims, exEye2.rank k ≤ 2 by decide, show ∀ k < exEye2.ndims, (exEye2.modes k).prod ≤ 2 by decide⟩

/-! ## Projections -/

section
variable {S : Strategy} {κ : ℕ} (hS : S.Within κ) {qr : QRRoutine} (hqr : qr.Correct) {x z : TT ℝ} (h : x.WF) (hb : x.batch = none)
  (hm : x.ModesPos) (hd : 2 ≤ x.ndims) (hz : z.WF) (hr : z.rawShape = x.rawShape) {r q n : ℕ} (h1 : ∀ k ≤ x.ndims, x.rank k ≤ r)
  (h2 : ∀ k ≤ z.ndims, z.rank k ≤ q) (h3 : ∀ k < x.ndims, (x.modes k).prod ≤ n)
include hS hqr h hb hm hd hz hr h1 h2 h3

/-- `project(what, where)` with contraction orders that are at most `κ` times as expensive as the best: at most
`4 d r_where³ n + (2 κ + 2) B d r_what r_where n (r_what + r_where)` operations. -/
theorem C67_project :
    ∃ y c, (projectC S qr z x).run = Except.ok (y, c) ∧ project qr z x = Except.ok y ∧
      c ≤ 4 * (x.ndims * r ^ 3 * n) + (2 * κ + 2) * (z.batch.getD 1 * x.ndims * q * r * n * (q + r)) := by
  obtain ⟨left, right, hF, F⟩ := tangentFrame_ok hqr h hb hm
  obtain ⟨y, -, e, -⟩ := project_ok h hb hd hF F hz hr
  obtain ⟨c, hc, hle⟩ := (projectC_le hS hqr h hb hm hz hr h1 h2 h3).result (value_projectC S qr z x) e
  exact ⟨y, c, hc, e, hle⟩

/-- `project_sum(what, where)` without weights: the same bound. -/
theorem C67_project_sum :
    ∃ y c, (projectSumC S qr z x none).run = Except.ok (y, c) ∧ projectSum qr z x none = Except.ok y ∧
      c ≤ 4 * (x.ndims * r ^ 3 * n) + (2 * κ + 2) * (z.batch.getD 1 * x.ndims * q * r * n * (q + r)) := by
  obtain ⟨y, -, -, -, e, -⟩ := C38_project_sum hqr h hb hm hd hz hr (.ones)
  obtain ⟨c, hc, hle⟩ := (projectSumC_le hS hqr h hb hm hz hr none 0 (Or.inl ⟨rfl, rfl⟩) h1 h2 h3).result (value_projectSumC S qr z x none) e
  exact ⟨y, c, hc, e, by simpa using hle⟩

/-- `project_sum(what, where, weights)`: with weights, `B o d r_where² n` operations more, where `o` is the number of columns of the weights
(one for a vector). -/
theorem C67_project_sum_weights {wt : Tensor ℝ} {out : Option ℕ} {c : List ℕ → ℕ → ℝ} (hw : ProjWeights (z.batch.getD 1) (some wt) out c) :
    ∃ y c, (projectSumC S qr z x (some wt)).run = Except.ok (y, c) ∧ projectSum qr z x (some wt) = Except.ok y ∧
      c ≤ 4 * (x.ndims * r ^ 3 * n) + (2 * κ + 2) * (z.batch.getD 1 * x.ndims * q * r * n * (q + r)) +
        z.batch.getD 1 * out.getD 1 * x.ndims * r ^ 2 * n := by
  obtain ⟨y, -, -, -, e, -⟩ := C38_project_sum hqr h hb hm hd hz hr hw
  obtain ⟨c, hc, hle⟩ := (projectSumC_le hS hqr h hb hm hz hr (some wt) (out.getD 1) (by
    cases hw with
    | vector _ hs => exact Or.inr (Or.inl ⟨wt, rfl, hs, rfl⟩)
    | matrix _ o hs ho => exact Or.inr (Or.inr ⟨wt, rfl, hs, ho⟩)) h1 h2 h3).result (value_projectSumC S qr z x (some wt)) e
  exact ⟨y, c, hc, e, hle⟩

end

example : (∃ S : Strategy, S.Within 1) ∧ (∃ qr : QRRoutine, qr.Correct) ∧ exEye2.toReal.WF ∧ exEye2.toReal.batch = none ∧ exEye2.toReal.ModesPos ∧
    2 ≤ exEye2.toReal.ndims ∧ exPair2.toReal.WF ∧ exPair2.toReal.rawShape = exEye2.toReal.rawShape ∧
    (∀ k ≤ exEye2.toReal.ndims, exEye2.toReal.rank k ≤ 2) ∧ (∀ k ≤ exPair2.toReal.ndims, exPair2.toReal.rank k ≤ 2) ∧
    (∀ k < exEye2.toReal.ndims, (exEye2.toReal.modes k).prod ≤ 2) ∧
    ProjWeights (exPair2.toReal.batch.getD 1) (some ⟨[2, 3], fun i => i.getD 0 0 + i.getD 1 0⟩) (some 3) (fun p s => s + p.getD 0 0) :=
  ⟨C66_best_order, qrRoutine_exists, exEye2_wf, rfl, by simp [TT.ModesPos, TT.toReal, exEye2], le_rfl, exPair2_wf, rfl,
    show ∀ k ≤ exEye2.ndims, exEye2.rank k ≤ 2 by decide, show ∀ k ≤ exPair2.ndims, exPair2.rank k ≤ 2 by decide,
    show ∀ k < exEye2.ndims, (exEye2.modes k).prod ≤ 2 by decide, .matrix ⟨[2, 3], fun i => i.getD 0 0 + i.getD 1 0⟩ 3 rfl (by omega)⟩

/-- `project_matmul(what, where, matrix)` for a batch of `B` matrices of `m1 ⋯ md` rows and `l1 ⋯ ld` columns (one for TT-vectors): at most
`4 d r_where³ m l + (3 κ + 2) B d R r_what r_where l (m r_what + m m R + m r_where)` operations. -/
theorem C67_project_matmul {S : Strategy} {κ : ℕ} (hS : S.Within κ) {qr : QRRoutine} (hqr : qr.Correct) {x z A : TT ℝ} {B : ℕ} {I L : List ℕ}
    (h : x.WF) (hb : x.batch = none) (hm : x.ModesPos) (hd : 2 ≤ x.ndims) (hx : x.rawShape = [I, L]) (hz : z.WF) (hzb : z.batch = some B)
    (hzr : z.rawShape = [I, L]) (hA : A.WF) (hAb : A.batch = none) (hAr : A.rawShape = [I, I]) {r q R m l : ℕ}
    (h1 : ∀ k ≤ x.ndims, x.rank k ≤ r) (h2 : ∀ k ≤ z.ndims, z.rank k ≤ q) (h3 : ∀ k ≤ A.ndims, A.rank k ≤ R)
    (h4 : ∀ k < x.ndims, I.getD k 0 ≤ m) (h5 : ∀ k < x.ndims, L.getD k 0 ≤ l) :
    ∃ y c, (projectMatmulC S qr z x A).run = Except.ok (y, c) ∧ projectMatmul qr z x A = Except.ok y ∧
      c ≤ 4 * (x.ndims * r ^ 3 * (m * l)) + (3 * κ + 2) * (B * x.ndims * R * q * r * l * (m * q + m * m * R + m * r)) := by
  obtain ⟨y, -, -, -, -, e, -⟩ := C39_project_matmul hqr h hb hm hd hx hz hzb hzr hA hAb hAr
  obtain ⟨c, hc, hle⟩ := (projectMatmulC_le hS hqr h hb hm hA hAb hAr hz hzb hzr hx h1 h2 h3 h4 h5).result (value_projectMatmulC S qr z x A) e
  exact ⟨y, c, hc, e, hle.trans (le_of_eq (by ring))⟩

example : exMatrix.toReal.WF ∧ exMatrix.toReal.batch = none ∧ exMatrix.toReal.ModesPos ∧ 2 ≤ exMatrix.toReal.ndims ∧
    exMatrix.toReal.rawShape = [[2, 2], [1, 2]] ∧ exMatBatch.toReal.WF ∧ exMatBatch.toReal.batch = some 2 ∧
    exMatBatch.toReal.rawShape = [[2, 2], [1, 2]] ∧ exMatSquare.toReal.WF ∧ exMatSquare.toReal.batch = none ∧
    exMatSquare.toReal.rawShape = [[2, 2], [2, 2]] ∧ (∀ k ≤ exMatrix.toReal.ndims, exMatrix.toReal.rank k ≤ 2) ∧
    (∀ k < exMatrix.toReal.ndims, ([2, 2] : List ℕ).getD k 0 ≤ 2) :=
  ⟨TT.WF.toReal (by decide), rfl, by simp [TT.ModesPos, TT.toReal, exMatrix], by decide, rfl, TT.WF.toReal (by decide), rfl, rfl,
    TT.WF.toReal (by decide), rfl, rfl, show ∀ k ≤ exMatrix.ndims, exMatrix.rank k ≤ 2 by decide,
    show ∀ k < exMatrix.ndims, ([2, 2] : List ℕ).getD k 0 ≤ 2 by decide⟩

/-- `pairwise_flat_inner_projected` of batches of `B1` and `B2` elements on the same tangent space: at most `3 B1 B2 d r² n` operations, whatever the
contraction order, where the TT-ranks of the projections are at most `r`. -/
theorem C67_pairwise_projected {S : Strategy} (hS : S.Valid) {u v : TT ℝ} (hu : u.WF) (hv : v.WF) (hr : v.rawShape = u.rawShape)
    (hrk : ∀ k ≤ u.ndims, v.rank k = u.rank k) (o : ℕ) {r n : ℕ} (h1 : ∀ k ≤ u.ndims, u.rank k ≤ r)
    (h2 : ∀ k < u.ndims, (u.modes k).prod ≤ n) (hn : 1 ≤ n) :
    ∃ G c, (pairwiseProjectedC S ⟨u, some o⟩ ⟨v, some o⟩).run = Except.ok (G, c) ∧ pairwiseProjected ⟨u, some o⟩ ⟨v, some o⟩ = Except.ok G ∧
      c ≤ 3 * (u.batch.getD 1 * v.batch.getD 1 * u.ndims * r ^ 2 * n) := by
  obtain ⟨G, c, e, hc⟩ := pairwiseProjectedC_le hS hu hv hr hrk o h1 h2 hn
  exact ⟨G, c, e, run_value (value_pairwiseProjectedC S _ _) e, hc⟩

example : ∃ (qr : QRRoutine) (y : TT ℝ), project qr exPair2.toReal exEye2.toReal = Except.ok y ∧ y.WF ∧ y.batch = some 2 ∧
    greedy.Valid ∧ y.rawShape = [[2, 2]] := by
  obtain ⟨qr, hqr⟩ := qrRoutine_exists
  obtain ⟨y, _, _, e, w, rs, yb, _⟩ := C37_project hqr exEye2_wf rfl (by simp [TT.ModesPos, TT.toReal, exEye2]) le_rfl exEye2_minimal
    exEye2_nonzero exPair2_wf rfl
  exact ⟨qr, y, e, w, yb, C66_greedy_valid, rs⟩

/-! ## Where the documentation is wrong -/

/-- A matrix of weights with `o` columns: `project_sum` needs at least `B o n` operations for a core with `n` matrices, whatever the contraction order. -/
theorem C67_project_sum_columns {S : Strategy} (hS : S.Valid) {qr : QRRoutine} (hqr : qr.Correct) {x z : TT ℝ} (h : x.WF) (hb : x.batch = none)
    (hm : x.ModesPos) (hd : 2 ≤ x.ndims) (hz : z.WF) (hr : z.rawShape = x.rawShape) {wt : Tensor ℝ} {o : ℕ}
    (hw : wt.shape = [z.batch.getD 1, o]) (ho : 1 < o) {k : ℕ} (hk : k < x.ndims) :
    ∃ y c, (projectSumC S qr z x (some wt)).run = Except.ok (y, c) ∧ projectSum qr z x (some wt) = Except.ok y ∧
      z.batch.getD 1 * o * (x.modes k).prod ≤ c := by
  obtain ⟨y, -, -, -, e, -⟩ := C38_project_sum hqr h hb hm hd hz hr (.matrix wt o hw ho)
  obtain ⟨c, hc, hle⟩ := (projectSumC_ge hS hqr h hb hm hz hr hw ho hk).result (value_projectSumC S qr z x (some wt)) e
  exact ⟨y, c, hc, e, hle⟩

/-- The documented complexity of `project_sum` depends on the arguments `what` and `where` only. That is wrong, whatever the contraction order: for all
`what` and `where` and every bound `W`, there are weights such that more than `W` operations are needed. -/
theorem C67_project_sum_documented_false {S : Strategy} (hS : S.Valid) {qr : QRRoutine} (hqr : qr.Correct) {x z : TT ℝ} (h : x.WF)
    (hb : x.batch = none) (hm : x.ModesPos) (hd : 2 ≤ x.ndims) (hz : z.WF) (hr : z.rawShape = x.rawShape) (W : ℕ) :
    ∃ (wt : Tensor ℝ) (y : TT ℝ) (c : ℕ), (projectSumC S qr z x (some wt)).run = Except.ok (y, c) ∧
      projectSum qr z x (some wt) = Except.ok y ∧ W < c := by
  obtain ⟨y, c, e, v, hc⟩ := C67_project_sum_columns hS hqr h hb hm hd hz hr (wt := zeros [z.batch.getD 1, W + 2]) (o := W + 2) rfl (by omega)
    (k := 0) (by omega)
  refine ⟨_, y, c, e, v, lt_of_lt_of_le ?_ hc⟩
  have hB : 0 < z.batch.getD 1 := by
    rcases hzb : z.batch with _ | B
    · simp
    · exact Nat.pos_of_ne_zero fun h0 => hz.batch_pos (by rw [hzb]; exact congrArg some h0)
  have hN : 0 < (x.modes 0).prod := modes_pos h hm (by omega)
  calc W < W + 2 := by omega
    _ = 1 * (W + 2) * 1 := by ring
    _ ≤ _ := by gcongr <;> omega

example : greedy.Valid ∧ (∃ qr : QRRoutine, qr.Correct) ∧ exEye2.toReal.WF ∧ exEye2.toReal.batch = none ∧ exEye2.toReal.ModesPos ∧
    2 ≤ exEye2.toReal.ndims ∧ exPair2.toReal.WF ∧ exPair2.toReal.rawShape = exEye2.toReal.rawShape :=
  ⟨C66_greedy_valid, qrRoutine_exists, exEye2_wf, rfl, by simp [TT.ModesPos, TT.toReal, exEye2], le_rfl, exPair2_wf, rfl⟩

/-- With the default contraction order, `project` of a single object needs at least `n r⁴` operations, if a core of the orthogonalized `where` and of
`what` has the size `r × n × r` with `r² + 1 < 2 n`. -/
theorem C67_project_greedy {qr : QRRoutine} (hqr : qr.Correct) {x z left : TT ℝ} (h : x.WF) (hb : x.batch = none) (hm : x.ModesPos)
    (hd : 2 ≤ x.ndims) (hl : orthogonalize qr x true = Except.ok left) (hz : z.WF) (hbz : z.batch = none) (hr : z.rawShape = x.rawShape)
    {k r : ℕ} (hk : k + 1 < x.ndims) (l1 : left.rank k = r) (l2 : left.rank (k + 1) = r) (z1 : z.rank k = r) (z2 : z.rank (k + 1) = r)
    (hN : r ^ 2 + 1 < 2 * (x.modes k).prod) :
    ∃ y c, (projectC greedy qr z x).run = Except.ok (y, c) ∧ project qr z x = Except.ok y ∧ (x.modes k).prod * r ^ 4 ≤ c := by
  obtain ⟨o, eo, -, -, -, -, hk', -⟩ := orthoLR_ok hqr h hm
  obtain rfl : left = o := Except.ok.inj (hl.symm.trans (by simpa [orthogonalize] using eo))
  obtain ⟨l, right, hF, F⟩ := tangentFrame_ok hqr h hb hm
  obtain ⟨y, -, e, -⟩ := project_ok h hb hd hF F hz hr
  obtain ⟨c, hc, hle⟩ := (projectC_greedy_ge hqr h hb hm hz hbz hr hk ((hk' k (by omega)).symm.trans l1) ((hk' _ (by omega)).symm.trans l2)
    z1 z2 hN).result (value_projectC greedy qr z x) e
  exact ⟨y, c, hc, e, hle⟩

theorem uniformTT_left {qr : QRRoutine} (hqr : qr.Correct) {n r : ℕ} (hr : 0 < r) (hn : r ≤ n) :
    (uniformTT n r : TT ℝ).ModesPos ∧ ∃ left, orthogonalize qr (uniformTT n r : TT ℝ) true = Except.ok left ∧ left.rank 1 = r ∧ left.rank 2 = r := by
  have hm : (uniformTT n r : TT ℝ).ModesPos := by simp [TT.ModesPos, uniformTT]; omega
  obtain ⟨o, eo, -, -, -, -, hk, -⟩ := orthoLR_ok hqr (uniformTT_wf n r hr) hm
  have hN : ∀ k < 3, (uniformTT n r : TT ℝ).N k = n := by
    intro k hk
    have : k = 0 ∨ k = 1 ∨ k = 2 := by omega
    rcases this with rfl | rfl | rfl <;> simp [uniformTT, TT.modes, TT.N]
  have h1 : lrRank (uniformTT n r : TT ℝ).N (uniformTT n r : TT ℝ).rank 1 = r := by
    have : (uniformTT n r : TT ℝ).rank 1 = r := rfl
    simp only [lrRank, hN 0 (by omega), this]
    omega
  refine ⟨hm, o, by simpa [orthogonalize] using eo, ?_, ?_⟩
  · rw [hk 1 (show 1 ≤ 3 by omega), h1]
  · rw [hk 2 (show 2 ≤ 3 by omega)]
    have : (uniformTT n r : TT ℝ).rank 2 = r := rfl
    rw [lrRank, h1, hN 1 (by omega), this]
    exact min_eq_right (Nat.le_mul_of_pos_right _ (by omega))

example : ∃ (qr : QRRoutine) (left : TT ℝ), qr.Correct ∧ (uniformTT 5 2 : TT ℝ).WF ∧ (uniformTT 5 2 : TT ℝ).ModesPos ∧
    orthogonalize qr (uniformTT 5 2 : TT ℝ) true = Except.ok left ∧ left.rank 1 = 2 ∧ left.rank 2 = 2 ∧
    2 ^ 2 + 1 < 2 * ((uniformTT 5 2 : TT ℝ).modes 1).prod := by
  obtain ⟨qr, hqr⟩ := qrRoutine_exists
  obtain ⟨hm, left, e, h1, h2⟩ := uniformTT_left hqr (n := 5) (r := 2) (by omega) (by omega)
  exact ⟨qr, left, hqr, uniformTT_wf 5 2 (by omega), hm, e, h1, h2, by simp [uniformTT, TT.modes]⟩

/-- The documented complexity of `project` fails for the default contraction order: there is no constant `C` such that at most
`C (d r_where³ n + d r_what r_where n (r_what + r_where))` operations are needed to project one tensor. -/
theorem C67_project_documented_false {qr : QRRoutine} (hqr : qr.Correct) (C : ℕ) :
    ∃ (x : TT ℝ) (n r : ℕ), x.WF ∧ x.batch = none ∧ x.ModesPos ∧ (∀ k ≤ x.ndims, x.rank k ≤ r) ∧ (∀ k < x.ndims, (x.modes k).prod ≤ n) ∧
      ∃ y c, (projectC greedy qr x x).run = Except.ok (y, c) ∧ project qr x x = Except.ok y ∧
        C * (x.ndims * r ^ 3 * n + x.ndims * r * r * n * (r + r)) < c := by
  obtain ⟨r, hr⟩ : ∃ r, r = 9 * C + 1 := ⟨_, rfl⟩
  have hw := uniformTT_wf (K := ℝ) (r ^ 2 + 1) r (by omega)
  obtain ⟨hm, left, el, l1, l2⟩ := uniformTT_left hqr (n := r ^ 2 + 1) (r := r) (by omega) (by nlinarith)
  have h1 : ((uniformTT (r ^ 2 + 1) r : TT ℝ).modes 1).prod = r ^ 2 + 1 := by simp [uniformTT, TT.modes]
  obtain ⟨y, c, e, v, hc⟩ := C67_project_greedy hqr hw rfl hm (show 2 ≤ 3 by omega) el hw rfl rfl (k := 1) (r := r) (show 1 + 1 < 3 by omega)
    l1 l2 rfl rfl (by rw [h1]; omega)
  refine ⟨uniformTT (r ^ 2 + 1) r, r ^ 2 + 1, r, hw, rfl, hm, ?_, ?_, y, c, e, v, lt_of_lt_of_le ?_ hc⟩
  · intro k hk
    have : k = 0 ∨ k = 1 ∨ k = 2 ∨ k = 3 := by have : k ≤ 3 := hk; omega
    rcases this with rfl | rfl | rfl | rfl <;> simp [uniformTT, TT.rank] <;> omega
  · intro k hk
    have : k = 0 ∨ k = 1 ∨ k = 2 := by have : k < 3 := hk; omega
    rcases this with rfl | rfl | rfl <;> simp [uniformTT, TT.modes]
  · have h2 : (uniformTT (r ^ 2 + 1) r : TT ℝ).ndims = 3 := rfl
    rw [h1, h2]
    have h3 : 0 < r ^ 3 * (r ^ 2 + 1) := by have : 0 < r := by omega
                                            positivity
    calc C * (3 * r ^ 3 * (r ^ 2 + 1) + 3 * r * r * (r ^ 2 + 1) * (r + r)) = 9 * C * (r ^ 3 * (r ^ 2 + 1)) := by ring
      _ < r * (r ^ 3 * (r ^ 2 + 1)) := Nat.mul_lt_mul_of_pos_right (by omega) h3
      _ = (r ^ 2 + 1) * r ^ 4 := by ring

end T3f
