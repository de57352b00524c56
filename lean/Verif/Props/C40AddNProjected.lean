import Verif.Proofs.Frames
import Verif.Props.C39ProjectMatmul

/-!
# C40: sums of objects of one tangent space

`left` and `right` are the two orthogonalizations of the point `x` that all projections use. The functions for objects of one tangent space find the blocks
of the cores by halving the ranks. The hypothesis on the ranks of `left` and `right` says that this is right; it holds if `x` has minimal ranks
(`C40_minimal`), see `C41_unbalanced` for the other case.
-/

namespace T3f

/-- C40: for objects that are projections on the tangent space at `x`, `add_n_projected` returns the sum with the given coefficients. The ranks of the result
are those of the summands. -/
theorem C40_add_n_projected {qr : QRRoutine} (hqr : qr.Correct) {x left right : TT ℝ} (h : x.WF) (hb : x.batch = none) (hm : x.ModesPos) (hd : 2 ≤ x.ndims)
    (hl : orthogonalize qr x true = Except.ok left) (hr : orthogonalize qr left false = Except.ok right)
    (hk : ∀ k, 0 < k → k < x.ndims → left.rank k ≤ right.rank k + 1)
    {ys : List (TT ℝ)} (hne : ys ≠ []) (hys : ∀ y ∈ ys, ProjectedOn qr x y) {out : Option ℕ} (hbt : ∀ y ∈ ys, y.batch = out)
    {coef : Option (Tensor ℝ)} {c : List ℕ → ℕ → ℝ} (hc : AddCoef ys.length out coef c) (o : ℕ) :
    ∃ y Y, ∃ T : ℕ → Tensor ℝ, addNProjected (ys.map (⟨·, some o⟩)) coef = Except.ok ⟨y, some o⟩ ∧ y.WF ∧ y.rawShape = x.rawShape ∧ y.batch = out ∧
      (∀ t ∈ ys, y.ttRanks = t.ttRanks) ∧ full y = Except.ok Y ∧ (∀ j < ys.length, full (ys.getD j default) = Except.ok (T j)) ∧
      Y.shape = out.toList ++ x.dense.shape ∧ ∀ p i, Valid out.toList p → Valid x.dense.shape i →
        Y.get (p ++ i) = ∑ j ∈ Finset.range ys.length, c p j * (T j).get (p ++ i) := by
  obtain ⟨hF, F⟩ := frame_of hqr h hb hm hl hr
  have hH := halves_of F hk
  have hmem : ∀ i < ys.length, ys.getD i default ∈ ys := fun i hi => by
    rw [List.getD_eq_getElem _ _ hi]; exact List.getElem_mem _
  have ihs : ∀ i < ys.length, ∃ D, GTangent x left right D (ys.getD i default) := fun i hi =>
    projectedOn_gauged h hb hd hF F hH (hys _ (hmem i hi))
  choose! Ds hDs using ihs
  obtain ⟨y, D, e, T, yb, hD⟩ := addNProjected_ok F h hd hH hne hc (fun i hi => (hDs i hi).tan) (fun i hi => hbt _ (hmem i hi)) o
  have hfull : ∀ j < ys.length, ∃ Tj, full (ys.getD j default) = Except.ok Tj ∧ ∀ p i, Valid out.toList p → Valid (restShape x.rawShape) i →
      Tj.get (p ++ i) = frameVec x left right (blk (Ds j) p) (restModes x.rawShape i) := by
    intro j hj
    have Tj := (hDs j hj).tan
    obtain ⟨Z, eZ, sZ, vZ⟩ := full_ok Tj.wf
    have hrj : (ys.getD j default).rawShape = x.rawShape := Tj.rows.trans F.rl
    have hpj : (ys.getD j default).bpre = out.toList := by rw [TT.bpre, hbt _ (hmem j hj)]
    rw [hrj, hpj] at vZ
    exact ⟨Z, eZ, fun p i hp hi => by rw [vZ p i hp hi, Tj.entry_vec F (by rw [hpj]; exact hp) (validModes_rest h hi)]; rfl⟩
  choose! Ts hT1 hT2 using hfull
  obtain ⟨Y, eY, sY, vY⟩ := full_ok T.wf
  have hry : y.rawShape = x.rawShape := T.rows.trans F.rl
  have hpy : y.bpre = out.toList := by rw [TT.bpre, yb]
  rw [hry, hpy] at sY vY
  refine ⟨y, Y, Ts, e, T.wf, hry, yb, fun t ht => ?_, eY, hT1, by rw [sY, dense_shape_single hb], fun p i hp hi => ?_⟩
  · obtain ⟨j, hj, rfl⟩ := List.getElem_of_mem ht
    have Tj := (hDs j hj).tan
    rw [List.getD_eq_getElem _ _ hj] at Tj
    rw [T.wf.ranks_eq, Tj.wf.ranks_eq, T.nd, Tj.nd, ranksOf, ranksOf]
    refine List.map_congr_left fun k hk => ?_
    have := List.mem_range.1 hk
    rw [T.rank k (by omega), Tj.rank k (by omega)]
  · rw [dense_shape_single hb] at hi
    have hmv := validModes_rest h hi
    rw [vY p i hp hi, T.entry_vec F (by rw [hpy]; exact hp) hmv]
    rw [Finset.sum_congr rfl fun j hj => by rw [hT2 j (Finset.mem_range.1 hj) p i hp hi, ← frameVec_smul]]
    rw [← frameVec_sum (Finset.range ys.length) (fun j k v a b => c p j * blk (Ds j) p k v a b)]
    exact frameVec_congr fun k hk a ha b hb' => hD k hk p hp _ (hmv k hk) a ha b hb'

/-- C40: the hypothesis of `C40_add_n_projected` on the ranks holds for a point with minimal ranks, and then the ranks of all objects are twice those of
the point. -/
theorem C40_minimal {qr : QRRoutine} (hqr : qr.Correct) {x : TT ℝ} (h : x.WF) (hb : x.batch = none) (hm : x.ModesPos) (hd : 2 ≤ x.ndims)
    (hmin : x.MinimalRanks) :
    ∃ left right, orthogonalize qr x true = Except.ok left ∧ orthogonalize qr left false = Except.ok right ∧
      (∀ k, 0 < k → k < x.ndims → left.rank k ≤ right.rank k + 1) ∧ right.ttRanks = left.ttRanks ∧
      ∀ y, ProjectedOn qr x y → ∀ k, 0 < k → k < x.ndims → y.rank k = 2 * x.rank k := by
  obtain ⟨left, right, e, F⟩ := tangentFrame_ok hqr h hb hm
  have hlr := tangentFrame_inv e
  have hk : ∀ k, 0 < k → k < x.ndims → left.rank k ≤ right.rank k + 1 := fun k _ h1 => by
    obtain ⟨a, b⟩ := F.rank_eq h hb hmin h1.le
    omega
  refine ⟨left, right, hlr.1, hlr.2, hk, ?_, fun y hy k h0 h1 => ?_⟩
  · rw [F.wr.ranks_eq, F.wl.ranks_eq, F.nl, F.nr, ranksOf, ranksOf]
    refine List.map_congr_left fun k hk => ?_
    have := List.mem_range.1 hk
    obtain ⟨a, b⟩ := F.rank_eq h hb hmin (show k ≤ x.ndims by omega)
    rw [a, b]
  · obtain ⟨D, T⟩ := projectedOn_gauged h hb hd e F (halves_of F hk) hy
    obtain ⟨a, b⟩ := F.rank_eq h hb hmin h1.le
    rw [T.tan.rank k (by rw [F.nl]; omega), F.nl, addRk, if_neg (by omega), a, b]
    omega

example : exEye2.toReal.WF ∧ exEye2.toReal.batch = none ∧ exEye2.toReal.ModesPos ∧ 2 ≤ exEye2.toReal.ndims ∧ exEye2.toReal.MinimalRanks ∧
    ∃ qr : QRRoutine, qr.Correct :=
  ⟨exEye2_wf, rfl, by simp [TT.ModesPos, TT.toReal, exEye2], le_rfl, exEye2_minimal, qrRoutine_exists⟩

example : ∃ (qr : QRRoutine) (left right y : TT ℝ), qr.Correct ∧ orthogonalize qr exEye2.toReal true = Except.ok left ∧
    orthogonalize qr left false = Except.ok right ∧ (∀ k, 0 < k → k < exEye2.toReal.ndims → left.rank k ≤ right.rank k + 1) ∧
    ProjectedOn qr exEye2.toReal y ∧ y.batch = some 2 ∧ AddCoef [y, y, y].length (some 2) (some (.ofList [3, 2] [1, 2, 3, 4, 5, 6])) (fun p i =>
      (Tensor.ofList [3, 2] [1, 2, 3, 4, 5, 6]).get (i :: p)) := by
  obtain ⟨qr, hqr⟩ := qrRoutine_exists
  have hm : exEye2.toReal.ModesPos := by simp [TT.ModesPos, TT.toReal, exEye2]
  obtain ⟨left, right, h1, h2, h3, _⟩ := C40_minimal hqr exEye2_wf rfl hm le_rfl exEye2_minimal
  obtain ⟨y, _, _, e, _, _, yb, _⟩ := C37_project hqr exEye2_wf rfl hm le_rfl exEye2_minimal exEye2_nonzero exPair2_wf rfl
  exact ⟨qr, left, right, y, hqr, h1, h2, h3, .project exPair2_wf e, yb, .matrix _ 2 rfl rfl⟩

/-- C40: without objects, with an object that is not a projection, and for projections on different points (`on`), an exception is raised. -/
theorem C40_errors (objs : List Projected) (coef : Option (Tensor ℝ)) :
    (addNProjected [] coef = Except.error Err.index) ∧
    ((∃ t ∈ objs, t.on = none) → addNProjected objs coef = Except.error Err.value) ∧
    ((∃ t ∈ objs, ∃ s ∈ objs, t.on ≠ s.on) → addNProjected objs coef = Except.error Err.value) := by
  have h1 : (∃ t ∈ objs, t.on = none) → addNProjected objs coef = Except.error Err.value := by
    rintro ⟨t, ht, e⟩
    unfold addNProjected
    rw [require_neg (fun h => by have := h t ht; rw [e] at this; simp at this)]
    rfl
  refine ⟨rfl, h1, ?_⟩
  rintro ⟨t, ht, s, hs, hne⟩
  by_cases hn : ∃ t ∈ objs, t.on = none
  · exact h1 hn
  · cases objs with
    | nil => simp at ht
    | cons a l =>
      unfold addNProjected
      rw [require_pos (fun t ht => by
        rw [Option.isSome_iff_ne_none]
        exact fun e => hn ⟨t, ht, e⟩), R.ok_bind, pyGet_of_lt (a :: l) 0 a (by simp), R.ok_bind, List.getD_cons_zero,
        require_neg (fun h => hne ((h t ht).trans (h s hs).symm))]
      rfl

example : ∃ t ∈ [(⟨exEye2.toReal, none⟩ : Projected), ⟨exEye2.toReal, some 1⟩], t.on = none :=
  ⟨⟨exEye2.toReal, none⟩, by simp, rfl⟩

end T3f
