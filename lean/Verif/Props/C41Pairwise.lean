import Verif.Proofs.TangentGramUnbalanced
import Verif.Props.C40AddNProjected

/-! # C41: inner products of objects of one tangent space

`left` and `right` are the two orthogonalizations of the point `x` that all projections use, see `C40AddNProjected`.
-/

namespace T3f

/-- C41: for objects that are projections on the tangent space at `x`, `pairwise_flat_inner_projected` returns the matrix of the inner products of all
items; a single object counts as a batch of one. -/
theorem C41_pairwise {qr : QRRoutine} (hqr : qr.Correct) {x left right : TT ℝ} (h : x.WF) (hb : x.batch = none) (hm : x.ModesPos) (hd : 2 ≤ x.ndims)
    (hl : orthogonalize qr x true = Except.ok left) (hr : orthogonalize qr left false = Except.ok right)
    (hk : ∀ k, 0 < k → k < x.ndims → left.rank k ≤ right.rank k + 1) {u v : TT ℝ} (hu : ProjectedOn qr x u) (hv : ProjectedOn qr x v) (o : ℕ) :
    ∃ G U V, pairwiseProjected ⟨u, some o⟩ ⟨v, some o⟩ = Except.ok G ∧ full u = Except.ok U ∧ full v = Except.ok V ∧
      U.shape = u.bpre ++ x.dense.shape ∧ V.shape = v.bpre ++ x.dense.shape ∧ G.shape = [u.batch.getD 1, v.batch.getD 1] ∧
      ∀ s < u.batch.getD 1, ∀ t < v.batch.getD 1,
        G.get [s, t] = dot x.dense.shape (fun i => U.get (itemIdx u s ++ i)) (fun i => V.get (itemIdx v t ++ i)) := by
  obtain ⟨hF, F⟩ := frame_of hqr h hb hm hl hr
  have hH := halves_of F hk
  obtain ⟨D, Tu⟩ := projectedOn_gauged h hb hd hF F hH hu
  obtain ⟨E, Tv⟩ := projectedOn_gauged h hb hd hF F hH hv
  obtain ⟨G, e, s, w⟩ := pairwise_ok F h hd hH Tu Tv o
  obtain ⟨U, eU, sU, vU⟩ := full_ok Tu.tan.wf
  obtain ⟨V, eV, sV, vV⟩ := full_ok Tv.tan.wf
  have hru : u.rawShape = x.rawShape := Tu.tan.rows.trans F.rl
  have hrv : v.rawShape = x.rawShape := Tv.tan.rows.trans F.rl
  rw [hru] at sU vU
  rw [hrv] at sV vV
  rw [dense_shape_single hb]
  refine ⟨G, U, V, e, eU, eV, sU, sV, s, fun s hs t ht => ?_⟩
  rw [w s hs t ht]
  exact dot_congr (fun i hi => (vU _ _ (itemIdx_valid hs) hi).symm) (fun i hi => (vV _ _ (itemIdx_valid ht) hi).symm)

/-- C41: the same for a point with minimal ranks. -/
theorem C41_pairwise_minimal {qr : QRRoutine} (hqr : qr.Correct) {x : TT ℝ} (h : x.WF) (hb : x.batch = none) (hm : x.ModesPos) (hd : 2 ≤ x.ndims)
    (hmin : x.MinimalRanks) {u v : TT ℝ} (hu : ProjectedOn qr x u) (hv : ProjectedOn qr x v) (o : ℕ) :
    ∃ G U V, pairwiseProjected ⟨u, some o⟩ ⟨v, some o⟩ = Except.ok G ∧ full u = Except.ok U ∧ full v = Except.ok V ∧
      U.shape = u.bpre ++ x.dense.shape ∧ V.shape = v.bpre ++ x.dense.shape ∧ G.shape = [u.batch.getD 1, v.batch.getD 1] ∧
      ∀ s < u.batch.getD 1, ∀ t < v.batch.getD 1,
        G.get [s, t] = dot x.dense.shape (fun i => U.get (itemIdx u s ++ i)) (fun i => V.get (itemIdx v t ++ i)) := by
  obtain ⟨left, right, hl, hr, hk, _⟩ := C40_minimal hqr h hb hm hd hmin
  exact C41_pairwise hqr h hb hm hd hl hr hk hu hv o

example : ∃ (qr : QRRoutine) (y : TT ℝ), qr.Correct ∧ exEye2.toReal.WF ∧ exEye2.toReal.batch = none ∧ exEye2.toReal.ModesPos ∧
    2 ≤ exEye2.toReal.ndims ∧ exEye2.toReal.MinimalRanks ∧ ProjectedOn qr exEye2.toReal y ∧ y.batch = some 2 := by
  obtain ⟨qr, hqr⟩ := qrRoutine_exists
  have hm : exEye2.toReal.ModesPos := by simp [TT.ModesPos, TT.toReal, exEye2]
  obtain ⟨y, _, _, e, _, _, yb, _⟩ := C37_project hqr exEye2_wf rfl hm le_rfl exEye2_minimal exEye2_nonzero exPair2_wf rfl
  exact ⟨qr, y, hqr, exEye2_wf, rfl, hm, le_rfl, exEye2_minimal, .project exPair2_wf e, yb⟩

/-- C41: an object that is not a projection, or projections on different points, raise ValueError. -/
theorem C41_errors (u v : Projected) (hn : u.on = none ∨ v.on = none ∨ u.on ≠ v.on) : pairwiseProjected u v = Except.error Err.value := by
  unfold pairwiseProjected
  by_cases h : u.on.isSome ∧ v.on.isSome
  · rw [require_pos h, R.ok_bind, require_neg]
    · rfl
    · rintro e
      rcases hn with hn | hn | hn
      · simp [hn] at h
      · simp [hn] at h
      · exact hn e
  · rw [require_neg h]; rfl

example : (⟨exEye2.toReal, some 1⟩ : Projected).on = none ∨ (⟨exEye2.toReal, some 2⟩ : Projected).on = none ∨
    (⟨exEye2.toReal, some 1⟩ : Projected).on ≠ (⟨exEye2.toReal, some 2⟩ : Projected).on := by simp

/-- C41: the hypothesis on the ranks cannot be weakened. If it fails at one place, the product of every projection with itself is at least one, even
for projections that represent the zero tensor. -/
theorem C41_unbalanced {qr : QRRoutine} (hqr : qr.Correct) {x left right : TT ℝ} (h : x.WF) (hb : x.batch = none) (hm : x.ModesPos) (hd : 2 ≤ x.ndims)
    (hl : orthogonalize qr x true = Except.ok left) (hr : orthogonalize qr left false = Except.ok right)
    {k : ℕ} (h0 : 0 < k) (h1 : k < x.ndims) (hk : right.rank k + 2 ≤ left.rank k) {z : TT ℝ} (hz : z.WF) (hrz : z.rawShape = x.rawShape) (o : ℕ) :
    ∃ y Y Z G, project qr z x = Except.ok y ∧ full y = Except.ok Y ∧ full z = Except.ok Z ∧
      pairwiseProjected ⟨y, some o⟩ ⟨y, some o⟩ = Except.ok G ∧ (∀ s < y.batch.getD 1, 1 ≤ G.get [s, s]) ∧
      ((∀ i, Valid Z.shape i → Z.get i = 0) → ∀ i, Valid Y.shape i → Y.get i = 0) := by
  obtain ⟨hF, F⟩ := frame_of hqr h hb hm hl hr
  obtain ⟨y, D, e, T, yb, _⟩ := project_ok h hb hd hF F hz hrz
  obtain ⟨G, eG, vG⟩ := pairwise_ge_one F hd ⟨k, h0, h1, hk⟩ T o
  obtain ⟨S, -, hP⟩ := C37_project_any hqr h hb hm hd
  obtain ⟨y', Y, Z, e', w, rs, b, -, eY, eZ, sh, hv⟩ := hP z hz hrz
  obtain rfl : y = y' := Except.ok.inj (e.symm.trans e')
  refine ⟨y, Y, Z, G, e, eY, eZ, eG, vG, fun hzero i hi => ?_⟩
  obtain ⟨Y', eY', sY, -⟩ := full_ok w
  obtain rfl : Y = Y' := Except.ok.inj (eY.symm.trans eY')
  rw [dense_shape_single hb] at hv
  have hZ : Z.shape = z.bpre ++ restShape x.rawShape := by rw [← sh, sY, rs, TT.bpre, TT.bpre, b]
  rw [sh, hZ] at hi
  obtain ⟨p, i, rfl, hp, hi⟩ := valid_append_iff.1 hi
  obtain ⟨a1, a2⟩ := hv p hp
  refine proj_unique (v := fun _ => 0) (z := fun i => Z.get (p ++ i)) a1 S.zero_mem a2 (fun f _ => ?_) i hi
  rw [dot_congr (f' := fun _ => 0) (g' := f) (fun i hi => ?_) (fun _ _ => rfl)]
  · simp [dot]
  · rw [hzero (p ++ i) (by rw [hZ]; exact valid_append hp hi), sub_zero]

/-- A tensor of shape `4 × 2` whose TT-rank is larger than needed. -/
def exWide : TT ℤ where
  cores := [.ofList [1, 4, 4] [1, 0, 0, 0, 0, 1, 0, 0, 0, 0, 1, 0, 0, 0, 0, 1], .ofList [4, 2, 1] [1, 2, 3, 4, 5, 6, 7, 8]]
  rawShape := [[4, 2]]
  ttRanks := [1, 4, 1]
  batch := none

/-- The zero tensor of the same shape. -/
def exZero42 : TT ℤ where
  cores := [.ofList [1, 4, 1] [0, 0, 0, 0], .ofList [1, 2, 1] [0, 0]]
  rawShape := [[4, 2]]
  ttRanks := [1, 1, 1]
  batch := none

theorem exWide_wf : exWide.toReal.WF := TT.WF.toReal (by decide)

example : exWide.toReal.WF ∧ exWide.toReal.batch = none ∧ exWide.toReal.ModesPos ∧ 2 ≤ exWide.toReal.ndims ∧ exZero42.toReal.WF ∧
    exZero42.toReal.rawShape = exWide.toReal.rawShape ∧ ∃ (qr : QRRoutine) (left right : TT ℝ), qr.Correct ∧
    orthogonalize qr exWide.toReal true = Except.ok left ∧ orthogonalize qr left false = Except.ok right ∧ right.rank 1 + 2 ≤ left.rank 1 := by
  have hm : exWide.toReal.ModesPos := by simp [TT.ModesPos, TT.toReal, exWide]
  obtain ⟨qr, hqr⟩ := qrRoutine_exists
  refine ⟨exWide_wf, rfl, hm, le_rfl, TT.WF.toReal (by decide), rfl, qr, ?_⟩
  obtain ⟨left, right, e, F⟩ := tangentFrame_ok hqr exWide_wf rfl hm
  obtain ⟨h1, h2⟩ := tangentFrame_inv e
  refine ⟨left, right, hqr, h1, h2, ?_⟩
  have hl : left.rank 1 = 4 := by rw [F.kl 1 (by decide)]; rfl
  have hr : right.rank 1 ≤ 2 := by
    rw [F.kr 1 (by decide), rlRank_step _ _ (by decide)]
    exact min_le_left _ _
  omega

end T3f
