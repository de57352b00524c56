import Verif.Proofs.ProjectMatmul
import Verif.Props.C37Project

/-!
# C39: `project_matmul`

`project_matmul(what, where, matrix)` for a batch `what` gives the projections of the products `matrix · what[s]`, without computing the products.
A `TensorTrain` as `what` raises an exception although the documentation allows it.
-/

namespace T3f

theorem projectMatmul_batch {qr : QRRoutine} {x z A : TT ℝ} (hb : x.batch = none) (hr : z.rawShape = x.rawShape) (hz : z.batch = none)
    {left right : TT ℝ} (hF : tangentFrame qr x = Except.ok (left, right)) : projectMatmul qr z x A = Except.error Err.value := by
  unfold projectMatmul projectChecks
  rw [require_pos hb, require_pos hr.symm, hF]
  simp only [R.ok_bind, TT.lazyBatchSize, hz]
  rfl

/-- C39: `project_matmul(z, x, A)` represents the same tensors as `project(matmul(A, z), x)`. (`matmul` turns a batch of one into a single object,
hence `bsel`.) -/
theorem C39_project_matmul {qr : QRRoutine} (hqr : qr.Correct) {x z A : TT ℝ} {n : ℕ} {I L : List ℕ} (h : x.WF) (hb : x.batch = none)
    (hm : x.ModesPos) (hd : 2 ≤ x.ndims) (hx : x.rawShape = [I, L]) (hz : z.WF) (hzb : z.batch = some n) (hzr : z.rawShape = [I, L])
    (hA : A.WF) (hAb : A.batch = none) (hAr : A.rawShape = [I, I]) :
    ∃ y c u Y U, projectMatmul qr z x A = Except.ok y ∧ ttTTMatmul A z = Except.ok c ∧ project qr c x = Except.ok u ∧ y.WF ∧
      y.rawShape = x.rawShape ∧ y.batch = some n ∧ (∀ k, 0 < k → k < x.ndims → y.rank k ≤ 2 * x.rank k) ∧
      full y = Except.ok Y ∧ full u = Except.ok U ∧ Y.shape = [n, I.prod, L.prod] ∧ U.shape = c.batch.toList ++ [I.prod, L.prod] ∧
      ∀ s < n, ∀ i < I.prod, ∀ j < L.prod, Y.get [s, i, j] = U.get (bsel c.batch s ++ [i, j]) := by
  obtain ⟨left, right, hF, F⟩ := tangentFrame_ok hqr h hb hm
  obtain ⟨m, wm, bm, rm, em, y, D, ey, T, yb, hD⟩ := projectMatmul_ok h hb hd hF F hA hAb hAr hz hzb hzr hx
  obtain ⟨c, ec, wc, rc, bc, nc, kc, vc⟩ := ttTTMatmul_spec hA hz hAr hzr (by rw [hAb]; trivial)
  have hrm : m.rawShape = x.rawShape := rm.trans hx.symm
  have hrc : c.rawShape = x.rawShape := rc.trans hx.symm
  obtain ⟨u, E, eu, T', ub, hE⟩ := project_ok h hb hd hF F wc hrc
  have hyr : y.rawShape = x.rawShape := T.rows.trans F.rl
  have hur : u.rawShape = x.rawShape := T'.rows.trans F.rl
  obtain ⟨Y, eY, sY, vY⟩ := full_ok T.wf
  obtain ⟨U, eU, sU, vU⟩ := full_ok T'.wf
  rw [hyr] at vY sY
  rw [hur] at vU sU
  have hpy : y.bpre = [n] := by simp [TT.bpre, yb]
  have hpu : u.bpre = c.bpre := by simp [TT.bpre, ub]
  have hrest : restShape x.rawShape = [I.prod, L.prod] := by rw [hx]; rfl
  rw [hpy] at vY sY
  rw [hpu] at vU sU
  refine ⟨y, c, u, Y, U, ey, ec, eu, T.wf, hyr, yb, fun k h1 h2 => ?_, eY, eU, by rw [sY, hrest]; rfl, by rw [sU, hrest]; rfl, fun s hs i hi j hj => ?_⟩
  · have hk := T.rank k (by rw [F.nl]; omega)
    rw [F.nl, addRk, if_neg (by omega)] at hk
    have l1 := F.le_left h h2.le
    have l2 := F.le_right h h2.le
    omega
  · have hbc : bcast A.batch z.batch = some n := by rw [hAb, hzb]; rfl
    have hs' : s < (bcast A.batch z.batch).getD 1 := by rw [hbc]; exact hs
    have hq : Valid c.bpre (bsel c.batch s) := by
      rw [bc, squeezed_bsel, TT.bpre, bc]
      exact lsel_valid (by rw [squeezed_getD]; exact hs')
    have hp : Valid [n] [s] := ⟨hs, trivial⟩
    have hY : ∀ i, Valid (restShape x.rawShape) i → Y.get ([s] ++ i) =
        frameVec x left right (fun k v a b => (D k).get ([s] ++ a :: (v ++ [b]))) (restModes x.rawShape i) := fun i hi => by
      rw [vY [s] i hp hi, T.entry_vec F (by rw [hpy]; exact hp) (validModes_rest h hi)]
    have hU : ∀ i, Valid (restShape x.rawShape) i → U.get (bsel c.batch s ++ i) =
        frameVec x left right (fun k v a b => (E k).get (bsel c.batch s ++ a :: (v ++ [b]))) (restModes x.rawShape i) := fun i hi => by
      rw [vU _ i hq hi, T'.entry_vec F (by rw [hpu]; exact hq) (validModes_rest h hi)]
    have hmc : ∀ i, Valid (restShape x.rawShape) i → m.entry [s] (restModes x.rawShape i) = c.entry (bsel c.batch s) (restModes x.rawShape i) := by
      intro i hi
      rw [hrest] at hi
      obtain ⟨a, i, rfl, ha, hi⟩ := (valid_cons_iff _ _ _).1 hi
      obtain ⟨b, i, rfl, hb, hi⟩ := (valid_cons_iff _ _ _).1 hi
      rw [valid_nil_iff] at hi
      subst hi
      rw [hx, restModes_matrix, em s _ _ (unravel_valid ha) (unravel_valid hb), vc s _ _ hs' (unravel_valid ha) (unravel_valid hb)]
      refine Finset.sum_congr rfl fun t _ => ?_
      rw [hAb, hzb]
      by_cases h1 : n = 1
      · obtain rfl : s = 0 := by omega
        simp [bsel]
      · simp [bsel, h1]
    refine proj_unique (T := frameSpace x left right) (s := restShape x.rawShape) (z := fun i => m.entry [s] (restModes x.rawShape i))
      ⟨_, hY⟩ ⟨_, hU⟩ ?_ ?_ [i, j] (by rw [hrest]; exact ⟨hi, hj, trivial⟩)
    · rintro f ⟨G, hG⟩
      rw [dot_sub, sub_eq_zero, dot_congr (fun _ _ => rfl) hG, dot_congr hY hG]
      exact (frame_dot F h wm hrm [s] (fun k hk t ht a ha b hb => hD k hk [s] hp t ht a ha b hb) G).symm
    · rintro f ⟨G, hG⟩
      rw [dot_sub, sub_eq_zero, dot_congr hmc hG, dot_congr hU hG]
      exact (frame_dot F h wc hrc _ (fun k hk t ht a ha b hb => hE k hk _ hq t ht a ha b hb) G).symm

/-- A batch of two matrices of raw shape `(2, 2) × (1, 2)`, as a TT-matrix of rank one. -/
def exMatBatch : TT ℤ where
  cores := [.ofList [2, 1, 2, 1, 1] [1, -2, 3, 4], .ofList [2, 1, 2, 2, 1] [5, 6, 7, 8, 1, 2, 0, 3]]
  rawShape := [[2, 2], [1, 2]]
  ttRanks := [1, 1, 1]
  batch := some 2

/-- A square matrix of raw shape `(2, 2) × (2, 2)` and rank two. -/
def exMatSquare : TT ℤ where
  cores := [.ofList [1, 2, 2, 2] [1, 2, 3, 4, 5, 6, 7, 8], .ofList [2, 2, 2, 1] [1, 0, 2, 1, -1, 1, 0, 3]]
  rawShape := [[2, 2], [2, 2]]
  ttRanks := [1, 2, 1]
  batch := none

example : exMatrix.toReal.WF ∧ exMatrix.toReal.batch = none ∧ exMatrix.toReal.ModesPos ∧ 2 ≤ exMatrix.toReal.ndims ∧
    exMatrix.toReal.rawShape = [[2, 2], [1, 2]] ∧ exMatBatch.toReal.WF ∧ exMatBatch.toReal.batch = some 2 ∧
    exMatBatch.toReal.rawShape = [[2, 2], [1, 2]] ∧ exMatSquare.toReal.WF ∧ exMatSquare.toReal.batch = none ∧
    exMatSquare.toReal.rawShape = [[2, 2], [2, 2]] :=
  ⟨TT.WF.toReal (by decide), rfl, by simp [TT.ModesPos, TT.toReal, exMatrix], by decide, rfl, TT.WF.toReal (by decide), rfl, rfl,
    TT.WF.toReal (by decide), rfl, rfl⟩

/-- C39: with minimal ranks, every item of `project_matmul(z, x, A)` is the orthogonal projection of the matrix product on the tangent space at `x`. -/
theorem C39_orthogonal {qr : QRRoutine} (hqr : qr.Correct) {x z A : TT ℝ} {n : ℕ} {I L : List ℕ} (h : x.WF) (hb : x.batch = none)
    (hm : x.ModesPos) (hd : 2 ≤ x.ndims) (hmin : x.MinimalRanks) (hne : x.Nonzero) (hx : x.rawShape = [I, L]) (hz : z.WF)
    (hzb : z.batch = some n) (hzr : z.rawShape = [I, L]) (hA : A.WF) (hAb : A.batch = none) (hAr : A.rawShape = [I, I]) :
    ∃ y Y M Z, projectMatmul qr z x A = Except.ok y ∧ full y = Except.ok Y ∧ full A = Except.ok M ∧ full z = Except.ok Z ∧
      (∀ k, 0 < k → k < x.ndims → y.rank k = 2 * x.rank k) ∧
      ∀ s < n, x.TangentVector (fun i => Y.get (s :: i)) ∧ ∀ f, x.TangentVector f →
        dot [I.prod, L.prod] (fun i => ∑ t ∈ Finset.range I.prod, M.get [i.getD 0 0, t] * Z.get [s, t, i.getD 1 0] - Y.get (s :: i)) f = 0 := by
  obtain ⟨left, right, hF, F⟩ := tangentFrame_ok hqr h hb hm
  obtain ⟨m, wm, bm, rm, em, y, D, ey, T, yb, hD⟩ := projectMatmul_ok h hb hd hF F hA hAb hAr hz hzb hzr hx
  have hrm : m.rawShape = x.rawShape := rm.trans hx.symm
  have hyr : y.rawShape = x.rawShape := T.rows.trans F.rl
  obtain ⟨Y, eY, sY, vY⟩ := full_ok T.wf
  obtain ⟨M, eM, sM, vM⟩ := full_matrix hA hAr
  obtain ⟨Z, eZ, sZ, vZ⟩ := full_matrix hz hzr
  rw [hyr] at vY sY
  have hpy : y.bpre = [n] := by simp [TT.bpre, yb]
  have hrest : restShape x.rawShape = [I.prod, L.prod] := by rw [hx]; rfl
  rw [hpy] at vY sY
  refine ⟨y, Y, M, Z, ey, eY, eM, eZ, fun k h1 h2 => ?_, fun s hs => ?_⟩
  · have hk := T.rank k (by rw [F.nl]; omega)
    rw [F.nl, addRk, if_neg (by omega)] at hk
    have := F.rank_eq h hb hmin h2.le
    omega
  have hp : Valid [n] [s] := ⟨hs, trivial⟩
  have hY : ∀ i, Valid (restShape x.rawShape) i → Y.get (s :: i) =
      frameVec x left right (fun k v a b => (D k).get ([s] ++ a :: (v ++ [b]))) (restModes x.rawShape i) := fun i hi =>
    (vY [s] i hp hi).trans (T.entry_vec F (by rw [hpy]; exact hp) (validModes_rest h hi))
  refine ⟨(frame_tangent F h hb hmin hne _).1 ⟨_, hY⟩, fun f hf => ?_⟩
  obtain ⟨G, hG⟩ := (frame_tangent F h hb hmin hne f).2 hf
  have hmc : ∀ i, Valid (restShape x.rawShape) i → (∑ t ∈ Finset.range I.prod, M.get [i.getD 0 0, t] * Z.get [s, t, i.getD 1 0]) =
      m.entry [s] (restModes x.rawShape i) := by
    intro i hi
    rw [hrest] at hi
    obtain ⟨a, i, rfl, ha, hi⟩ := (valid_cons_iff _ _ _).1 hi
    obtain ⟨b, i, rfl, hb, hi⟩ := (valid_cons_iff _ _ _).1 hi
    rw [valid_nil_iff] at hi
    subst hi
    rw [hx, restModes_matrix, em s _ _ (unravel_valid ha) (unravel_valid hb)]
    refine Finset.sum_congr rfl fun t ht => ?_
    have ht := Finset.mem_range.1 ht
    have e1 := vM [] a t (by simp [TT.bpre, hAb]) ha ht
    have e2 := vZ [s] t b (by simp [TT.bpre, hzb, hs]) ht hb
    simp only [List.nil_append, List.cons_append] at e1 e2
    rw [← e1, ← e2]
    rfl
  rw [← hrest, dot_sub, sub_eq_zero, dot_congr hmc hG, dot_congr hY hG]
  exact (frame_dot F h wm hrm [s] (fun k hk t ht a ha b hb => hD k hk [s] hp t ht a ha b hb) G).symm

/-- A TT-matrix with the raw shape `(2, 1) × (1, 2)`, whose entries are those of the identity matrix. -/
def exEyeMat : TT ℤ where
  cores := [.ofList [1, 2, 1, 2] [1, 0, 0, 1], .ofList [2, 1, 2, 1] [1, 0, 0, 1]]
  rawShape := [[2, 1], [1, 2]]
  ttRanks := [1, 2, 1]
  batch := none

theorem exEyeMat_wf : exEyeMat.toReal.WF := TT.WF.toReal (by decide)

theorem exEyeMat_entry (i j : ℕ) (hi : i < 2) (hj : j < 2) : exEyeMat.toReal.dense.get [i, j] = if i = j then 1 else 0 := by
  interval_cases i <;> interval_cases j <;>
    simp [TT.dense, TT.decode, TT.entry, TT.toReal, exEyeMat, TT.isMatrix, TT.bpre, TT.ndims, lprod, TT.slice, TT.core, TT.rank, mIdx, Tensor.map,
      Tensor.ofList, ravel, unravel, Finset.sum_range_succ]

theorem exEyeMat_nonzero : exEyeMat.toReal.Nonzero :=
  ⟨[0, 0], by simp [TT.dense, TT.denseShape, TT.toReal, exEyeMat, TT.isMatrix, TT.bpre, Valid], by rw [exEyeMat_entry 0 0 (by omega) (by omega)]; simp⟩

theorem exEyeMat_minimal : exEyeMat.toReal.MinimalRanks := by
  intro s hs hb hr he k hk
  have hk : k ≤ 2 := hk
  have hr' : s.rawShape = [[2, 1], [1, 2]] := hr
  have hn : s.ndims = 2 := ndims_of_rows hs exEyeMat_wf hr
  have hpos := hs.rank_pos k (by omega)
  interval_cases k
  · exact hpos
  · by_contra hlt
    have h1 : s.rank 1 = 1 := by
      have : exEyeMat.toReal.rank 1 = 2 := rfl
      omega
    have hent : ∀ i < 2, ∀ j < 2, s.entry [] (mIdx (unravel [2, 1] i) (unravel [1, 2] j)) = if i = j then 1 else 0 := by
      intro i hi j hj
      rw [← exEyeMat_entry i j hi hj, ← he.2 [i, j] (by rw [he.1]; simp [TT.dense, TT.denseShape, TT.toReal, exEyeMat, TT.isMatrix, TT.bpre, Valid, hi, hj])]
      have := dense_get s [] [i, j] (by simp [TT.bpre, hb])
      rw [List.nil_append] at this
      rw [this, hr', restModes_matrix]
    have hprod : ∀ i < 2, ∀ j < 2, s.entry [] (mIdx (unravel [2, 1] i) (unravel [1, 2] j)) = (s.core 0).get [0, i, 0, 0] * (s.core 1).get [0, 0, j, 0] := by
      intro i hi j hj
      interval_cases i <;> interval_cases j <;> simp [TT.entry, hn, lprod, h1, hs.rank_first, TT.slice, mIdx, unravel]
    have e00 := hent 0 (by omega) 0 (by omega)
    have e01 := hent 0 (by omega) 1 (by omega)
    have e11 := hent 1 (by omega) 1 (by omega)
    rw [hprod _ (by omega) _ (by omega)] at e00 e01 e11
    simp only [if_true, if_neg (show ¬ (0 : ℕ) = 1 by omega)] at e00 e01 e11
    rcases mul_eq_zero.1 e01 with h | h
    · rw [h, zero_mul] at e00; exact one_ne_zero e00.symm
    · rw [h, mul_zero] at e11; exact one_ne_zero e11.symm
  · exact hpos

/-- A batch of two matrices of raw shape `(2, 1) × (1, 2)`. -/
def exEyeBatch : TT ℤ where
  cores := [.ofList [2, 1, 2, 1, 1] [1, -2, 3, 4], .ofList [2, 1, 1, 2, 1] [5, 6, 0, 3]]
  rawShape := [[2, 1], [1, 2]]
  ttRanks := [1, 1, 1]
  batch := some 2

/-- A square matrix of raw shape `(2, 1) × (2, 1)`. -/
def exEyeSquare : TT ℤ where
  cores := [.ofList [1, 2, 2, 1] [1, 2, 3, 4], .ofList [1, 1, 1, 1] [2]]
  rawShape := [[2, 1], [2, 1]]
  ttRanks := [1, 1, 1]
  batch := none

example : exEyeMat.toReal.WF ∧ exEyeMat.toReal.batch = none ∧ exEyeMat.toReal.ModesPos ∧ 2 ≤ exEyeMat.toReal.ndims ∧
    exEyeMat.toReal.MinimalRanks ∧ exEyeMat.toReal.Nonzero ∧ exEyeMat.toReal.rawShape = [[2, 1], [1, 2]] ∧
    exEyeBatch.toReal.WF ∧ exEyeBatch.toReal.batch = some 2 ∧ exEyeBatch.toReal.rawShape = [[2, 1], [1, 2]] ∧ exEyeSquare.toReal.WF ∧
    exEyeSquare.toReal.batch = none ∧ exEyeSquare.toReal.rawShape = [[2, 1], [2, 1]] :=
  ⟨exEyeMat_wf, rfl, by simp [TT.ModesPos, TT.toReal, exEyeMat], by decide, exEyeMat_minimal, exEyeMat_nonzero, rfl, TT.WF.toReal (by decide), rfl, rfl,
    TT.WF.toReal (by decide), rfl, rfl⟩

/-- C39: a batch as `where`, different raw shapes, and a single object as `what` (which the documentation allows) raise ValueError, whatever the
matrix is. -/
theorem C39_errors {qr : QRRoutine} (hqr : qr.Correct) {x z A : TT ℝ} (h : x.WF) (hm : x.ModesPos)
    (he : x.isBatch ∨ z.rawShape ≠ x.rawShape ∨ ¬ z.isBatch) : projectMatmul qr z x A = Except.error Err.value := by
  by_cases hb : x.batch = none
  swap
  · unfold projectMatmul projectChecks
    rw [require_neg hb]; rfl
  by_cases hr : z.rawShape = x.rawShape
  swap
  · unfold projectMatmul projectChecks
    rw [require_pos hb, require_neg (fun e => hr e.symm)]; rfl
  rcases he with he | he | he
  · simp [TT.isBatch, hb] at he
  · exact absurd hr he
  · obtain ⟨left, right, hF, F⟩ := tangentFrame_ok hqr h hb hm
    exact projectMatmul_batch hb hr (by simpa [TT.isBatch] using he) hF

example : exMatrix.toReal.WF ∧ exMatrix.toReal.ModesPos ∧ exMatBatch.toReal.isBatch ∧ exEyeMat.toReal.rawShape ≠ exMatrix.toReal.rawShape ∧
    ¬ exMatrix.toReal.isBatch :=
  ⟨TT.WF.toReal (by decide), by simp [TT.ModesPos, TT.toReal, exMatrix], by simp [TT.isBatch, TT.toReal, exMatBatch],
    by simp [TT.toReal, exMatrix, exEyeMat], by simp [TT.isBatch, TT.toReal, exMatrix]⟩

end T3f
