import Verif.Model.ComplexTangent
import Verif.Proofs.ComplexOrtho
import Verif.Proofs.ProjectEin
import Verif.Proofs.ChainEntry
import Verif.Proofs.Concat

/-! # The projection of a complex tensor with two cores on itself -/

namespace T3f.Cx

/-- The entries of a TT object with two cores. -/
theorem entry_two {y : TT ℂ} (hd : y.ndims = 2) (h0 : y.rank 0 = 1) (m : ℕ → List ℕ) :
    y.entry [] m = ∑ j ∈ Finset.range (y.rank 1), (y.core 0).get (0 :: (m 0 ++ [j])) * (y.core 1).get (j :: (m 1 ++ [0])) := by
  rw [TT.entry, hd, lprod]
  refine Finset.sum_congr rfl fun j _ => ?_
  rw [lprod, h0, Finset.sum_range_one, lprod, if_pos rfl, one_mul]
  rfl

/-- If the cores of `x` are orthogonal (without conjugation) to the orthogonal cores, then the projection of `x` on itself is zero. -/
theorem project_null {qr : QRRoutine} {x left right : TT ℂ} (h : x.WF) (hb : x.batch = none) (hd : x.ndims = 2) (r1 : x.rank 1 = 1)
    (el : orthogonalize qr x true = Except.ok left) (er : orthogonalize qr left false = Except.ok right)
    (wl : left.WF) (wr : right.WF) (bl : left.batch = none) (br : right.batch = none) (rl : left.rawShape = x.rawShape)
    (rr : right.rawShape = x.rawShape) (l1 : left.rank 1 = 1) (v1 : right.rank 1 = 1)
    (gl : ∑ m ∈ Finset.range (x.modes 0).prod, (left.core 0).get (0 :: (unravel (x.modes 0) m ++ [0])) * (x.core 0).get (0 :: (unravel (x.modes 0) m ++ [0])) = 0)
    (gr : ∑ m ∈ Finset.range (x.modes 1).prod, (x.core 1).get (0 :: (unravel (x.modes 1) m ++ [0])) * (right.core 1).get (0 :: (unravel (x.modes 1) m ++ [0])) = 0) :
    ∃ y, project qr x x = Except.ok y ∧ y.WF ∧ y.rawShape = x.rawShape ∧ y.batch = none ∧
      ∀ g, (∀ j < 2, Valid (x.modes j) (g j)) → y.entry [] g = 0 := by
  have nl : left.ndims = 2 := by rw [ndims_of_rows wl h rl, hd]
  have nr : right.ndims = 2 := by rw [ndims_of_rows wr h rr, hd]
  have ml : left.modes = x.modes := modes_of_rows rl
  have mr : right.modes = x.modes := modes_of_rows rr
  have x0 : x.rank 0 = 1 := h.rank_first
  have x2 : x.rank 2 = 1 := by rw [← hd]; exact h.rank_last
  have l0 : left.rank 0 = 1 := wl.rank_first
  have l2 : left.rank 2 = 1 := by rw [← nl]; exact wl.rank_last
  have v0 : right.rank 0 = 1 := wr.rank_first
  have v2 : right.rank 2 = 1 := by rw [← nr]; exact wr.rank_last
  obtain ⟨w, ew, ww, bw, rw', kw, nw, vw⟩ := expandBatchDim_ok h hb
  have mw : w.modes = x.modes := modes_of_rows rw'
  have hwk : w.rank = x.rank := by funext k; simp only [TT.rank, kw]
  have nw2 : w.ndims = 2 := nw.trans hd
  have sw0 : (w.core 0).shape = 1 :: 1 :: (x.modes 0 ++ [1]) := by
    rw [ww.core_shape 0 (by omega), mw, hwk, x0, r1, TT.bpre, bw]; rfl
  have sw1 : (w.core 1).shape = 1 :: 1 :: (x.modes 1 ++ [1]) := by
    rw [ww.core_shape 1 (by omega), mw, hwk, r1, x2, TT.bpre, bw]; rfl
  have sl0 : (left.core 0).shape = 1 :: (x.modes 0 ++ [1]) := by
    rw [wl.core_shape 0 (by omega), ml, l0, l1, TT.bpre, bl]; rfl
  have sl1 : (left.core 1).shape = 1 :: (x.modes 1 ++ [1]) := by
    rw [wl.core_shape 1 (by omega), ml, l1, l2, TT.bpre, bl]; rfl
  have sr0 : (right.core 0).shape = 1 :: (x.modes 0 ++ [1]) := by
    rw [wr.core_shape 0 (by omega), mr, v0, v1, TT.bpre, br]; rfl
  have sr1 : (right.core 1).shape = 1 :: (x.modes 1 ++ [1]) := by
    rw [wr.core_shape 1 (by omega), mr, v1, v2, TT.bpre, br]; rfl
  have A0 : AxFor (modeLabels x) (x.modes 0) := modeLabels_spec h 0
  have A1 : AxFor (modeLabels x) (x.modes 1) := modeLabels_spec h 1
  obtain ⟨E1, e1, s1, u1⟩ := rhsEin (Q := ones [1, 1, 1]) A1 sw1 rfl sr1
  obtain ⟨E2, e2, s2, u2⟩ := lhsEin (Q := ones [1, 1, 1]) A0 rfl sl0 sw0
  have z1 : E1.get [0, 0, 0] = 0 := by
    rw [u1]
    simp only [Finset.sum_range_one]
    rw [Finset.sum_congr rfl fun m _ => by rw [vw 1 (by omega)], gr, zero_mul]
  have z2 : E2.get [0, 0, 0] = 0 := by
    rw [u2]
    simp only [Finset.sum_range_one]
    rw [Finset.sum_congr rfl fun m _ => by rw [vw 0 (by omega)], gl, mul_zero]
  have hR : projectRhs (modeLabels x) w right 2 1 = Except.ok [default, E1, ones [1, 1, 1]] := by
    simp only [projectRhs, forRange, rhsStep, ww.pyCore (show 1 < w.ndims by omega), wr.pyCore (show 1 < right.ndims by omega)]
    simp only [List.replicate, List.set, R.ok_bind, pyGet_of_lt _ _ default (show 1 + 1 < [default, default, (ones [1, 1, 1] : Tensor ℂ)].length by simp),
      List.getD_cons_succ, List.getD_cons_zero]
    rw [e1]
    rfl
  have hL : projectLhs (modeLabels x) w left 2 1 = Except.ok [ones [1, 1, 1], E2, default] := by
    simp only [projectLhs, forRange, lhsStep, ww.pyCore (show 0 < w.ndims by omega), wl.pyCore (show 0 < left.ndims by omega)]
    simp only [List.replicate, List.set, R.ok_bind, pyGet_of_lt _ _ default (show 0 < [(ones [1, 1, 1] : Tensor ℂ), default, default].length by simp),
      List.getD_cons_zero]
    rw [e2]
    rfl
  obtain ⟨P1, p1, sP1, vP1⟩ := (lastEin (Q := ones [1, 1, 1]) A0 rfl sw0).1
  obtain ⟨P2, p2, sP2, vP2⟩ := backEin A0 sl0 s2
  obtain ⟨P3, p3, sP3, vP3⟩ := binop_ok (· - ·) P1 P2 (1 :: 1 :: (x.modes 0 ++ [1])) (by rw [sP1, sP2]; exact bshape_self _)
  obtain ⟨B0, b0, sB0, vB0⟩ := (timesEin A0 sP3 s1).2
  obtain ⟨B1, b1, sB1, vB1⟩ := (lastEin A1 s2 sw1).2
  have hB0 : projectBlock (modeLabels x) x.isBatch [ones [1, 1, 1], E2, default] [default, E1, ones [1, 1, 1]] 2 0 (w.core 0) (left.core 0) = Except.ok B0 := by
    simp only [projectBlock, projectDiff, TT.isBatch, hb]
    rw [if_pos (by omega)]
    simp only [pyGet_of_lt _ _ default (show 0 < [(ones [1, 1, 1] : Tensor ℂ), E2, default].length by simp),
      pyGet_of_lt _ _ default (show 0 + 1 < [(ones [1, 1, 1] : Tensor ℂ), E2, default].length by simp),
      pyGet_of_lt _ _ default (show 0 + 1 < [default, E1, (ones [1, 1, 1] : Tensor ℂ)].length by simp), List.getD_cons_succ, List.getD_cons_zero, R.ok_bind, p1, p2, p3]
    exact b0
  have hB1 : projectBlock (modeLabels x) x.isBatch [ones [1, 1, 1], E2, default] [default, E1, ones [1, 1, 1]] 2 1 (w.core 1) (left.core 1) = Except.ok B1 := by
    simp only [projectBlock, TT.isBatch, hb]
    rw [if_neg (by omega)]
    simp only [pyGet_of_lt _ _ default (show 1 < [(ones [1, 1, 1] : Tensor ℂ), E2, default].length by simp), List.getD_cons_succ, List.getD_cons_zero, R.ok_bind]
    exact b1
  have q0 : ∀ v z, v.length = (x.modes 0).length → z = 0 → B0.get (0 :: (v ++ [z])) = 0 := by
    rintro v z hv rfl
    rw [vB0 0 v 0 hv]
    simp [z1]
  have q1 : ∀ v, v.length = (x.modes 1).length → B1.get (0 :: (v ++ [0])) = 0 := by
    intro v hv
    rw [vB1 0 v 0 hv]
    simp [z2]
  have axr : x.rightRankDim = (1 :: x.modes 0).length ∧ x.leftRankDim = ([] : List ℕ).length := by
    unfold TT.leftRankDim TT.rightRankDim TT.isBatch TT.isMatrix
    rcases h.rows with h1 | h1 <;> simp [h1, hb, TT.modes]
  obtain ⟨C0, c0, sC0, vC0⟩ := concat_ok B0 (left.core 0) (1 :: x.modes 0) [] 1 1 (by rw [sB0]; rfl) (by rw [sl0]; rfl) _ axr.1
  obtain ⟨C1, c1, sC1, vC1⟩ := concat_ok (right.core 1) B1 [] (x.modes 1 ++ [1]) 1 1 (by rw [sr1]; rfl) (by rw [sB1]; rfl) _ axr.2
  obtain ⟨cores, ec, lc, hch, hv⟩ := Chain.build (fun k => do
      let wc ← pyGet w.cores k
      let lc ← pyGet left.cores k
      let rc ← pyGet right.cores k
      let proj ← projectBlock (modeLabels x) x.isBatch [ones [1, 1, 1], E2, default] [default, E1, ones [1, 1, 1]] 2 k wc lc
      let elc ← extendCore x.isMatrix x.batch lc
      let erc ← extendCore x.isMatrix x.batch rc
      tangentCore x.leftRankDim x.rightRankDim 2 k (zeroBlockShape x left right x.batch k) elc erc proj) 2 none (fun k => if k = 1 then 2 else 1) x.modes x.rawShape.length
    (fun k C => C = if k = 0 then C0 else C1) (by omega) rfl rfl (fun k _ => by split <;> omega) h.rows (fun k _ => by simp [TT.modes]) (by simp) (by
      intro k hk
      obtain rfl | rfl : k = 0 ∨ k = 1 := by omega
      · refine ⟨C0, ?_, by rw [sC0]; rfl, rfl⟩
        rw [ww.pyCore (by omega), wl.pyCore (by omega), wr.pyCore (by omega)]
        simp only [R.ok_bind, hB0, hb, extendCore, pure_bind, tangentCore, if_true]
        exact c0
      · refine ⟨C1, ?_, by rw [sC1]; rfl, rfl⟩
        rw [ww.pyCore (by omega), wl.pyCore (by omega), wr.pyCore (by omega)]
        simp only [R.ok_bind, hB1, hb, extendCore, pure_bind, tangentCore]
        exact c1)
  refine ⟨chainTT none cores (fun k => if k = 1 then 2 else 1) x.modes x.rawShape.length, ?_, hch.wf, ?_, rfl, fun g hg => ?_⟩
  · unfold project projectChecks tangentFrame
    rw [require_pos hb, require_pos rfl, el]
    simp only [R.ok_bind, er, pure_bind, ew, hd, TT.lazyBatchSize, bw, hR, hL]
    rw [ec, hb]
    simp only [R.ok_bind, mkTangent]
    exact mkTT_ok hch (.shapes x.rawShape) (Or.inr (hch.clean (by rw [lc, ← hd]; exact h.rows_eq))) none (Or.inl rfl)
  · change rowsOf _ _ _ = _
    rw [lc, ← hd]; exact h.rows_eq.symm
  · rw [entry_two (y := chainTT none cores (fun k => if k = 1 then 2 else 1) x.modes x.rawShape.length) lc (chainTT_rank 0 (by omega)), chainTT_rank 1 (by omega)]
    have hC0 := hv 0 (by omega)
    have hC1 := hv 1 (by omega)
    rw [if_pos rfl] at hC0
    rw [if_neg (by omega)] at hC1
    have g0 := (hg 0 (by omega)).length_eq
    have g1 := (hg 1 (by omega)).length_eq
    rw [if_pos rfl, Finset.sum_range_succ, Finset.sum_range_one]
    change (cores.getD 0 default).get _ * (cores.getD 1 default).get _ + (cores.getD 0 default).get _ * (cores.getD 1 default).get _ = 0
    rw [hC0, hC1]
    have t0 := vC0 (0 :: g 0) 0 [] (by simp [g0])
    have t1 := vC1 [] 1 (g 1 ++ [0]) rfl
    rw [if_pos (by omega)] at t0
    rw [if_neg (by omega)] at t1
    rw [show C0.get (0 :: (g 0 ++ [0])) = 0 from t0.trans (q0 _ _ g0 rfl), show C1.get (1 :: (g 1 ++ [0])) = 0 from t1.trans (q1 _ g1)]
    ring

end T3f.Cx
