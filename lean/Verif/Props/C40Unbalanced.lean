import Verif.Proofs.AddProjectedUnbalanced
import Verif.Props.C41Pairwise
import Verif.Props.C42Deltas

/-! # C40 and C42: objects of one tangent space without the hypotheses on the ranks -/

namespace T3f

/-- C40: the hypothesis on the ranks of `C40_add_n_projected` cannot be weakened. For all points with two cores that do not meet it, `add_n_projected`
returns an object of another value than the sum for some pair of projections. -/
theorem C40_unbalanced {qr : QRRoutine} (hqr : qr.Correct) {x left right : TT ℝ} (h : x.WF) (hb : x.batch = none) (hm : x.ModesPos) (hd : x.ndims = 2)
    (hl : orthogonalize qr x true = Except.ok left) (hr : orthogonalize qr left false = Except.ok right) (hk : right.rank 1 + 2 ≤ left.rank 1) (o : ℕ) :
    ∃ z₁ z₂ y₁ y₂ y Y₁ Y₂ Y i, z₁.WF ∧ z₂.WF ∧ z₁.rawShape = x.rawShape ∧ z₂.rawShape = x.rawShape ∧
      project qr z₁ x = Except.ok y₁ ∧ project qr z₂ x = Except.ok y₂ ∧
      addNProjected [⟨y₁, some o⟩, ⟨y₂, some o⟩] none = Except.ok ⟨y, some o⟩ ∧
      full y₁ = Except.ok Y₁ ∧ full y₂ = Except.ok Y₂ ∧ full y = Except.ok Y ∧ Y.shape = x.dense.shape ∧ Y₁.shape = x.dense.shape ∧
      Y₂.shape = x.dense.shape ∧ Valid x.dense.shape i ∧ Y.get i ≠ Y₁.get i + Y₂.get i := by
  obtain ⟨hF, F⟩ := frame_of hqr h hb hm hl hr
  have hld : left.ndims = 2 := by rw [F.nl, hd]
  set E : List ℕ → ℝ := fun idx => if idx.headD 1 = 0 then 1 else 0 with hE
  have w1 := withLast_wf F.wl hld (fun _ => 0)
  have w2 := withLast_wf F.wl hld E
  have b1 : (withLast left fun _ => 0).batch = none := F.bl
  have b2 : (withLast left E).batch = none := F.bl
  obtain ⟨u, D, eu, Tu, bu, vu⟩ := project_ok h hb (by omega) hF F w1 F.rl
  obtain ⟨v, D', ev, Tv, bv, vv⟩ := project_ok h hb (by omega) hF F w2 F.rl
  rw [b1] at bu
  rw [b2] at bv
  have ud : u.ndims = 2 := by rw [Tu.nd, hld]
  have vd : v.ndims = 2 := by rw [Tv.nd, hld]
  have ru : u.rawShape = x.rawShape := Tu.rows.trans F.rl
  have rv : v.rawShape = x.rawShape := Tv.rows.trans F.rl
  have rku : u.rank 1 = right.rank 1 + left.rank 1 := by rw [Tu.rank 1 (by omega), addRk, if_neg (by omega)]
  obtain ⟨y, ey, wy, ry, by', yd, y0, y1, c0, c1⟩ := addTwo_cores Tu.wf Tv.wf ud bu bv (rv.trans ru.symm)
    (fun k hk => by rw [Tv.rank k (by omega), Tu.rank k (by omega)]) o
  have hmu : u.modes = x.modes := modes_of_rows ru
  rw [hmu] at c0 c1
  have hpu : u.bpre = [] := by simp [TT.bpre, bu]
  have hpv : v.bpre = [] := by simp [TT.bpre, bv]
  have hpy : y.bpre = [] := by simp [TT.bpre, by']
  obtain ⟨Y₁, eY1, sY1, vY1⟩ := full_ok Tu.wf
  obtain ⟨Y₂, eY2, sY2, vY2⟩ := full_ok Tv.wf
  obtain ⟨Y, eY, sY, vY⟩ := full_ok wy
  rw [ru, hpu] at sY1 vY1
  rw [rv, hpv] at sY2 vY2
  rw [ry, ru, hpy] at sY vY
  -- a position at which the first column of the left frame is not zero
  have h1 := F.lo 0 (by omega) 0 (show 0 < left.rank 1 by omega) 0 (show 0 < left.rank 1 by omega)
  rw [F.l0, Finset.sum_range_one, δ, if_pos rfl] at h1
  obtain ⟨n, hn, hne⟩ : ∃ n < x.N 0, left.fl [] 0 n 0 0 ≠ 0 := by
    by_contra hc
    push Not at hc
    rw [Finset.sum_eq_zero fun n hn => by rw [hc n (Finset.mem_range.1 hn), zero_mul]] at h1
    exact one_ne_zero h1.symm
  have hN1 : 0 < (x.modes 1).prod := modes_pos h hm (by omega)
  have hv0 : Valid (x.modes 0) (unravel (x.modes 0) n) := unravel_valid hn
  have hv1 : Valid (x.modes 1) (unravel (x.modes 1) 0) := unravel_valid hN1
  obtain ⟨i, hi, i0, i1⟩ := rest_two h hd hv0 hv1
  refine ⟨_, _, u, v, y, Y₁, Y₂, Y, i, w1, w2, F.rl, F.rl, eu, ev, ey, eY1, eY2, eY, ?_, ?_, ?_, ?_, ?_⟩
  · rw [sY, dense_shape_single hb]; rfl
  · rw [sY1, dense_shape_single hb]; rfl
  · rw [sY2, dense_shape_single hb]; rfl
  · rw [dense_shape_single hb]; exact hi
  have a1 := vY1 [] i trivial hi
  have a2 := vY2 [] i trivial hi
  have a := vY [] i trivial hi
  rw [List.nil_append] at a1 a2 a
  rw [a1, a2, a, entry_twoCores yd y0, entry_twoCores ud Tu.wf.rank_first, entry_twoCores vd Tv.wf.rank_first, i0, i1, y1]
  have rkv : v.rank 1 = u.rank 1 := by rw [Tv.rank 1 (by omega), Tu.rank 1 (by omega)]
  rw [rkv, ← Finset.sum_add_distrib, ← sub_ne_zero, ← Finset.sum_sub_distrib]
  have Vu0 := Tu.vals 0 (by omega)
  have Vv0 := Tv.vals 0 (by omega)
  have Vu1 := Tu.vals 1 (by omega)
  have Vv1 := Tv.vals 1 (by omega)
  rw [hpu] at Vu0 Vu1
  rw [hpv] at Vv0 Vv1
  have hw0 : Valid (left.modes 0) (unravel (x.modes 0) n) := by rw [F.ml]; exact hv0
  have hw1 : Valid (left.modes 1) (unravel (x.modes 1) 0) := by rw [F.ml]; exact hv1
  have hr2 : right.rank (1 + 1) = 1 := by have := F.rd; rw [hd] at this; exact this
  rw [Finset.sum_eq_single (right.rank 1)]
  · have hj : right.rank 1 < u.rank 1 := by omega
    have hj2 : right.rank 1 < u.rank 1 / 2 := by omega
    rw [c0 _ hv0 _ hj, c1 _ hv1 _ hj, if_pos hj2, if_pos hj2]
    have p0 := Vu0.first' rfl [] trivial _ hw0 0 (by omega)
    have q0 := Vv0.first' rfl [] trivial _ hw0 0 (by omega)
    have p1 := Vu1.blk (by omega) [] trivial _ hw1 0 (by omega) 0 (by omega)
    have q1 := Vv1.blk (by omega) [] trivial _ hw1 0 (by omega) 0 (by omega)
    simp only [List.nil_append, Nat.add_zero] at p0 q0 p1 q1
    have d1 := vu 1 (by omega) [] (by rw [TT.bpre, b1]; trivial) 0 hN1 0 (by omega) 0 (by omega)
    have d2 := vv 1 (by omega) [] (by rw [TT.bpre, b2]; trivial) 0 hN1 0 (by omega) 0 (by omega)
    rw [withLast_block F hd _ (by omega)] at d1 d2
    simp only [List.nil_append, hE, List.headD_cons, if_true] at d1 d2
    rw [p0, q0, p1, q1, d1, d2]
    have : (left.core 0).get (0 :: (unravel (x.modes 0) n ++ [0])) = left.fl [] 0 n 0 0 := by rw [TT.fl, F.ml]; rfl
    rw [this]
    intro hz
    exact hne (by linarith)
  · intro j hj hjn
    have hj := Finset.mem_range.1 hj
    rw [c0 _ hv0 _ hj, c1 _ hv1 _ hj]
    by_cases hjr : j < right.rank 1
    · have p1 := Vu1.up (by omega) [] trivial _ hw1 j hjr 0 (by omega)
      have q1 := Vv1.up (by omega) [] trivial _ hw1 j hjr 0 (by omega)
      simp only [List.nil_append] at p1 q1
      rw [if_pos (by omega), if_pos (by omega), p1, q1]
      ring
    · obtain ⟨a, rfl⟩ : ∃ a, j = right.rank 1 + a := ⟨j - right.rank 1, by omega⟩
      have p0 := Vu0.first' rfl [] trivial _ hw0 a (by omega)
      have q0 := Vv0.first' rfl [] trivial _ hw0 a (by omega)
      have p1 := Vu1.blk (by omega) [] trivial _ hw1 a (by omega) 0 (by omega)
      have q1 := Vv1.blk (by omega) [] trivial _ hw1 a (by omega) 0 (by omega)
      have d1 := vu 1 (by omega) [] (by rw [TT.bpre, b1]; trivial) 0 hN1 a (by omega) 0 (by omega)
      have d2 := vv 1 (by omega) [] (by rw [TT.bpre, b2]; trivial) 0 hN1 a (by omega) 0 (by omega)
      rw [withLast_block F hd _ (by omega)] at d1 d2
      simp only [List.nil_append] at p0 q0 p1 q1
      simp only [List.nil_append, hE, List.headD_cons, show ¬ a = 0 by omega, if_false] at d1 d2
      rw [p0, q0, p1, q1, d1, d2]
      split_ifs <;> ring
  · intro hc
    exact absurd (Finset.mem_range.2 (by omega)) hc

example : ∃ (qr : QRRoutine) (left right : TT ℝ), qr.Correct ∧ exWide.toReal.WF ∧ exWide.toReal.batch = none ∧ exWide.toReal.ModesPos ∧
    exWide.toReal.ndims = 2 ∧ orthogonalize qr exWide.toReal true = Except.ok left ∧ orthogonalize qr left false = Except.ok right ∧
    right.rank 1 + 2 ≤ left.rank 1 := by
  have hm : exWide.toReal.ModesPos := by simp [TT.ModesPos, TT.toReal, exWide]
  obtain ⟨qr, hqr⟩ := qrRoutine_exists
  obtain ⟨left, right, e, F⟩ := tangentFrame_ok hqr exWide_wf rfl hm
  obtain ⟨h1, h2⟩ := tangentFrame_inv e
  refine ⟨qr, left, right, hqr, exWide_wf, rfl, hm, rfl, h1, h2, ?_⟩
  have hl : left.rank 1 = 4 := by rw [F.kl 1 (by decide)]; rfl
  have hr : right.rank 1 ≤ 2 := by
    rw [F.kr 1 (by decide), rlRank_step _ _ (by decide)]
    exact min_le_left _ _
  omega

/-- C42: the hypothesis of `C42_roundtrip` on the last ranks cannot be weakened. If it fails, `tangent_space_to_deltas` does not recover the deltas: the last
one has too few rows and the one before has too many columns. -/
theorem C42_last_rank {qr : QRRoutine} (hqr : qr.Correct) {x left right : TT ℝ} (h : x.WF) (hb : x.batch = none) (hm : x.ModesPos) (hd : 2 ≤ x.ndims)
    (hl : orthogonalize qr x true = Except.ok left) (hr : orthogonalize qr left false = Except.ok right)
    (hk : ∀ k, 0 < k → k + 1 < x.ndims → right.rank k = left.rank k) (hk' : right.rank (x.ndims - 1) + 2 ≤ left.rank (x.ndims - 1))
    {out : Option ℕ} (hout : out ≠ some 0) {deltas : List (Tensor ℝ)} (hlen : deltas.length = x.ndims)
    (hD : ∀ k < x.ndims, (deltas.getD k default).shape = out.toList ++ left.rank k :: (x.modes k ++ [right.rank (k + 1)])) (o : ℕ) :
    ∃ y deltas' n m, deltasToTangent qr deltas x none none = Except.ok y ∧ tangentSpaceToDeltas ⟨y, some o⟩ = Except.ok deltas' ∧
      deltas'.length = deltas.length ∧
      (deltas'.getD (x.ndims - 1) default).shape = out.toList ++ n :: (x.modes (x.ndims - 1) ++ [1]) ∧ n < left.rank (x.ndims - 1) ∧
      (deltas'.getD (x.ndims - 2) default).shape = out.toList ++ left.rank (x.ndims - 2) :: (x.modes (x.ndims - 2) ++ [m]) ∧
      right.rank (x.ndims - 1) < m := by
  obtain ⟨hF, F⟩ := frame_of hqr h hb hm hl hr
  obtain ⟨y, e, T, yb⟩ := deltasToTangent_ok F h hb hd hk (lo := none) (ro := none) hl hr hout hlen hD
  have hny : y.ndims = x.ndims := by rw [T.nd, F.nl]
  have hmod : y.modes = x.modes := modes_of_rows (T.rows.trans F.rl)
  have hry : y.rawShape = x.rawShape := T.rows.trans F.rl
  have rm : ∀ j, 0 < j → j < x.ndims → y.rank j = right.rank j + left.rank j := fun j h0 h1 => by
    rw [T.rank j (by rw [F.nl]; omega), F.nl, addRk, if_neg (by omega)]
  have r0 : y.rank 0 = 1 := T.wf.rank_first
  have rd : y.rank x.ndims = 1 := by rw [← hny]; exact T.wf.rank_last
  obtain ⟨hL, hR⟩ := rankDims y T.wf
  have hpy : y.bpre = out.toList := by rw [TT.bpre, yb]
  have hlast : y.ttRanks.length - 2 = x.ndims - 1 := by rw [T.wf.ranks_len, hny]; omega
  have cut : ∀ k < x.ndims, ∀ {l r : Ix} {lo n lo' n' : ℕ}, IxRange l (y.rank k) lo n → IxRange r (y.rank (k + 1)) lo' n' →
      ∃ E, sliceCore y.leftRankDim y.rightRankDim l r (y.core k) = Except.ok E ∧ E.shape = out.toList ++ n :: (x.modes k ++ [n']) := by
    intro k hk l r lo n lo' n' h1 h2
    have hs := T.wf.core_shape k (by omega)
    rw [hmod, hpy] at hs
    obtain ⟨E, eE, sE, _⟩ := sliceCore_ok hs (axL := y.leftRankDim) (axR := y.rightRankDim) (by rw [hL, yb]) (by rw [hR, hry, yb]; simp [TT.modes]) h1 h2
    exact ⟨E, eE, sE⟩
  have low : ∀ k, IxRange (.slice (some ((y.rank k / 2 : ℕ) : ℤ)) none 1) (y.rank k) (y.rank k / 2) (y.rank k - y.rank k / 2) := fun k =>
    ixRange_from (Nat.div_le_self _ _)
  have up : ∀ k, IxRange (.slice (some 0) (some ((y.rank k / 2 : ℕ) : ℤ)) 1) (y.rank k) 0 (y.rank k / 2) := fun k => ixRange_prefix (Nat.div_le_self _ _)
  have hshape : ∀ k < x.ndims, ∃ E, deltaCore y k = Except.ok E ∧ E.shape = out.toList ++ (if k = 0 then 1 else y.rank k - y.rank k / 2) ::
      (x.modes k ++ [if k = x.ndims - 1 then 1 else y.rank (k + 1) / 2]) := by
    intro k hk
    unfold deltaCore
    rw [hny, T.wf.pyCore (by omega), R.ok_bind, hlast]
    by_cases h1 : k = x.ndims - 1
    · rw [if_pos h1, T.wf.pyRank (by omega), R.ok_bind, if_neg (by omega), if_pos h1, ← h1]
      refine cut k hk (low k) (lo' := 0) ?_
      rw [show k + 1 = x.ndims by omega, rd]
      exact ixRange_all 1
    · rw [if_neg h1, if_neg h1]
      by_cases h2 : k = 0
      · subst h2
        rw [if_pos rfl, if_pos rfl, T.wf.pyRank (by omega), R.ok_bind]
        refine cut 0 hk (lo := 0) ?_ (up 1)
        rw [r0]
        exact ixRange_all 1
      · rw [if_neg h2, if_neg h2, T.wf.pyRank (by omega), R.ok_bind, T.wf.pyRank (by omega), R.ok_bind]
        exact cut k hk (low k) (up (k + 1))
  obtain ⟨_, e1, -⟩ := mapRange_ok (x.ndims - 2) (fun i => do
    let r ← pyGet y.ttRanks (i + 1)
    require (r % 2 = 0) Err.value) (fun _ _ => True) (by
      intro i hi
      refine ⟨(), ?_, trivial⟩
      rw [T.wf.pyRank (by omega), R.ok_bind, require_pos]
      rw [rm (i + 1) (by omega) (by omega), hk (i + 1) (by omega) (by omega)]
      omega)
  obtain ⟨ds, e2, hl', hds⟩ := mapRange_ok x.ndims (deltaCore y) _ hshape
  have hrl := rm (x.ndims - 1) (by omega) (by omega)
  refine ⟨y, ds, y.rank (x.ndims - 1) - y.rank (x.ndims - 1) / 2, y.rank (x.ndims - 1) / 2, e, ?_, by rw [hl', hlen], ?_, by omega, ?_, by omega⟩
  · rw [tangentSpaceToDeltas, require_pos (show (Projected.mk y (some o)).on.isSome = true from rfl), R.ok_bind]
    simp only [hny, e1, R.ok_bind, e2]
  · rw [hds (x.ndims - 1) (by omega), if_neg (by omega), if_pos rfl]
  · rw [hds (x.ndims - 2) (by omega), if_neg (show ¬ x.ndims - 2 = x.ndims - 1 by omega), show x.ndims - 2 + 1 = x.ndims - 1 by omega]
    split_ifs with h0
    · rw [h0, F.l0]
    · rw [rm _ (by omega) (by omega), hk _ (by omega) (by omega), show left.rank (x.ndims - 2) + left.rank (x.ndims - 2) -
        (left.rank (x.ndims - 2) + left.rank (x.ndims - 2)) / 2 = left.rank (x.ndims - 2) by omega]

example : ∃ (qr : QRRoutine) (left right : TT ℝ), qr.Correct ∧ exWide.toReal.WF ∧ exWide.toReal.batch = none ∧ exWide.toReal.ModesPos ∧
    2 ≤ exWide.toReal.ndims ∧ orthogonalize qr exWide.toReal true = Except.ok left ∧ orthogonalize qr left false = Except.ok right ∧
    (∀ k, 0 < k → k + 1 < exWide.toReal.ndims → right.rank k = left.rank k) ∧
    right.rank (exWide.toReal.ndims - 1) + 2 ≤ left.rank (exWide.toReal.ndims - 1) ∧
    ∃ deltas : List (Tensor ℝ), deltas.length = exWide.toReal.ndims ∧ ∀ k < exWide.toReal.ndims,
      (deltas.getD k default).shape = (none : Option ℕ).toList ++ left.rank k :: (exWide.toReal.modes k ++ [right.rank (k + 1)]) := by
  have hm : exWide.toReal.ModesPos := by simp [TT.ModesPos, TT.toReal, exWide]
  obtain ⟨qr, hqr⟩ := qrRoutine_exists
  obtain ⟨left, right, e, F⟩ := tangentFrame_ok hqr exWide_wf rfl hm
  obtain ⟨h1, h2⟩ := tangentFrame_inv e
  have hn : exWide.toReal.ndims = 2 := rfl
  refine ⟨qr, left, right, hqr, exWide_wf, rfl, hm, le_rfl, h1, h2, fun k h0 h1 => by omega, ?_,
    [⟨left.rank 0 :: (exWide.toReal.modes 0 ++ [right.rank 1]), fun _ => 1⟩, ⟨left.rank 1 :: (exWide.toReal.modes 1 ++ [right.rank 2]), fun _ => 1⟩], rfl, fun k hk => ?_⟩
  · have hl : left.rank 1 = 4 := by rw [F.kl 1 (by decide)]; rfl
    have hr : right.rank 1 ≤ 2 := by
      rw [F.kr 1 (by decide), rlRank_step _ _ (by decide)]
      exact min_le_left _ _
    rw [hn]
    change right.rank 1 + 2 ≤ left.rank 1
    omega
  · rw [hn] at hk
    interval_cases k <;> rfl

end T3f
