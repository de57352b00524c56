import Verif.Proofs.ProjectEin
import Verif.Proofs.Assemble
import Verif.Proofs.Inner

/-! # `project` and `project_sum` -/

namespace T3f

/-- The situation after the preparations of `project`: a frame of `x` and a batch `w` of objects of the same shape. -/
structure PSetup (x left right w : TT ℝ) (n : ℕ) : Prop where
  F : TFrame x left right
  wx : x.WF
  ww : w.WF
  bw : w.batch = some n
  rw' : w.rawShape = x.rawShape
  nw : w.ndims = x.ndims

section
variable {x left right w : TT ℝ} {n : ℕ}

theorem PSetup.mw (P : PSetup x left right w n) : w.modes = x.modes := modes_of_rows P.rw'
theorem PSetup.cw (P : PSetup x left right w n) {k : ℕ} (hk : k < x.ndims) : pyGet w.cores k = Except.ok (w.core k) :=
  P.ww.pyCore (by rw [P.nw]; exact hk)
theorem PSetup.sw (P : PSetup x left right w n) {k : ℕ} (hk : k < x.ndims) :
    (w.core k).shape = n :: w.rank k :: (x.modes k ++ [w.rank (k + 1)]) := by
  rw [P.ww.core_shape k (by rw [P.nw]; exact hk), P.mw, TT.bpre, P.bw]; rfl
theorem PSetup.wd (P : PSetup x left right w n) : w.rank x.ndims = 1 := by rw [← P.nw]; exact P.ww.rank_last
theorem PSetup.ax (P : PSetup x left right w n) (k : ℕ) : AxFor (modeLabels x) (x.modes k) := modeLabels_spec P.wx k

theorem pyGet_set_ne {l : List (Tensor ℝ)} {i j : ℕ} (h : i ≠ j) (v : Tensor ℝ) : (l.set i v).getD j default = l.getD j default := by
  simp [List.getD, List.getElem?_set_ne h]

theorem PSetup.rhs_ok (P : PSetup x left right w n) (hd : 1 ≤ x.ndims) :
    ∃ rhs, projectRhs (modeLabels x) w right x.ndims n = Except.ok rhs ∧ rhs.length = x.ndims + 1 ∧ ∀ k, 0 < k → k ≤ x.ndims →
      (rhs.getD k default).shape = [n, w.rank k, right.rank k] ∧
      ∀ s a c, (rhs.getD k default).get [s, a, c] = rgram x.N w.rank right.rank (w.fl [s]) (right.fl []) (x.ndims - k) k a c := by
  have F := P.F
  obtain ⟨rhs, e, hl, hv⟩ := forRange_inv (fun j (rhs : List (Tensor ℝ)) => rhs.length = x.ndims + 1 ∧ ∀ k, x.ndims - j ≤ k → k ≤ x.ndims →
      (rhs.getD k default).shape = [n, w.rank k, right.rank k] ∧
      ∀ s a c, (rhs.getD k default).get [s, a, c] = rgram x.N w.rank right.rank (w.fl [s]) (right.fl []) (x.ndims - k) k a c)
    (fun j => rhsStep (modeLabels x) w right (x.ndims - 1 - j)) 0 (x.ndims - 1)
    ((List.replicate (x.ndims + 1) default).set x.ndims (ones [n, 1, 1])) (by
      refine ⟨by simp, fun k h1 h2 => ?_⟩
      obtain rfl : k = x.ndims := by omega
      rw [List.getD_eq_getElem _ _ (by simp)]
      simp only [List.getElem_set_self, P.wd, F.rd, Nat.sub_self]
      exact ⟨rfl, fun s a c => rfl⟩)
    (by
      intro j rhs _ hj ⟨hl, hv⟩
      obtain ⟨k, hk⟩ : ∃ k, x.ndims - 1 - j = k := ⟨_, rfl⟩
      have hkd : k < x.ndims := by omega
      obtain ⟨hs, hg⟩ := hv (k + 1) (by omega) (by omega)
      obtain ⟨E, eE, sE, vE⟩ := rhsEin (P.ax k) (P.sw hkd) hs (F.sr hkd)
      refine ⟨rhs.set k E, ?_, by rw [List.length_set]; exact hl, fun i h1 h2 => ?_⟩
      · unfold rhsStep
        rw [hk, P.cw hkd, F.cr hkd, pyGet_of_lt _ _ default (show k + 1 < rhs.length by omega)]
        simp only [R.ok_bind, eE]
        rfl
      · by_cases hik : k = i
        · subst hik
          rw [List.getD_eq_getElem _ _ (by rw [List.length_set]; omega), List.getElem_set_self]
          refine ⟨sE, fun s a c => ?_⟩
          rw [vE, show x.ndims - k = (x.ndims - (k + 1)) + 1 by omega, rgram]
          refine Finset.sum_congr rfl fun u _ => Finset.sum_congr rfl fun v _ => ?_
          rw [hg]
          simp only [TT.fl, P.mw, F.mr, TT.N]
          rfl
        · rw [pyGet_set_ne hik]
          exact hv i (by omega) h2)
  refine ⟨rhs, e, hl, fun k h1 h2 => hv k (by omega) h2⟩

theorem PSetup.lhs_ok (P : PSetup x left right w n) (hd : 1 ≤ x.ndims) :
    ∃ lhs, projectLhs (modeLabels x) w left x.ndims n = Except.ok lhs ∧ lhs.length = x.ndims + 1 ∧ ∀ k < x.ndims,
      (lhs.getD k default).shape = [n, left.rank k, w.rank k] ∧
      ∀ s, ∀ a < left.rank k, ∀ c < w.rank k, (lhs.getD k default).get [s, a, c] = gram x.N left.rank w.rank (left.fl []) (w.fl [s]) k a c := by
  have F := P.F
  obtain ⟨lhs, e, hl, hv⟩ := forRange_inv (fun j (lhs : List (Tensor ℝ)) => lhs.length = x.ndims + 1 ∧ ∀ k ≤ j,
      (lhs.getD k default).shape = [n, left.rank k, w.rank k] ∧
      ∀ s, ∀ a < left.rank k, ∀ c < w.rank k, (lhs.getD k default).get [s, a, c] = gram x.N left.rank w.rank (left.fl []) (w.fl [s]) k a c)
    (lhsStep (modeLabels x) w left) 0 (x.ndims - 1)
    ((List.replicate (x.ndims + 1) default).set 0 (ones [n, 1, 1])) (by
      refine ⟨by simp, fun k h1 => ?_⟩
      obtain rfl : k = 0 := by omega
      rw [List.getD_eq_getElem _ _ (by simp)]
      simp only [List.getElem_set_self, F.l0, P.ww.rank_first]
      refine ⟨rfl, fun s a ha c hc => ?_⟩
      obtain rfl : a = 0 := by omega
      obtain rfl : c = 0 := by omega
      simp [gram, ones])
    (by
      intro k lhs _ hj ⟨hl, hv⟩
      have hkd : k < x.ndims := by omega
      obtain ⟨hs, hg⟩ := hv k le_rfl
      obtain ⟨E, eE, sE, vE⟩ := lhsEin (P.ax k) hs (F.sl hkd) (P.sw hkd)
      refine ⟨lhs.set (k + 1) E, ?_, by rw [List.length_set]; exact hl, fun i h1 => ?_⟩
      · unfold lhsStep
        rw [P.cw hkd, F.cl hkd, pyGet_of_lt _ _ default (show k < lhs.length by omega)]
        simp only [R.ok_bind, eE]
        rfl
      · by_cases hik : k + 1 = i
        · subst hik
          rw [List.getD_eq_getElem _ _ (by rw [List.length_set]; omega), List.getElem_set_self]
          refine ⟨sE, fun s a _ c _ => ?_⟩
          rw [vE, gram]
          refine Finset.sum_congr rfl fun u hu => Finset.sum_congr rfl fun v hv => ?_
          rw [hg s u (Finset.mem_range.1 hu) v (Finset.mem_range.1 hv)]
          simp only [TT.fl, P.mw, F.ml, TT.N]
          rfl
        · rw [pyGet_set_ne hik]
          exact hv i (by omega))
  refine ⟨lhs, e, hl, fun k h1 => hv k (by omega)⟩

/-- The block at `k` of the projection of the element `s` of the batch `w`. -/
noncomputable def tBlock (x left right w : TT ℝ) (p : List ℕ) (k m a b : ℕ) : ℝ :=
  tanBlock x.N left.rank right.rank w.rank (left.fl []) (right.fl []) (w.fl p) x.ndims k m a b

theorem tanBlock_eq_mid {N rL rV rW : ℕ → ℕ} {L V W : ℕ → ℕ → ℕ → ℕ → ℝ} {d k m a b : ℕ} (hk : k + 1 < d) :
    ∑ u ∈ Finset.range (rW (k + 1)), (∑ c ∈ Finset.range (rW k), gram N rL rW L W k a c * W k m c u -
        ∑ c ∈ Finset.range (rL (k + 1)), L k m a c * gram N rL rW L W (k + 1) c u) * rgram N rW rV W V (d - (k + 1)) (k + 1) u b =
      tanBlock N rL rV rW L V W d k m a b := by
  rw [tanBlock, if_pos hk, blockProj]
  simp only [sub_mul, Finset.sum_sub_distrib, Finset.sum_mul]
  congr 1
  · rw [Finset.sum_comm]
    refine Finset.sum_congr rfl fun c _ => Finset.sum_congr rfl fun u _ => ?_
    rw [rgram_comm, show d - (k + 1) = d - 1 - k by omega]
  · rw [Finset.sum_comm]
    refine Finset.sum_congr rfl fun c _ => ?_
    rw [coupling, Finset.mul_sum]
    refine Finset.sum_congr rfl fun u _ => ?_
    rw [rgram_comm, mul_assoc]

theorem tanBlock_eq_last {N rL rV rW : ℕ → ℕ} {L V W : ℕ → ℕ → ℕ → ℕ → ℝ} {d k m a b : ℕ} (hk : k + 1 = d) (hW : rW d = 1) (hb : b = 0) :
    ∑ c ∈ Finset.range (rW k), gram N rL rW L W k a c * W k m c b = tanBlock N rL rV rW L V W d k m a b := by
  rw [tanBlock, if_neg (by omega), sub_zero, blockProj, hk, hW, show d - 1 - k = 0 by omega]
  simp [rgram, hb]

theorem PSetup.block_ok (P : PSetup x left right w n) {lhs rhs : List (Tensor ℝ)} (ll : lhs.length = x.ndims + 1) (lr : rhs.length = x.ndims + 1)
    (hL : ∀ k < x.ndims, (lhs.getD k default).shape = [n, left.rank k, w.rank k] ∧
      ∀ s, ∀ a < left.rank k, ∀ c < w.rank k, (lhs.getD k default).get [s, a, c] = gram x.N left.rank w.rank (left.fl []) (w.fl [s]) k a c)
    (hR : ∀ k, 0 < k → k ≤ x.ndims → (rhs.getD k default).shape = [n, w.rank k, right.rank k] ∧
      ∀ s a c, (rhs.getD k default).get [s, a, c] = rgram x.N w.rank right.rank (w.fl [s]) (right.fl []) (x.ndims - k) k a c)
    {k : ℕ} (hk : k < x.ndims) :
    (∃ E, projectBlock (modeLabels x) true lhs rhs x.ndims k (w.core k) (left.core k) = Except.ok E ∧
      E.shape = n :: left.rank k :: (x.modes k ++ [right.rank (k + 1)]) ∧
      ∀ s < n, ∀ m < (x.modes k).prod, ∀ a < left.rank k, ∀ b < right.rank (k + 1), E.get (s :: a :: (unravel (x.modes k) m ++ [b])) = tBlock x left right w [s] k m a b) ∧
    ∃ E, projectBlock (modeLabels x) false lhs rhs x.ndims k (w.core k) (left.core k) = Except.ok E ∧
      E.shape = left.rank k :: (x.modes k ++ [right.rank (k + 1)]) ∧
      ∀ m < (x.modes k).prod, ∀ a < left.rank k, ∀ b < right.rank (k + 1), E.get (a :: (unravel (x.modes k) m ++ [b])) =
        ∑ s ∈ Finset.range n, tBlock x left right w [s] k m a b := by
  have F := P.F
  obtain ⟨sL, vL⟩ := hL k hk
  have gL : pyGet lhs k = Except.ok (lhs.getD k default) := pyGet_of_lt _ _ _ (by omega)
  obtain ⟨⟨E1, e1, s1, v1⟩, ⟨E1', e1', s1', v1'⟩⟩ := lastEin (P.ax k) sL (P.sw hk)
  by_cases h1 : k + 1 < x.ndims
  · obtain ⟨sL', vL'⟩ := hL (k + 1) h1
    obtain ⟨sR, vR⟩ := hR (k + 1) (by omega) h1.le
    have gL' : pyGet lhs (k + 1) = Except.ok (lhs.getD (k + 1) default) := pyGet_of_lt _ _ _ (by omega)
    have gR : pyGet rhs (k + 1) = Except.ok (rhs.getD (k + 1) default) := pyGet_of_lt _ _ _ (by omega)
    obtain ⟨E2, e2, s2, v2⟩ := backEin (P.ax k) (F.sl hk) sL'
    have hsub := binop_ok (· - ·) E1 E2 E1.shape (by rw [s1, s2]; exact bshape_self _)
    obtain ⟨Df, ed, sd, vd⟩ := hsub
    have hdiff : projectDiff (modeLabels x) lhs k (w.core k) (left.core k) = Except.ok Df := by
      unfold projectDiff
      rw [gL, gL']
      simp only [R.ok_bind, e1, e2, ed]
    have hval : ∀ s < n, ∀ m < (x.modes k).prod, ∀ a < left.rank k, ∀ u < w.rank (k + 1), Df.get (s :: a :: (unravel (x.modes k) m ++ [u])) =
        ∑ c ∈ Finset.range (w.rank k), gram x.N left.rank w.rank (left.fl []) (w.fl [s]) k a c * w.fl [s] k m c u -
        ∑ c ∈ Finset.range (left.rank (k + 1)), left.fl [] k m a c * gram x.N left.rank w.rank (left.fl []) (w.fl [s]) (k + 1) c u := by
      intro s hs m hm a ha u hu
      have hval : Valid (n :: left.rank k :: (x.modes k ++ [w.rank (k + 1)])) (s :: a :: (unravel (x.modes k) m ++ [u])) :=
        ⟨hs, valid_rmr ha (unravel_valid hm) hu⟩
      rw [vd, s1, s2, bproj_valid hval, v1 s a _ u (unravel_length _ _), v2 s a _ u (unravel_length _ _)]
      congr 1
      · refine Finset.sum_congr rfl fun c hc => ?_
        rw [vL s a ha c (Finset.mem_range.1 hc), TT.fl, P.mw]; rfl
      · refine Finset.sum_congr rfl fun c hc => ?_
        rw [vL' s c (Finset.mem_range.1 hc) u hu, TT.fl, F.ml]; rfl
    rw [s1] at sd
    obtain ⟨⟨E3, e3, s3, v3⟩, ⟨E3', e3', s3', v3'⟩⟩ := timesEin (P.ax k) sd sR
    have term : ∀ s < n, ∀ m < (x.modes k).prod, ∀ a < left.rank k, ∀ b, ∑ u ∈ Finset.range (w.rank (k + 1)),
        Df.get (s :: a :: (unravel (x.modes k) m ++ [u])) * (rhs.getD (k + 1) default).get [s, u, b] = tBlock x left right w [s] k m a b := by
      intro s hs m hm a ha b
      rw [tBlock, ← tanBlock_eq_mid h1]
      exact Finset.sum_congr rfl fun u hu => by rw [hval s hs m hm a ha u (Finset.mem_range.1 hu), vR]
    refine ⟨⟨E3, ?_, s3, fun s hs m hm a ha b hb => ?_⟩, ⟨E3', ?_, s3', fun m hm a ha b hb => ?_⟩⟩
    · unfold projectBlock
      rw [if_pos h1, hdiff, gR]
      exact e3
    · rw [v3 s a _ b (unravel_length _ _)]
      exact term s hs m hm a ha b
    · unfold projectBlock
      rw [if_pos h1, hdiff, gR]
      exact e3'
    · rw [v3' a _ b (unravel_length _ _)]
      exact Finset.sum_congr rfl fun s hs => term s (Finset.mem_range.1 hs) m hm a ha b
  · have hkd : k + 1 = x.ndims := by omega
    have hwr : w.rank (k + 1) = right.rank (k + 1) := by rw [hkd, P.wd, F.rd]
    have hr1 : right.rank (k + 1) = 1 := by rw [hkd, F.rd]
    rw [hwr] at s1 s1'
    have term : ∀ s m, ∀ a < left.rank k, ∀ b < right.rank (k + 1), ∑ u ∈ Finset.range (w.rank k),
        (lhs.getD k default).get [s, a, u] * (w.core k).get (s :: u :: (unravel (x.modes k) m ++ [b])) = tBlock x left right w [s] k m a b := by
      intro s m a ha b hb
      rw [tBlock, ← tanBlock_eq_last hkd P.wd (by omega)]
      exact Finset.sum_congr rfl fun u hu => by rw [vL s a ha u (Finset.mem_range.1 hu), TT.fl, P.mw]; rfl
    refine ⟨⟨E1, ?_, s1, fun s hs m hm a ha b hb => ?_⟩, ⟨E1', ?_, s1', fun m hm a ha b hb => ?_⟩⟩
    · unfold projectBlock
      rw [if_neg h1, gL]
      exact e1
    · rw [v1 s a _ b (unravel_length _ _)]
      exact term s m a ha b hb
    · unfold projectBlock
      rw [if_neg h1, gL]
      exact e1'
    · rw [v1' a _ b (unravel_length _ _)]
      exact Finset.sum_congr rfl fun s hs => term s m a ha b hb

end

theorem zeroBlock_ok {x left right : TT ℝ} (F : TFrame x left right) (h : x.WF) (out : Option ℕ) {k : ℕ} (hk : k < x.ndims) :
    zeroBlockShape x left right out k = Except.ok (out.toList ++ right.rank k :: (x.modes k ++ [left.rank (k + 1)])) := by
  unfold zeroBlockShape
  rw [F.wr.pyRank (by rw [F.nr]; exact hk.le), F.wl.pyRank (by rw [F.nl]; omega)]
  rcases rows_cases h with ⟨row, hr, hl⟩ | ⟨row0, row1, hr, hl0, hl1⟩
  · have e0 : pyGet row k = Except.ok (row.getD k 0) := pyGet_of_lt _ _ _ (by omega)
    have hm : ¬ x.isMatrix := by simp [TT.isMatrix, hr]
    have g0 : pyGet x.rawShape 0 = Except.ok row := by rw [hr]; rfl
    simp only [R.ok_bind, g0, e0, if_neg hm]
    simp [TT.modes, hr]
  · have e0 : pyGet row0 k = Except.ok (row0.getD k 0) := pyGet_of_lt _ _ _ (by omega)
    have e1 : pyGet row1 k = Except.ok (row1.getD k 0) := pyGet_of_lt _ _ _ (by omega)
    have hm : x.isMatrix := by simp [TT.isMatrix, hr]
    have g0 : pyGet x.rawShape 0 = Except.ok row0 := by rw [hr]; rfl
    have g1 : pyGet x.rawShape 1 = Except.ok row1 := by rw [hr]; rfl
    simp only [R.ok_bind, g0, g1, e0, e1, if_pos hm]
    simp [TT.modes, hr]

/-- `expand_batch_dim`, in terms of flat mode indices. -/
theorem expand_fl {z : TT ℝ} (h : z.WF) : ∃ w n, expandBatchDim z = Except.ok w ∧ w.WF ∧ w.batch = some n ∧ w.rawShape = z.rawShape ∧
    w.rank = z.rank ∧ w.ndims = z.ndims ∧ (z.batch = some n ∧ w = z ∨ z.batch = none ∧ n = 1) ∧
    ∀ s, w.fl [s] = z.fl (bproj z.bpre [s]) ∨ z.batch ≠ none := by
  cases hb : z.batch with
  | some n => exact ⟨z, n, by simp [expandBatchDim, hb], h, hb, rfl, rfl, rfl, Or.inl ⟨rfl, rfl⟩, fun s => Or.inr (by simp)⟩
  | none =>
    obtain ⟨w, e, ww, bw, rw', kw, nw, vw⟩ := expandBatchDim_ok h hb
    refine ⟨w, 1, e, ww, bw, rw', by funext k; simp only [TT.rank, kw], nw, Or.inr ⟨rfl, rfl⟩, fun s => Or.inl ?_⟩
    funext k m a b
    have hp : z.bpre = [] := by simp [TT.bpre, hb]
    have : bproj ([] : List ℕ) [s] = [] := by simp [bproj]
    rw [hp, this, TT.fl, TT.fl, modes_of_rows rw']
    by_cases hk : k < z.ndims
    · exact vw k hk s _
    · have h1 : w.core k = default := by rw [TT.core, List.getD_eq_default]; change w.ndims ≤ k; omega
      have h2 : z.core k = default := by rw [TT.core, List.getD_eq_default]; change z.ndims ≤ k; omega
      rw [h1, h2]; rfl

theorem rankDims (z : TT ℝ) (h : z.WF) : z.leftRankDim = z.batch.toList.length ∧ z.rightRankDim = z.batch.toList.length + z.rawShape.length + 1 := by
  unfold TT.leftRankDim TT.rightRankDim TT.isBatch TT.isMatrix
  rcases h.rows with h1 | h1 <;> cases z.batch <;> simp [h1]

/-- What `project` returns. -/
theorem project_ok {qr : QRRoutine} {x left right : TT ℝ} (h : x.WF) (hb : x.batch = none) (hd : 2 ≤ x.ndims)
    (hF : tangentFrame qr x = Except.ok (left, right)) (F : TFrame x left right) {z : TT ℝ} (hz : z.WF) (hr : z.rawShape = x.rawShape) :
    ∃ y D, project qr z x = Except.ok y ∧ IsTangent left right D y ∧ y.batch = z.batch ∧
      ∀ k < x.ndims, ∀ p, Valid z.bpre p → ∀ m < (x.modes k).prod, ∀ a < left.rank k, ∀ b < right.rank (k + 1),
        (D k).get (p ++ a :: (unravel (x.modes k) m ++ [b])) = tBlock x left right z p k m a b := by
  obtain ⟨w, n, ew, ww, bw, rw', kw, nw, hcase, hfl⟩ := expand_fl hz
  have P : PSetup x left right w n := ⟨F, h, ww, bw, rw'.trans hr, nw.trans (ndims_of_rows hz h hr)⟩
  obtain ⟨rhs, er, lr, hR⟩ := P.rhs_ok (by omega)
  obtain ⟨lhs, el, ll, hL⟩ := P.lhs_ok (by omega)
  have hbs : w.lazyBatchSize = Except.ok n := by simp [TT.lazyBatchSize, bw]
  have blocks : ∀ k < x.ndims, ∃ E, projectBlock (modeLabels x) z.isBatch lhs rhs x.ndims k (w.core k) (left.core k) = Except.ok E ∧
      E.shape = z.batch.toList ++ left.rank k :: (x.modes k ++ [right.rank (k + 1)]) ∧
      ∀ p, Valid z.bpre p → ∀ m < (x.modes k).prod, ∀ a < left.rank k, ∀ b < right.rank (k + 1),
        E.get (p ++ a :: (unravel (x.modes k) m ++ [b])) = tBlock x left right z p k m a b := by
    intro k hk
    obtain ⟨⟨E, e, s, v⟩, ⟨E', e', s', v'⟩⟩ := P.block_ok ll lr hL hR hk
    rcases hcase with ⟨hzb, rfl⟩ | ⟨hzb, rfl⟩
    · refine ⟨E, by rw [TT.isBatch, hzb]; exact e, by rw [hzb]; exact s, fun p hp m hm a ha b hb' => ?_⟩
      rw [TT.bpre, hzb] at hp
      obtain ⟨o, _, rfl, ho, hn⟩ := (valid_cons_iff _ _ _).1 hp
      rw [valid_nil_iff] at hn
      subst hn
      exact v o ho m hm a ha b hb'
    · refine ⟨E', by rw [TT.isBatch, hzb]; exact e', by rw [hzb]; exact s', fun p hp m hm a ha b hb' => ?_⟩
      rw [TT.bpre, hzb] at hp
      obtain rfl := (valid_nil_iff p).1 hp
      have hfl0 := (hfl 0).resolve_right (by simp [hzb])
      rw [show z.bpre = [] by simp [TT.bpre, hzb], show bproj ([] : List ℕ) [0] = [] by simp [bproj]] at hfl0
      refine (v' m hm a ha b hb').trans ?_
      rw [Finset.sum_range_one, tBlock, tBlock, kw, hfl0]
  choose! D hD1 hD2 hD3 using blocks
  obtain ⟨axL, axR⟩ := rankDims z hz
  rw [hr] at axR
  obtain ⟨cores, y, ec, ey, hT, hyb⟩ := assemble F h hd (out := z.batch) hz.batch_pos (f := fun k => do
      let wc ← pyGet w.cores k
      let lc ← pyGet left.cores k
      let rc ← pyGet right.cores k
      let proj ← projectBlock (modeLabels x) z.isBatch lhs rhs x.ndims k wc lc
      let elc ← extendCore x.isMatrix z.batch lc
      let erc ← extendCore x.isMatrix z.batch rc
      tangentCore z.leftRankDim z.rightRankDim x.ndims k (zeroBlockShape x left right z.batch k) elc erc proj) (D := D) hD2 (by
    intro k hk
    obtain ⟨elc, erc, C, e1, e2, e3, e4, e5⟩ := assemble_core F hd (isMat := x.isMatrix) Iff.rfl z.batch hk (hD2 k hk) (zeroBlock_ok F h z.batch hk) axL axR
    refine ⟨C, ?_, e4, e5⟩
    rw [P.cw hk, F.cl hk, F.cr hk]
    simp only [R.ok_bind, hD1 k hk, e1, e2, e3])
  refine ⟨y, D, ?_, hT, hyb, hD3⟩
  unfold project projectChecks
  rw [require_pos hb, require_pos hr.symm, hF, ew]
  simp only [R.ok_bind, hbs, er, el]
  rw [ec]
  exact ey

/-- What `project_sum` returns. -/
theorem projectSum_ok {qr : QRRoutine} {x left right : TT ℝ} (h : x.WF) (hb : x.batch = none) (hd : 2 ≤ x.ndims)
    (hF : tangentFrame qr x = Except.ok (left, right)) (F : TFrame x left right) {w : TT ℝ} {n : ℕ} (hw : w.WF) (hbw : w.batch = some n)
    (hr : w.rawShape = x.rawShape) (weights : Option (Tensor ℝ)) (c : List ℕ → ℕ → ℝ)
    (hc : weights = none ∧ c = (fun _ _ => 1) ∨ (∃ wt, weights = some wt ∧ wt.shape = [n] ∧ c = fun _ s => wt.get [s]) ∨
      ∃ wt o, weights = some wt ∧ wt.shape = [n, o] ∧ 1 < o ∧ c = fun p s => wt.get (s :: p)) :
    ∃ y D, projectSum qr w x weights = Except.ok y ∧ IsTangent left right D y ∧ y.batch = sumOutBatch weights ∧
      ∀ k < x.ndims, ∀ p, Valid y.bpre p → ∀ m < (x.modes k).prod, ∀ a < left.rank k, ∀ b < right.rank (k + 1),
        (D k).get (p ++ a :: (unravel (x.modes k) m ++ [b])) = ∑ s ∈ Finset.range n, c p s * tBlock x left right w [s] k m a b := by
  have ew : expandBatchDim w = Except.ok w := by simp [expandBatchDim, hbw]
  have P : PSetup x left right w n := ⟨F, h, hw, hbw, hr, ndims_of_rows hw h hr⟩
  obtain ⟨rhs, er, lr, hR⟩ := P.rhs_ok (by omega)
  obtain ⟨lhs, el, ll, hL⟩ := P.lhs_ok (by omega)
  have hbs : w.lazyBatchSize = Except.ok n := by simp [TT.lazyBatchSize, hbw]
  have blocks : ∀ k < x.ndims, ∃ E, projectSumBlock (modeLabels x) weights lhs rhs x.ndims k (w.core k) (left.core k) = Except.ok E ∧
      E.shape = (sumOutBatch weights).toList ++ left.rank k :: (x.modes k ++ [right.rank (k + 1)]) ∧
      ∀ p, Valid (sumOutBatch weights).toList p → ∀ m < (x.modes k).prod, ∀ a < left.rank k, ∀ b < right.rank (k + 1),
        E.get (p ++ a :: (unravel (x.modes k) m ++ [b])) = ∑ s ∈ Finset.range n, c p s * tBlock x left right w [s] k m a b := by
    intro k hk
    obtain ⟨⟨E, e, s, v⟩, ⟨E', e', s', v'⟩⟩ := P.block_ok ll lr hL hR hk
    rcases hc with ⟨rfl, rfl⟩ | ⟨wt, rfl, hs, rfl⟩ | ⟨wt, o, rfl, hs, ho, rfl⟩
    · refine ⟨E', e', s', fun p hp m hm a ha b hb' => ?_⟩
      obtain rfl := (valid_nil_iff p).1 hp
      exact (v' m hm a ha b hb').trans (Finset.sum_congr rfl fun s _ => (one_mul _).symm)
    · have hout : sumOutBatch (some wt) = none := by simp [sumOutBatch, hs]
      obtain ⟨E2, e2, s2, v2⟩ := weightEin1 (P.ax k) hs s
      refine ⟨E2, ?_, by rw [hout]; exact s2, fun p hp m hm a ha b hb' => ?_⟩
      · unfold projectSumBlock
        simp only [hout, bLabel, e, R.ok_bind]
        exact e2
      · rw [hout] at hp
        obtain rfl := (valid_nil_iff p).1 hp
        refine (v2 a _ b (unravel_length _ _)).trans (Finset.sum_congr rfl fun s hs => ?_)
        rw [v s (Finset.mem_range.1 hs) m hm a ha b hb']
    · have hout : sumOutBatch (some wt) = some o := by simp [sumOutBatch, hs, ho]
      obtain ⟨E2, e2, s2, v2⟩ := weightEin2 (P.ax k) hs s
      refine ⟨E2, ?_, by rw [hout]; exact s2, fun p hp m hm a ha b hb' => ?_⟩
      · unfold projectSumBlock
        simp only [hout, bLabel, e, R.ok_bind]
        exact e2
      · rw [hout] at hp
        obtain ⟨q, _, rfl, hq, hn⟩ := (valid_cons_iff _ _ _).1 hp
        rw [valid_nil_iff] at hn
        subst hn
        refine (v2 q a _ b (unravel_length _ _)).trans (Finset.sum_congr rfl fun s hs => ?_)
        rw [v s (Finset.mem_range.1 hs) m hm a ha b hb']
  choose! D hD1 hD2 hD3 using blocks
  obtain ⟨axL, axR⟩ := rankDims x h
  have hout0 : sumOutBatch weights ≠ some 0 := by
    rcases hc with ⟨rfl, rfl⟩ | ⟨wt, rfl, hs, rfl⟩ | ⟨wt, o, rfl, hs, ho, rfl⟩
    · simp [sumOutBatch]
    · simp [sumOutBatch, hs]
    · simp [sumOutBatch, hs, ho]; omega
  have ho : (if (sumOutBatch weights).isSome then 1 else 0) = (sumOutBatch weights).toList.length := by
    cases sumOutBatch weights <;> rfl
  rw [hb] at axL axR
  obtain ⟨cores, y, ec, ey, hT, hyb⟩ := assemble F h hd (out := sumOutBatch weights) hout0 (f := fun k => do
      let wc ← pyGet w.cores k
      let lc ← pyGet left.cores k
      let rc ← pyGet right.cores k
      let proj ← projectSumBlock (modeLabels x) weights lhs rhs x.ndims k wc lc
      let elc ← extendCore x.isMatrix (sumOutBatch weights) lc
      let erc ← extendCore x.isMatrix (sumOutBatch weights) rc
      tangentCore (x.leftRankDim + if (sumOutBatch weights).isSome then 1 else 0) (x.rightRankDim + if (sumOutBatch weights).isSome then 1 else 0)
        x.ndims k (zeroBlockShape x left right (sumOutBatch weights) k) elc erc proj) (D := D) hD2 (by
    intro k hk
    obtain ⟨elc, erc, C, e1, e2, e3, e4, e5⟩ := assemble_core F hd (isMat := x.isMatrix) Iff.rfl (sumOutBatch weights) hk (hD2 k hk)
      (zeroBlock_ok F h (sumOutBatch weights) hk) (axL := x.leftRankDim + if (sumOutBatch weights).isSome then 1 else 0)
      (axR := x.rightRankDim + if (sumOutBatch weights).isSome then 1 else 0)
      (by rw [axL, ho]; simp) (by rw [axR, ho]; simp; omega)
    refine ⟨C, ?_, e4, e5⟩
    rw [P.cw hk, F.cl hk, F.cr hk]
    simp only [R.ok_bind, hD1 k hk, e1, e2, e3])
  refine ⟨y, D, ?_, hT, hyb, fun k hk p hp => hD3 k hk p (by rw [TT.bpre, hyb] at hp; exact hp)⟩
  unfold projectSum projectChecks
  rw [ew, R.ok_bind, require_pos hb, require_pos hr.symm, hF]
  simp only [R.ok_bind, hbs, er, el]
  rw [ec]
  exact ey

end T3f
