import Verif.Proofs.AddProjected
import Verif.Proofs.Frames

/-!
# The sum of two objects of one tangent space if halving the ranks does not give the blocks

Objects with two cores.
-/

namespace T3f

/-- The two cores of the sum that `add_n_projected` returns for any two objects with two cores of equal shapes. -/
theorem addTwo_cores {u v : TT ℝ} (hu : u.WF) (hv : v.WF) (hd : u.ndims = 2) (bu : u.batch = none) (bv : v.batch = none)
    (hr : v.rawShape = u.rawShape) (hk : ∀ k ≤ 2, v.rank k = u.rank k) (o : ℕ) :
    ∃ y, addNProjected [⟨u, some o⟩, ⟨v, some o⟩] none = Except.ok ⟨y, some o⟩ ∧ y.WF ∧ y.rawShape = u.rawShape ∧ y.batch = none ∧ y.ndims = 2 ∧
      y.rank 0 = 1 ∧ y.rank 1 = u.rank 1 ∧
      (∀ m, Valid (u.modes 0) m → ∀ j < u.rank 1, (y.core 0).get (0 :: (m ++ [j])) =
        if j < u.rank 1 / 2 then (u.core 0).get (0 :: (m ++ [j])) + (v.core 0).get (0 :: (m ++ [j])) else (u.core 0).get (0 :: (m ++ [j]))) ∧
      (∀ m, Valid (u.modes 1) m → ∀ j < u.rank 1, (y.core 1).get (j :: (m ++ [0])) =
        if j < u.rank 1 / 2 then (v.core 1).get (j :: (m ++ [0])) else (u.core 1).get (j :: (m ++ [0])) + (v.core 1).get (j :: (m ++ [0]))) := by
  have hvd : v.ndims = 2 := by rw [ndims_of_rows hv hu hr, hd]
  have mv : v.modes = u.modes := modes_of_rows hr
  have hub : u.bpre = [] := by simp [TT.bpre, bu]
  have hvb : v.bpre = [] := by simp [TT.bpre, bv]
  have r0 : u.rank 0 = 1 := hu.rank_first
  have r2 : u.rank 2 = 1 := by rw [← hd]; exact hu.rank_last
  obtain ⟨axL, axR⟩ := rankDims u hu
  rw [bu] at axL axR
  have hcu : ∀ k < 2, pyGet u.cores k = Except.ok (u.core k) ∧ (u.core k).shape = [] ++ u.rank k :: (u.modes k ++ [u.rank (k + 1)]) := fun k hk' =>
    ⟨hu.pyCore (by omega), by rw [hu.core_shape k (by omega), hub]⟩
  have hcv : ∀ k < 2, pyGet v.cores k = Except.ok (v.core k) ∧ (v.core k).shape = [] ++ u.rank k :: (u.modes k ++ [u.rank (k + 1)]) := fun k hk' =>
    ⟨hv.pyCore (by omega), by rw [hv.core_shape k (by omega), hvb, mv, hk k (by omega), hk (k + 1) (by omega)]⟩
  have hobj : ∀ k < 2, ∀ i < 2, pyGet (([u, v]).getD i default).cores k = Except.ok ((([u, v]).getD i default).core k) ∧
      ((([u, v]).getD i default).core k).shape = (none : Option ℕ).toList ++ u.rank k :: (u.modes k ++ [u.rank (k + 1)]) := by
    intro k hk' i hi
    rcases (show i = 0 ∨ i = 1 by omega) with rfl | rfl
    · exact hcu k hk'
    · exact hcv k hk'
  have hL : ∀ k, ∀ c0, pyGet u.cores 0 = Except.ok c0 → c0.shape.length = (none : Option ℕ).toList.length + ((u.modes k).length + 2) := by
    intro k c0 e
    obtain rfl : u.core 0 = c0 := Except.ok.inj ((hcu 0 (by omega)).1.symm.trans e)
    rw [(hcu 0 (by omega)).2]
    simp [TT.modes]
  have h0t : ∃ c0, pyGet u.cores 0 = Except.ok c0 := ⟨_, (hcu 0 (by omega)).1⟩
  have hml : ∀ k, (u.modes k).length = u.rawShape.length := fun k => by simp [TT.modes]
  have axR' : ∀ k, u.rightRankDim = (none : Option ℕ).toList.length + (u.modes k).length + 1 := fun k => by rw [axR, hml]
  have hc : AddCoef 2 none none (fun _ _ => 1) := .ones
  set r := u.rank 1 with hrdef
  have hh : r / 2 ≤ r := Nat.div_le_self _ _
  have hpr : pyGet u.ttRanks 1 = Except.ok r := hu.pyRank (by omega)
  have hassoc : ∀ (a : ℕ) (M : List ℕ) (b : ℕ), a :: (M ++ [b]) = (a :: M) ++ b :: [] := by intros; simp
  have hsplit : r / 2 + (r - r / 2) = r := by omega
  -- the first core
  have c0 : ∃ C, addProjectedCore u.leftRankDim u.rightRankDim 2 u.ttRanks none [u, v] u v 0 = Except.ok C ∧
      C.shape = [] ++ u.rank 0 :: (u.modes 0 ++ [u.rank (0 + 1)]) ∧ ∀ m, Valid (u.modes 0) m → ∀ j < r, C.get (0 :: (m ++ [j])) =
        if j < r / 2 then (u.core 0).get (0 :: (m ++ [j])) + (v.core 0).get (0 :: (m ++ [j])) else (u.core 0).get (0 :: (m ++ [j])) := by
    obtain ⟨w, T, ew, eT, sT, vT⟩ := sumSlices_ok hc (objs := [u, v]) rfl (by omega) (hobj 0 (by omega)) (hL 0) h0t axL (axR' _) (ixRange_all _)
      (ixRange_prefix hh)
    obtain rfl : none = w := Except.ok.inj ew
    obtain ⟨B, eB, sB, vB⟩ := sliceCore_ok (hcu 0 (by omega)).2 axL (axR' _) (ixRange_all _) (ixRange_from hh)
    obtain ⟨C, eC, sC, vC⟩ := concat_ok T B (u.rank 0 :: u.modes 0) [] (r / 2) (r - r / 2) (by rw [sT]; rfl) (by rw [sB]; rfl) u.rightRankDim
      (by rw [axR]; simp [hml])
    refine ⟨C, ?_, by rw [sC, hsplit]; simp [hrdef], fun m hm j hj => ?_⟩
    · unfold addProjectedCore
      rw [(hcu 0 (by omega)).1, (hcv 0 (by omega)).1, R.ok_bind, R.ok_bind, if_pos rfl, hpr, R.ok_bind]
      simp only [eT, R.ok_bind, eB]
      exact eC
    · have := vC (0 :: m) j [] (by simp [hm.length_eq])
      rw [← hassoc] at this
      rw [this]
      split_ifs with hj2
      · have h1 := vT [] trivial m hm 0 (by omega) j hj2
        simp only [List.nil_append, Nat.zero_add] at h1
        rw [h1, Finset.sum_range_succ, Finset.sum_range_one]
        simp
      · have h1 := vB [] trivial m hm 0 (by omega) (j - r / 2) (show j - r / 2 < r - r / 2 by omega)
        simp only [List.nil_append, Nat.zero_add] at h1
        rw [← hassoc, h1, show r / 2 + (j - r / 2) = j by omega]
  have c1 : ∃ C, addProjectedCore u.leftRankDim u.rightRankDim 2 u.ttRanks none [u, v] u v 1 = Except.ok C ∧
      C.shape = [] ++ u.rank 1 :: (u.modes 1 ++ [u.rank (1 + 1)]) ∧ ∀ m, Valid (u.modes 1) m → ∀ j < r, C.get (j :: (m ++ [0])) =
        if j < r / 2 then (v.core 1).get (j :: (m ++ [0])) else (u.core 1).get (j :: (m ++ [0])) + (v.core 1).get (j :: (m ++ [0])) := by
    obtain ⟨w, T, ew, eT, sT, vT⟩ := sumSlices_ok hc (objs := [u, v]) rfl (by omega) (hobj 1 (by omega)) (hL 1) h0t axL (axR' _)
      (ixRange_from hh) (ixRange_all _)
    obtain rfl : none = w := Except.ok.inj ew
    obtain ⟨B, eB, sB, vB⟩ := sliceCore_ok (hcv 1 (by omega)).2 axL (axR' _) (ixRange_prefix hh) (ixRange_all _)
    obtain ⟨C, eC, sC, vC⟩ := concat_ok B T [] (u.modes 1 ++ [u.rank 2]) (r / 2) (r - r / 2) sB sT u.leftRankDim axL
    refine ⟨C, ?_, by rw [sC, hsplit], fun m hm j hj => ?_⟩
    · unfold addProjectedCore
      rw [(hcu 1 (by omega)).1, (hcv 1 (by omega)).1, R.ok_bind, R.ok_bind, if_neg (by omega), if_pos rfl, hpr, R.ok_bind]
      simp only [eT, R.ok_bind, eB]
      exact eC
    · have := vC [] j (m ++ [0]) rfl
      rw [List.nil_append] at this
      rw [this]
      split_ifs with hj2
      · have h1 := vB [] trivial m hm j hj2 0 (show 0 < u.rank 2 by omega)
        simp only [List.nil_append, Nat.zero_add] at h1
        exact h1
      · have h1 := vT [] trivial m hm (j - r / 2) (show j - r / 2 < r - r / 2 by omega) 0 (show 0 < u.rank 2 by omega)
        simp only [List.nil_append, Nat.zero_add] at h1
        rw [List.nil_append, h1, show r / 2 + (j - r / 2) = j by omega, Finset.sum_range_succ, Finset.sum_range_one]
        simp
  obtain ⟨C0, e0, s0, v0⟩ := c0
  obtain ⟨C1, e1, s1, v1⟩ := c1
  obtain ⟨cores, ec, lc, hch, hval⟩ := Chain.build (addProjectedCore u.leftRankDim u.rightRankDim 2 u.ttRanks none [u, v] u v) 2 none u.rank u.modes
    u.rawShape.length (fun k C => (k = 0 → C = C0) ∧ (k = 1 → C = C1)) (by omega) r0 r2 (fun k hk' => hu.rank_pos k (by omega)) hu.rows (fun k _ => hml k)
    (by simp) (fun k hk' => by
      rcases (show k = 0 ∨ k = 1 by omega) with rfl | rfl
      · exact ⟨C0, e0, s0, fun _ => rfl, fun h => by omega⟩
      · exact ⟨C1, e1, s1, fun h => by omega, fun _ => rfl⟩)
  have hmk := mkLike_ok hch u.rawShape (by rw [lc, ← hd]; exact hu.rows_eq) u.ttRanks (by rw [hu.ranks_eq, lc, hd])
  refine ⟨chainTT none cores u.rank u.modes u.rawShape.length, ?_, hch.wf, ?_, rfl, lc, ?_, ?_, ?_, ?_⟩
  · unfold addNProjected
    rw [require_pos (by simp), R.ok_bind]
    have hfirst : pyGet [(⟨u, some o⟩ : Projected), ⟨v, some o⟩] 0 = Except.ok ⟨u, some o⟩ := rfl
    have hlast : pyLast [(⟨u, some o⟩ : Projected), ⟨v, some o⟩] = Except.ok ⟨v, some o⟩ := rfl
    rw [hfirst, R.ok_bind, require_pos (by simp), R.ok_bind]
    have hprep : prepareCoef u none = Except.ok none := rfl
    rw [hprep, R.ok_bind, hlast, R.ok_bind]
    simp only [hd, bu, List.map_cons, List.map_nil]
    rw [ec, R.ok_bind, hmk]
    rfl
  · change rowsOf _ _ _ = _
    rw [lc, ← hd]; exact hu.rows_eq.symm
  · rw [chainTT_rank 0 (by omega), r0]
  · rw [chainTT_rank 1 (by omega)]
  · intro m hm j hj
    rw [← v0 m hm j hj, ← (hval 0 (by omega)).1 rfl]; rfl
  · intro m hm j hj
    rw [← v1 m hm j hj, ← (hval 1 (by omega)).2 rfl]; rfl

theorem entry_twoCores {y : TT ℝ} (hd : y.ndims = 2) (h0 : y.rank 0 = 1) (m : ℕ → List ℕ) :
    y.entry [] m = ∑ j ∈ Finset.range (y.rank 1), (y.core 0).get (0 :: (m 0 ++ [j])) * (y.core 1).get (j :: (m 1 ++ [0])) := by
  rw [TT.entry, hd, lprod]
  refine Finset.sum_congr rfl fun j _ => ?_
  rw [lprod, h0, Finset.sum_range_one, lprod, if_pos rfl, one_mul]
  rfl

/-- All pairs of mode indices of two cores belong to a position. -/
theorem rest_two {x : TT ℝ} (h : x.WF) (hd : x.ndims = 2) {m₀ m₁ : List ℕ} (h0 : Valid (x.modes 0) m₀) (h1 : Valid (x.modes 1) m₁) :
    ∃ i, Valid (restShape x.rawShape) i ∧ restModes x.rawShape i 0 = m₀ ∧ restModes x.rawShape i 1 = m₁ := by
  by_cases hm : x.isMatrix
  · obtain ⟨row0, row1, hrow, hl0, hl1⟩ := h.rawShape_matrix hm
    rw [hd] at hl0 hl1
    obtain ⟨a, b, rfl⟩ := List.length_eq_two.1 hl0
    obtain ⟨c, e, rfl⟩ := List.length_eq_two.1 hl1
    simp only [TT.modes, hrow, List.map_cons, List.map_nil] at h0 h1
    obtain ⟨i, j, rfl, hi, hj⟩ := (valid_pair _ _ _).1 h0
    obtain ⟨k, l, rfl, hk, hl⟩ := (valid_pair _ _ _).1 h1
    have v0 : Valid [a, b] [i, k] := ⟨hi, hk, trivial⟩
    have v1 : Valid [c, e] [j, l] := ⟨hj, hl, trivial⟩
    refine ⟨[ravel [a, b] [i, k], ravel [c, e] [j, l]], ?_, ?_, ?_⟩
    · rw [hrow, restShape_matrix]; exact ⟨ravel_lt v0, ravel_lt v1, trivial⟩
    · rw [hrow, restModes_matrix, unravel_ravel v0, unravel_ravel v1]; rfl
    · rw [hrow, restModes_matrix, unravel_ravel v0, unravel_ravel v1]; rfl
  · obtain ⟨row, hrow, hlen⟩ := h.rawShape_tensor hm
    rw [hd] at hlen
    obtain ⟨a, b, rfl⟩ := List.length_eq_two.1 hlen
    simp only [TT.modes, hrow, List.map_cons, List.map_nil] at h0 h1
    obtain ⟨i, rfl, hi⟩ := (valid_singleton _ _).1 h0
    obtain ⟨j, rfl, hj⟩ := (valid_singleton _ _).1 h1
    refine ⟨[i, j], ?_, ?_, ?_⟩
    · rw [hrow]; exact ⟨hi, hj, trivial⟩
    · rw [hrow]; rfl
    · rw [hrow]; rfl

/-- The left frame with another second core. -/
def withLast (left : TT ℝ) (E : List ℕ → ℝ) : TT ℝ :=
  { left with cores := [left.core 0, ⟨(left.core 1).shape, E⟩] }

theorem withLast_wf {left : TT ℝ} (h : left.WF) (hd : left.ndims = 2) (E : List ℕ → ℝ) : (withLast left E).WF := by
  have hl : (withLast left E).ndims = left.ndims := by rw [hd]; rfl
  exact {
    pos := by rw [hl]; exact h.pos
    ranks_len := by rw [hl]; exact h.ranks_len
    rank_first := h.rank_first
    rank_last := by rw [hl]; exact h.rank_last
    rank_pos := by rw [hl]; exact h.rank_pos
    rows := h.rows
    rows_len := by rw [hl]; exact h.rows_len
    core_shape := fun k hk => by
      have := h.core_shape k (by rw [hl] at hk; exact hk)
      rcases (show k = 0 ∨ k = 1 by rw [hl, hd] at hk; omega) with rfl | rfl
      · exact this
      · exact this
    batch_pos := h.batch_pos }

section
variable {x left right : TT ℝ}

/-- The last block of the projection of `withLast left E` is `E`. -/
theorem withLast_block (F : TFrame x left right) (hd : x.ndims = 2) (E : List ℕ → ℝ) {m a : ℕ} (ha : a < left.rank 1) :
    tBlock x left right (withLast left E) [] 1 m a 0 = E (a :: (unravel (x.modes 1) m ++ [0])) := by
  have hld : left.ndims = 2 := by rw [F.nl, hd]
  have h2 : left.rank 2 = 1 := by rw [← hld]; exact F.wl.rank_last
  rw [tBlock, hd, ← tanBlock_eq_last (d := 2) rfl (show (withLast left E).rank 2 = 1 from h2) rfl]
  have hg : ∀ c < left.rank 1, gram x.N left.rank (withLast left E).rank (left.fl []) ((withLast left E).fl []) 1 a c = δ a c := by
    intro c hc
    have : gram x.N left.rank (withLast left E).rank (left.fl []) ((withLast left E).fl []) 1 a c =
        gram x.N left.rank left.rank (left.fl []) (left.fl []) 1 a c := rfl
    rw [this]
    exact gram_id F.l0 (fun j hj => F.lo j (by omega)) ha hc
  rw [Finset.sum_congr rfl fun c hc => by rw [hg c (Finset.mem_range.1 hc)]]
  change ∑ c ∈ Finset.range (left.rank 1), _ = _
  rw [Finset.sum_eq_single a]
  · rw [δ, if_pos rfl, one_mul]
    have hm : (withLast left E).modes = x.modes := modes_of_rows F.rl
    rw [TT.fl, hm]
    rfl
  · intro c _ hne
    rw [δ, if_neg (fun h => hne h.symm), zero_mul]
  · intro h
    exact absurd (Finset.mem_range.2 ha) h

end

end T3f
