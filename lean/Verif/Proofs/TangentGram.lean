import Verif.Proofs.RankSlice
import Verif.Proofs.Gauge
import Verif.Proofs.ProjectEin
import Verif.Proofs.ProjectProps
import Verif.Spec.Projected

/-! # The objects of one tangent space: blocks and Gram matrices -/

namespace T3f

/-- The blocks of the batch item `p`. -/
def blk (D : ℕ → Tensor ℝ) (p : List ℕ) : ℕ → List ℕ → ℕ → ℕ → ℝ := fun k v a b => (D k).get (p ++ a :: (v ++ [b]))

/-- `y` is a tangent vector whose blocks are orthogonal to the left cores. -/
structure GTangent (x left right : TT ℝ) (D : ℕ → Tensor ℝ) (y : TT ℝ) : Prop where
  tan : IsTangent left right D y
  gauge : ∀ p, Valid y.bpre p → Gauged x.N left.rank right.rank (left.fl []) (flat x (blk D p)) x.ndims

/-- Halving the ranks finds the blocks. -/
def Halves (x left right : TT ℝ) : Prop := ∀ k, 0 < k → k < x.ndims → (right.rank k + left.rank k) / 2 = right.rank k

theorem pairEin {ax : List Char} {M : List ℕ} (hM : AxFor ax M) {A B : Tensor ℝ} {n m a b : ℕ}
    (hA : A.shape = n :: a :: (M ++ [b])) (hB : B.shape = m :: a :: (M ++ [b])) :
    ∃ E, einsum ([chars! "pa" ++ (ax ++ ['b']), chars! "qa" ++ (ax ++ ['b'])], chars! "pq") [A, B] = Except.ok E ∧
      E.shape = [n, m] ∧ ∀ s t, E.get [s, t] = ∑ u ∈ Finset.range a, ∑ i ∈ Finset.range M.prod, ∑ v ∈ Finset.range b,
        A.get (s :: u :: (unravel M i ++ [v])) * B.get (t :: u :: (unravel M i ++ [v])) := by
  obtain ⟨_, A⟩ := A; obtain ⟨_, B⟩ := B
  dsimp only at hA hB
  subst hA hB
  rcases hM with ⟨hM, rfl⟩ | ⟨hM, rfl⟩
  · obtain ⟨i, rfl⟩ := List.length_eq_one_iff.1 hM
    refine ⟨_, if_pos (by simp [einDims, List.lookup]), rfl, fun s t => ?_⟩
    refine Eq.trans (b := ∑ u ∈ Finset.range a, ∑ p ∈ Finset.range i, ∑ v ∈ Finset.range b, A [s, u, p, v] * (B [t, u, p, v] * 1)) rfl ?_
    simp only [mul_one]
    refine Finset.sum_congr rfl fun u _ => ?_
    rw [sum_mode1 i fun m => ∑ v ∈ Finset.range b, A (s :: u :: (m ++ [v])) * B (t :: u :: (m ++ [v]))]
    rfl
  · obtain ⟨i, j, rfl⟩ := List.length_eq_two.1 hM
    refine ⟨_, if_pos (by simp (maxSteps := 1000000) [einDims, List.lookup]), rfl, fun s t => ?_⟩
    refine Eq.trans (b := ∑ u ∈ Finset.range a, ∑ p ∈ Finset.range i, ∑ q ∈ Finset.range j, ∑ v ∈ Finset.range b,
      A [s, u, p, q, v] * (B [t, u, p, q, v] * 1)) rfl ?_
    simp only [mul_one]
    refine Finset.sum_congr rfl fun u _ => ?_
    rw [sum_mode2 i j fun m => ∑ v ∈ Finset.range b, A (s :: u :: (m ++ [v])) * B (t :: u :: (m ++ [v]))]
    rfl

theorem pairSlices_ok {a b : TT ℝ} (wa : a.WF) (wb : b.WF) {n m : ℕ} (ba : a.batch = some n) (bb : b.batch = some m) (hr : b.rawShape = a.rawShape)
    {k : ℕ} (hk : k < a.ndims) (hr1 : b.rank k = a.rank k) (hr2 : b.rank (k + 1) = a.rank (k + 1)) {l r : Ix} {lo c lo' c' : ℕ}
    (hl : IxRange l (a.rank k) lo c) (hr' : IxRange r (a.rank (k + 1)) lo' c') :
    ∃ E, pairSlices a b l r k = Except.ok E ∧ E.shape = [n, m] ∧ ∀ s < n, ∀ t < m, E.get [s, t] =
      ∑ u ∈ Finset.range c, ∑ i ∈ Finset.range (a.N k), ∑ v ∈ Finset.range c',
        a.fl [s] k i (lo + u) (lo' + v) * b.fl [t] k i (lo + u) (lo' + v) := by
  have hnb : b.ndims = a.ndims := ndims_of_rows wb wa hr
  have hmb : b.modes = a.modes := modes_of_rows hr
  have sa : (a.core k).shape = n :: a.rank k :: (a.modes k ++ [a.rank (k + 1)]) := by
    rw [wa.core_shape k hk]; simp [TT.bpre, ba]
  have sb : (b.core k).shape = m :: a.rank k :: (a.modes k ++ [a.rank (k + 1)]) := by
    rw [wb.core_shape k (by omega), hmb, hr1, hr2]; simp [TT.bpre, bb]
  have hmat : if a.isMatrix then (a.modes k).length = 2 else (a.modes k).length = 1 := by
    have : (a.modes k).length = a.rawShape.length := by simp [TT.modes]
    rw [this]
    split
    · assumption
    · next h => exact wa.rows.resolve_right h
  obtain ⟨A, eA, sA, vA⟩ := rankSlice_ok hmat sa hl hr'
  obtain ⟨B, eB, sB, vB⟩ := rankSlice_ok hmat sb hl hr'
  obtain ⟨E, e, s, v⟩ := pairEin (modeLabels_spec wa k) sA sB
  refine ⟨E, ?_, s, fun s hs t ht => ?_⟩
  · unfold pairSlices
    rw [wa.pyCore hk, wb.pyCore (by omega)]
    simp only [R.ok_bind, eA, eB]
    exact e
  · rw [v s t]
    refine Finset.sum_congr rfl fun u hu => Finset.sum_congr rfl fun i hi => Finset.sum_congr rfl fun w hw => ?_
    have hv : Valid (a.modes k) (unravel (a.modes k) i) := unravel_valid (Finset.mem_range.1 hi)
    rw [vA s hs _ hv u (Finset.mem_range.1 hu) w (Finset.mem_range.1 hw), vB t ht _ hv u (Finset.mem_range.1 hu) w (Finset.mem_range.1 hw), TT.fl, TT.fl, hmb]
    rfl

section
variable {x left right : TT ℝ}

theorem IsTangent.fl_block {D : ℕ → Tensor ℝ} {y : TT ℝ} (F : TFrame x left right) (T : IsTangent left right D y) {p : List ℕ} (hp : Valid y.bpre p)
    {k m a b : ℕ} (hk : k < x.ndims) (hm : m < x.N k) (ha : a < left.rank k) (hb : b < right.rank (k + 1)) :
    y.fl p k m ((if k = 0 then 0 else right.rank k) + a) b = flat x (blk D p) k m a b := by
  have hV := T.vals k (by rw [F.nl]; exact hk)
  have hmod : y.modes = x.modes := modes_of_rows (T.rows.trans F.rl)
  have hv : Valid (left.modes k) (unravel (x.modes k) m) := by rw [F.ml]; exact unravel_valid hm
  rw [TT.fl, hmod, flat, blk]
  by_cases h0 : k = 0
  · have h0l := F.l0
    obtain rfl : a = 0 := by rw [h0] at ha; omega
    rw [if_pos h0, Nat.add_zero]
    exact hV.first h0 p hp _ hv b (by rw [h0] at hb; exact hb)
  · rw [if_neg h0]
    exact hV.blk (by omega) p hp _ hv a ha b hb

theorem itemIdx_valid {y : TT ℝ} {s : ℕ} (hs : s < y.batch.getD 1) : Valid y.bpre (itemIdx y s) := by
  unfold itemIdx TT.bpre
  cases h : y.batch with
  | none => trivial
  | some n => rw [h] at hs; exact ⟨hs, trivial⟩

theorem expand_item {z : TT ℝ} (h : z.WF) : ∃ w, expandBatchDim z = Except.ok w ∧ w.WF ∧ w.batch = some (z.batch.getD 1) ∧ w.rawShape = z.rawShape ∧
    w.rank = z.rank ∧ w.ndims = z.ndims ∧ ∀ s < z.batch.getD 1, w.fl [s] = z.fl (itemIdx z s) := by
  obtain ⟨w, n, e, ww, bw, rw', kw, nw, hcase, hfl⟩ := expand_fl h
  rcases hcase with ⟨hz, rfl⟩ | ⟨hz, rfl⟩
  · exact ⟨w, e, ww, by simp [hz], rfl, rfl, rfl, fun s _ => by simp [itemIdx, TT.bpre, hz]⟩
  · refine ⟨w, e, ww, by simp [bw, hz], rw', kw, nw, fun s _ => ?_⟩
    rw [(hfl s).resolve_right (by simp [hz])]
    simp [itemIdx, TT.bpre, hz, bproj]

/-- The sum over one block. -/
noncomputable def blockDot (x left right : TT ℝ) (D E : ℕ → List ℕ → ℕ → ℕ → ℝ) (k : ℕ) : ℝ :=
  ∑ a ∈ Finset.range (left.rank k), ∑ n ∈ Finset.range (x.N k), ∑ b ∈ Finset.range (right.rank (k + 1)), flat x D k n a b * flat x E k n a b

theorem binop_add_ok {A B : Tensor ℝ} {n m : ℕ} (hA : A.shape = [n, m]) (hB : B.shape = [n, m]) :
    ∃ S, binop (· + ·) A B = Except.ok S ∧ S.shape = [n, m] ∧ ∀ s < n, ∀ t < m, S.get [s, t] = A.get [s, t] + B.get [s, t] := by
  obtain ⟨S, e, sh, v⟩ := binop_ok (· + ·) A B [n, m] (by rw [hA, hB]; exact bshape_self _)
  refine ⟨S, e, sh, fun s hs t ht => ?_⟩
  rw [v, hA, hB, bproj_valid (s := [n, m]) (i := [s, t]) ⟨hs, ht, trivial⟩]

theorem pairwise_blocks (F : TFrame x left right) (hd : 2 ≤ x.ndims) (hH : Halves x left right) {D E : ℕ → Tensor ℝ} {u v : TT ℝ}
    (Tu : IsTangent left right D u) (Tv : IsTangent left right E v) (o : ℕ) :
    ∃ G, pairwiseProjected ⟨u, some o⟩ ⟨v, some o⟩ = Except.ok G ∧ G.shape = [u.batch.getD 1, v.batch.getD 1] ∧
      ∀ s < u.batch.getD 1, ∀ t < v.batch.getD 1, G.get [s, t] = ∑ k ∈ Finset.range x.ndims, blockDot x left right (blk D (itemIdx u s)) (blk E (itemIdx v t)) k := by
  obtain ⟨a, ea, wa, ba, ra, ka, na, fa⟩ := expand_item Tu.wf
  obtain ⟨b, eb, wb, bb, rb, kb, nb, fb⟩ := expand_item Tv.wf
  have hra : a.rawShape = x.rawShape := ra.trans (Tu.rows.trans F.rl)
  have hrb : b.rawShape = x.rawShape := rb.trans (Tv.rows.trans F.rl)
  have hNa : a.N = x.N := by funext k; simp only [TT.N, modes_of_rows hra]
  have hna : a.ndims = x.ndims := by rw [na, Tu.nd, F.nl]
  have rka : ∀ k ≤ x.ndims, a.rank k = addRk right.rank left.rank x.ndims k := fun k hk => by rw [ka, Tu.rank k (by rw [F.nl]; exact hk), F.nl]
  have rkb : ∀ k ≤ x.ndims, b.rank k = a.rank k := fun k hk => by rw [rka k hk, kb, Tv.rank k (by rw [F.nl]; exact hk), F.nl]
  have r0 : a.rank 0 = 1 := wa.rank_first
  have rd : a.rank x.ndims = 1 := by rw [← hna]; exact wa.rank_last
  have rm : ∀ k, 0 < k → k < x.ndims → a.rank k = right.rank k + left.rank k := fun k h0 h1 => by
    rw [rka k h1.le, addRk, if_neg (by omega)]
  have l0 := F.l0
  have frd := F.rd
  -- one block
  have step : ∀ k < x.ndims, ∀ l r, IxRange l (a.rank k) (if k = 0 then 0 else right.rank k) (left.rank k) →
      IxRange r (a.rank (k + 1)) 0 (right.rank (k + 1)) → ∃ B, pairSlices a b l r k = Except.ok B ∧ B.shape = [u.batch.getD 1, v.batch.getD 1] ∧
        ∀ s < u.batch.getD 1, ∀ t < v.batch.getD 1, B.get [s, t] = blockDot x left right (blk D (itemIdx u s)) (blk E (itemIdx v t)) k := by
    intro k hk l r hl hr
    obtain ⟨B, e, s, w⟩ := pairSlices_ok wa wb ba bb (hrb.trans hra.symm) (by rw [hna]; exact hk) (rkb k hk.le) (rkb (k + 1) hk) hl hr
    refine ⟨B, e, s, fun s hs t ht => ?_⟩
    rw [w s hs t ht, hNa, blockDot]
    refine Finset.sum_congr rfl fun c hc => Finset.sum_congr rfl fun m hm => Finset.sum_congr rfl fun q hq => ?_
    rw [fa s hs, fb t ht, Nat.zero_add, Tu.fl_block F (itemIdx_valid hs) hk (Finset.mem_range.1 hm) (Finset.mem_range.1 hc) (Finset.mem_range.1 hq),
      Tv.fl_block F (itemIdx_valid ht) hk (Finset.mem_range.1 hm) (Finset.mem_range.1 hc) (Finset.mem_range.1 hq)]
  have half : ∀ k, 0 < k → k < x.ndims → a.rank k / 2 = right.rank k := fun k h0 h1 => by rw [rm k h0 h1]; exact hH k h0 h1
  have low : ∀ k, 0 < k → k < x.ndims → IxRange (.slice (some ((a.rank k / 2 : ℕ) : ℤ)) none 1) (a.rank k) (if k = 0 then 0 else right.rank k) (left.rank k) := by
    intro k h0 h1
    have := ixRange_from (r := a.rank k) (h := right.rank k) (by rw [rm k h0 h1]; omega)
    rw [half k h0 h1, if_neg (by omega)]
    rw [show left.rank k = a.rank k - right.rank k by rw [rm k h0 h1]; omega]
    exact this
  have up : ∀ k, 0 < k → k < x.ndims → IxRange (.slice none (some ((a.rank k / 2 : ℕ) : ℤ)) 1) (a.rank k) 0 (right.rank k) := by
    intro k h0 h1
    rw [half k h0 h1]
    exact ixRange_upto (by rw [rm k h0 h1]; omega)
  -- the first core
  obtain ⟨B0, e0, s0, v0⟩ := step 0 (by omega) .all _ (by rw [if_pos rfl, l0, r0]; exact ixRange_all 1) (up 1 (by omega) (by omega))
  -- the loop
  obtain ⟨B1, e1, s1, v1⟩ := forRange_inv (fun i (B : Tensor ℝ) => B.shape = [u.batch.getD 1, v.batch.getD 1] ∧
      ∀ s < u.batch.getD 1, ∀ t < v.batch.getD 1, B.get [s, t] =
        ∑ k ∈ Finset.range (min i (x.ndims - 1)), blockDot x left right (blk D (itemIdx u s)) (blk E (itemIdx v t)) k)
    (fun k res => do
      let rl ← pyGet a.ttRanks k
      let rr ← pyGet a.ttRanks (k + 1)
      let e ← pairSlices a b (.slice (some (rl / 2 : ℕ)) none 1) (.slice none (some (rr / 2 : ℕ)) 1) k
      binop (· + ·) res e) 1 (x.ndims - 1) B0 (by
      refine ⟨s0, fun s hs t ht => ?_⟩
      rw [show min 1 (x.ndims - 1) = 1 by omega, Finset.sum_range_one]
      exact v0 s hs t ht) (by
      rintro k res h1 h2 ⟨sr, vr⟩
      have hkd : k < x.ndims := by omega
      have : ∃ B, pairSlices a b (.slice (some ((a.rank k / 2 : ℕ) : ℤ)) none 1) (.slice none (some ((a.rank (k + 1) / 2 : ℕ) : ℤ)) 1) k = Except.ok B ∧
          B.shape = [u.batch.getD 1, v.batch.getD 1] ∧ ∀ s < u.batch.getD 1, ∀ t < v.batch.getD 1, B.get [s, t] =
            if k = x.ndims - 1 then 0 else blockDot x left right (blk D (itemIdx u s)) (blk E (itemIdx v t)) k := by
        by_cases hl : k = x.ndims - 1
        · have hk1 : k + 1 = x.ndims := by omega
          obtain ⟨B, e, s, w⟩ := pairSlices_ok wa wb ba bb (hrb.trans hra.symm) (by rw [hna]; exact hkd) (rkb k hkd.le) (rkb (k + 1) hkd)
            (low k (by omega) hkd) (ixRange_upto (r := a.rank (k + 1)) (h := a.rank (k + 1) / 2) (by omega))
          refine ⟨B, e, s, fun s hs t ht => ?_⟩
          rw [w s hs t ht, if_pos hl, hk1, rd]
          simp
        · obtain ⟨B, e, s, w⟩ := step k hkd _ _ (low k (by omega) hkd) (up (k + 1) (by omega) (by omega))
          exact ⟨B, e, s, fun s hs t ht => by rw [if_neg hl]; exact w s hs t ht⟩
      obtain ⟨B, e, s, w⟩ := this
      obtain ⟨S, eS, sS, vS⟩ := binop_add_ok sr s
      refine ⟨S, ?_, sS, fun s hs t ht => ?_⟩
      · rw [wa.pyRank (by omega), wa.pyRank (by omega)]
        simp only [R.ok_bind, e]
        exact eS
      · rw [vS s hs t ht, vr s hs t ht, w s hs t ht]
        by_cases hl : k = x.ndims - 1
        · rw [if_pos hl, add_zero, show min (k + 1) (x.ndims - 1) = min k (x.ndims - 1) by omega]
        · rw [if_neg hl, show min (k + 1) (x.ndims - 1) = k + 1 by omega, show min k (x.ndims - 1) = k by omega, Finset.sum_range_succ])
  -- the last core
  have hlast : a.ttRanks.length - 2 = x.ndims - 1 := by rw [wa.ranks_len, hna]; omega
  obtain ⟨B2, e2, s2, v2⟩ := step (x.ndims - 1) (by omega) _ .all (low (x.ndims - 1) (by omega) (by omega)) (by
    rw [show x.ndims - 1 + 1 = x.ndims by omega, rd, frd]; exact ixRange_all 1)
  obtain ⟨G, eG, sG, vG⟩ := binop_add_ok s1 s2
  refine ⟨G, ?_, sG, fun s hs t ht => ?_⟩
  · unfold pairwiseProjected
    rw [require_pos ⟨rfl, rfl⟩, require_pos rfl]
    simp only [R.ok_bind, ea, eb, hna, hlast]
    rw [wa.pyRank (by omega), R.ok_bind, e0, R.ok_bind, e1, R.ok_bind, wa.pyRank (by omega), R.ok_bind, e2, R.ok_bind, eG]
  · rw [vG s hs t ht, v1 s hs t ht, v2 s hs t ht, show min (1 + (x.ndims - 1)) (x.ndims - 1) = x.ndims - 1 by omega, ← Finset.sum_range_succ,
      show x.ndims - 1 + 1 = x.ndims by omega]

/-- With gauged blocks the Gram matrix of the blocks is the one of the tensors. -/
theorem pairwise_ok (F : TFrame x left right) (h : x.WF) (hd : 2 ≤ x.ndims) (hH : Halves x left right) {D E : ℕ → Tensor ℝ} {u v : TT ℝ}
    (Tu : GTangent x left right D u) (Tv : GTangent x left right E v) (o : ℕ) :
    ∃ G, pairwiseProjected ⟨u, some o⟩ ⟨v, some o⟩ = Except.ok G ∧ G.shape = [u.batch.getD 1, v.batch.getD 1] ∧
      ∀ s < u.batch.getD 1, ∀ t < v.batch.getD 1, G.get [s, t] = dot (restShape x.rawShape)
        (fun i => u.entry (itemIdx u s) (restModes x.rawShape i)) (fun i => v.entry (itemIdx v t) (restModes x.rawShape i)) := by
  obtain ⟨G, e, s, w⟩ := pairwise_blocks F hd hH Tu.tan Tv.tan o
  refine ⟨G, e, s, fun s hs t ht => ?_⟩
  have hp := itemIdx_valid hs
  have hq := itemIdx_valid ht
  rw [w s hs t ht, dot_congr (fun i hi => Tu.tan.entry_vec F hp (validModes_rest h hi)) (fun i hi => Tv.tan.entry_vec F hq (validModes_rest h hi))]
  exact (frame_gauged_dot F h (Tu.gauge _ hp) (Tv.gauge _ hq)).symm

end

end T3f
