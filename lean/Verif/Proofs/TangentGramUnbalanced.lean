import Verif.Proofs.Frames

/-!
# Inner products of tangent vectors if halving the ranks does not give the blocks

If at some place the rank of the left frame exceeds the one of the right frame by two or more, the slice that `pairwise_flat_inner_projected` uses has a
column of the left frame.
-/

namespace T3f

/-- The first row of the slice of core `k`. -/
def sliceLo (u : TT ℝ) (k : ℕ) : ℕ := if k = 0 then 0 else u.rank k / 2

/-- The number of columns of the slice of core `k`. -/
def sliceHi (u : TT ℝ) (k : ℕ) : ℕ := if k + 1 = u.ndims then 1 else u.rank (k + 1) / 2

/-- The sum over the slice of the cores `k`. -/
noncomputable def sliceDot (u v : TT ℝ) (p q : List ℕ) (k : ℕ) : ℝ :=
  ∑ c ∈ Finset.range (u.rank k - sliceLo u k), ∑ i ∈ Finset.range (u.N k), ∑ b ∈ Finset.range (sliceHi u k),
    u.fl p k i (sliceLo u k + c) b * v.fl q k i (sliceLo u k + c) b

theorem pairwise_slices {u v : TT ℝ} (wu : u.WF) (wv : v.WF) (hd : 2 ≤ u.ndims) (hr : v.rawShape = u.rawShape)
    (hk : ∀ k ≤ u.ndims, v.rank k = u.rank k) (o : ℕ) :
    ∃ G, pairwiseProjected ⟨u, some o⟩ ⟨v, some o⟩ = Except.ok G ∧ G.shape = [u.batch.getD 1, v.batch.getD 1] ∧
      ∀ s < u.batch.getD 1, ∀ t < v.batch.getD 1, G.get [s, t] = ∑ k ∈ Finset.range u.ndims, sliceDot u v (itemIdx u s) (itemIdx v t) k := by
  obtain ⟨a, ea, wa, ba, ra, ka, na, fa⟩ := expand_item wu
  obtain ⟨b, eb, wb, bb, rb, kb, nb, fb⟩ := expand_item wv
  have hra : b.rawShape = a.rawShape := by rw [rb, ra, hr]
  have hNa : a.N = u.N := by funext k; simp only [TT.N, modes_of_rows ra]
  have rkb : ∀ k ≤ u.ndims, b.rank k = a.rank k := fun k h => by rw [ka, kb, hk k h]
  have r0 : u.rank 0 = 1 := wu.rank_first
  have rd : u.rank u.ndims = 1 := wu.rank_last
  have step : ∀ k < u.ndims, ∀ l r, IxRange l (u.rank k) (sliceLo u k) (u.rank k - sliceLo u k) → IxRange r (u.rank (k + 1)) 0 (sliceHi u k) →
      ∃ B, pairSlices a b l r k = Except.ok B ∧ B.shape = [u.batch.getD 1, v.batch.getD 1] ∧
        ∀ s < u.batch.getD 1, ∀ t < v.batch.getD 1, B.get [s, t] = sliceDot u v (itemIdx u s) (itemIdx v t) k := by
    intro k hk l r hl hr
    rw [← ka] at hl hr
    obtain ⟨B, e, s, w⟩ := pairSlices_ok wa wb ba bb hra (by rw [na]; exact hk) (rkb k hk.le) (rkb (k + 1) hk) hl hr
    refine ⟨B, e, s, fun s hs t ht => ?_⟩
    rw [w s hs t ht, hNa, sliceDot, ka]
    refine Finset.sum_congr rfl fun c _ => Finset.sum_congr rfl fun m _ => Finset.sum_congr rfl fun q _ => ?_
    rw [fa s hs, fb t ht, Nat.zero_add]
  have low : ∀ k, 0 < k → IxRange (.slice (some ((a.rank k / 2 : ℕ) : ℤ)) none 1) (u.rank k) (sliceLo u k) (u.rank k - sliceLo u k) := by
    intro k h0
    rw [ka, sliceLo, if_neg (by omega)]
    exact ixRange_from (by omega)
  have up : ∀ k, k + 1 < u.ndims → IxRange (.slice none (some ((a.rank (k + 1) / 2 : ℕ) : ℤ)) 1) (u.rank (k + 1)) 0 (sliceHi u k) := by
    intro k h0
    rw [ka, sliceHi, if_neg (by omega)]
    exact ixRange_upto (by omega)
  obtain ⟨B0, e0, s0, v0⟩ := step 0 (by omega) .all _ (by rw [sliceLo, if_pos rfl, r0]; exact ixRange_all 1) (up 0 (by omega))
  obtain ⟨B1, e1, s1, v1⟩ := forRange_inv (fun i (B : Tensor ℝ) => B.shape = [u.batch.getD 1, v.batch.getD 1] ∧
      ∀ s < u.batch.getD 1, ∀ t < v.batch.getD 1, B.get [s, t] =
        ∑ k ∈ Finset.range (min i (u.ndims - 1)), sliceDot u v (itemIdx u s) (itemIdx v t) k)
    (fun k res => do
      let rl ← pyGet a.ttRanks k
      let rr ← pyGet a.ttRanks (k + 1)
      let e ← pairSlices a b (.slice (some (rl / 2 : ℕ)) none 1) (.slice none (some (rr / 2 : ℕ)) 1) k
      binop (· + ·) res e) 1 (u.ndims - 1) B0 (by
      refine ⟨s0, fun s hs t ht => ?_⟩
      rw [show min 1 (u.ndims - 1) = 1 by omega, Finset.sum_range_one]
      exact v0 s hs t ht) (by
      rintro k res h1 h2 ⟨sr, vr⟩
      have hkd : k < u.ndims := by omega
      have : ∃ B, pairSlices a b (.slice (some ((a.rank k / 2 : ℕ) : ℤ)) none 1) (.slice none (some ((a.rank (k + 1) / 2 : ℕ) : ℤ)) 1) k = Except.ok B ∧
          B.shape = [u.batch.getD 1, v.batch.getD 1] ∧ ∀ s < u.batch.getD 1, ∀ t < v.batch.getD 1, B.get [s, t] =
            if k = u.ndims - 1 then 0 else sliceDot u v (itemIdx u s) (itemIdx v t) k := by
        by_cases hl : k = u.ndims - 1
        · have hk1 : k + 1 = u.ndims := by omega
          obtain ⟨B, e, s, w⟩ := pairSlices_ok wa wb ba bb hra (by rw [na]; exact hkd) (rkb k hkd.le) (rkb (k + 1) hkd)
            (by have := low k (by omega); rw [← ka] at this; exact this) (ixRange_upto (r := a.rank (k + 1)) (h := a.rank (k + 1) / 2) (by omega))
          refine ⟨B, e, s, fun s hs t ht => ?_⟩
          rw [w s hs t ht, if_pos hl, hk1, ka, rd]
          simp
        · obtain ⟨B, e, s, w⟩ := step k hkd _ _ (low k (by omega)) (up k (by omega))
          exact ⟨B, e, s, fun s hs t ht => by rw [if_neg hl]; exact w s hs t ht⟩
      obtain ⟨B, e, s, w⟩ := this
      obtain ⟨S, eS, sS, vS⟩ := binop_add_ok sr s
      refine ⟨S, ?_, sS, fun s hs t ht => ?_⟩
      · rw [wa.pyRank (by omega), wa.pyRank (by omega)]
        simp only [R.ok_bind, e]
        exact eS
      · rw [vS s hs t ht, vr s hs t ht, w s hs t ht]
        by_cases hl : k = u.ndims - 1
        · rw [if_pos hl, add_zero, show min (k + 1) (u.ndims - 1) = min k (u.ndims - 1) by omega]
        · rw [if_neg hl, show min (k + 1) (u.ndims - 1) = k + 1 by omega, show min k (u.ndims - 1) = k by omega, Finset.sum_range_succ])
  have hlast : a.ttRanks.length - 2 = u.ndims - 1 := by rw [wa.ranks_len, na]; omega
  obtain ⟨B2, e2, s2, v2⟩ := step (u.ndims - 1) (by omega) _ .all (low (u.ndims - 1) (by omega)) (by
    rw [sliceHi, if_pos (by omega), show u.ndims - 1 + 1 = u.ndims by omega, rd]; exact ixRange_all 1)
  obtain ⟨G, eG, sG, vG⟩ := binop_add_ok s1 s2
  refine ⟨G, ?_, sG, fun s hs t ht => ?_⟩
  · unfold pairwiseProjected
    rw [require_pos ⟨rfl, rfl⟩, require_pos rfl]
    simp only [R.ok_bind, ea, eb, na, hlast]
    rw [wa.pyRank (by omega), R.ok_bind, e0, R.ok_bind, e1, R.ok_bind, wa.pyRank (by omega), R.ok_bind, e2, R.ok_bind, eG]
  · rw [vG s hs t ht, v1 s hs t ht, v2 s hs t ht, show min (1 + (u.ndims - 1)) (u.ndims - 1) = u.ndims - 1 by omega, ← Finset.sum_range_succ,
      show u.ndims - 1 + 1 = u.ndims by omega]

section
variable {x left right : TT ℝ}

/-- If the ranks of the two frames differ too much, the diagonal of the Gram matrix is at least one for all tangent vectors. -/
theorem pairwise_ge_one (F : TFrame x left right) (hd : 2 ≤ x.ndims) (hn : ∃ k, 0 < k ∧ k < x.ndims ∧ right.rank k + 2 ≤ left.rank k)
    {D : ℕ → Tensor ℝ} {u : TT ℝ} (T : IsTangent left right D u) (o : ℕ) :
    ∃ G, pairwiseProjected ⟨u, some o⟩ ⟨u, some o⟩ = Except.ok G ∧ ∀ s < u.batch.getD 1, 1 ≤ G.get [s, s] := by
  classical
  have hnu : u.ndims = x.ndims := by rw [T.nd, F.nl]
  obtain ⟨G, e, -, v⟩ := pairwise_slices T.wf T.wf (by omega) rfl (fun _ _ => rfl) o
  refine ⟨G, e, fun s hs => ?_⟩
  rw [v s hs s hs]
  have hp := itemIdx_valid hs
  set p := itemIdx u s
  -- the first such place
  obtain ⟨h0, h1, h2⟩ := Nat.find_spec hn
  set k := Nat.find hn with hkdef
  have hmin : ∀ j, 0 < j → j < k → left.rank j ≤ right.rank j + 1 := fun j h0' hj => by
    have := Nat.find_min hn hj
    by_contra hc
    exact this ⟨h0', by omega, by omega⟩
  obtain ⟨j, hj⟩ : ∃ j, k = j + 1 := ⟨k - 1, by omega⟩
  rw [hj] at h0 h1 h2
  have hrk : ∀ i, 0 < i → i < x.ndims → u.rank i = right.rank i + left.rank i := fun i hi hi' => by
    rw [T.rank i (by rw [F.nl]; omega), F.nl, addRk, if_neg (by omega)]
  have hnn : ∀ i, 0 ≤ sliceDot u u p p i := fun i =>
    Finset.sum_nonneg fun _ _ => Finset.sum_nonneg fun _ _ => Finset.sum_nonneg fun _ _ => mul_self_nonneg _
  have hlo : sliceLo u j = if j = 0 then 0 else right.rank j := by
    unfold sliceLo
    split_ifs with hj0
    · rfl
    · have := hmin j (by omega) (by omega)
      have := F.right_le (k := j) (by omega)
      rw [hrk j (by omega) (by omega)]; omega
  have hcnt : u.rank j - sliceLo u j = left.rank j := by
    rw [hlo]
    split_ifs with hj0
    · rw [hj0, F.l0, T.wf.rank_first]
    · rw [hrk j (by omega) (by omega)]; omega
  have hhi : right.rank (j + 1) < sliceHi u j := by
    rw [sliceHi, if_neg (by omega), hrk (j + 1) (by omega) h1]
    omega
  have hNu : u.N = x.N := by funext i; simp only [TT.N, modes_of_rows (T.rows.trans F.rl)]
  have hfl : ∀ c < left.rank j, ∀ m < x.N j, u.fl p j m (sliceLo u j + c) (right.rank (j + 1) + 0) = left.fl [] j m c 0 := by
    intro c hc m hm
    have hV := T.vals j (by rw [F.nl]; omega)
    have hmod : u.modes = x.modes := modes_of_rows (T.rows.trans F.rl)
    have hv : Valid (left.modes j) (unravel (x.modes j) m) := by rw [F.ml]; exact unravel_valid hm
    rw [TT.fl, hmod, TT.fl, F.ml, hlo]
    by_cases hj0 : j = 0
    · have h0l := F.l0
      obtain rfl : c = 0 := by rw [hj0] at hc; omega
      rw [if_pos hj0, Nat.add_zero, hj0]
      rw [hj0] at hV hv h2
      exact hV.first' rfl p hp _ hv 0 (by rw [Nat.zero_add] at h2; omega)
    · rw [if_neg hj0]
      exact hV.low (by omega) (by rw [F.nl]; exact h1) p hp _ hv c hc 0 (by omega)
  have hone := F.lo j h1 0 (by omega) 0 (by omega)
  rw [δ, if_pos rfl] at hone
  refine le_trans ?_ (Finset.single_le_sum (fun i _ => hnn i) (Finset.mem_range.2 (show j < u.ndims by omega)))
  rw [← hone, sliceDot, hcnt, hNu]
  refine Finset.sum_le_sum fun c hc => Finset.sum_le_sum fun m hm => ?_
  rw [← hfl c (Finset.mem_range.1 hc) m (Finset.mem_range.1 hm)]
  exact Finset.single_le_sum (f := fun b => u.fl p j m (sliceLo u j + c) b * u.fl p j m (sliceLo u j + c) b) (fun b _ => mul_self_nonneg _)
    (Finset.mem_range.2 hhi)

end

end T3f
