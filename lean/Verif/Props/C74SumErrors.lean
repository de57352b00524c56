import Verif.Proofs.TreeError
import Verif.Props.C35AddN
import Verif.Props.C36ReduceSum

/-!
# C74: errors of `add_n` and `reduce_sum_batch`

Both functions add in pairs, along a tree with `clog 2 n` levels, and round after every addition. `block n l q` are the numbers of the summands that enter the `q`-th node of level `l`.
The functions `X : List ℕ → ℝ` are tensors given by their elements; `G j q` is any tensor within the bounds, an approximation of the exact partial sum at node `q` of level `j + 1`.
-/

namespace T3f

section
variable {qr : QRRoutine} (hqr : qr.Correct) {svd : SVDRoutine} (hsvd : svd.Correct)

include hqr hsvd in
theorem Summands.run {ts : List (TT ℝ)} {rows : List (List ℕ)} {bs : Option ℕ} {d : ℕ} (hts : Summands ts rows bs d) {m : MaxRank} {b : ℕ → ℕ} (hb : m.Bounds d b)
    (hbatch : bs ≠ none → m.Single) {F : ℕ → Tensor ℝ} (hF : ∀ k < ts.length, full (ts.getD k default) = Except.ok (F k)) :
    ∃ x X, addN qr svd ts m = Except.ok x ∧ full x = Except.ok X ∧ (F 0).shape = bs.toList ++ restShape rows ∧ X.shape = bs.toList ++ restShape rows ∧
      ∀ Q : ℕ → ℕ → List ℕ → (List ℕ → ℝ) → Prop, TreeStep rows bs b d ts.length Q →
        (∀ l q p A B, (∀ i, Valid (restShape rows) i → A i = B i) → Q l q p A → Q l q p B) →
        (∀ q < ts.length, ∀ p, Valid bs.toList p → Q 0 q p fun i => (F q).get (p ++ i)) →
        ∀ p, Valid bs.toList p → Q (Nat.clog 2 ts.length) 0 p fun i => X.get (p ++ i) := by
  have hn : 0 < ts.length := List.length_pos_iff.2 hts.1
  obtain ⟨hdr, hpos, h0⟩ := hts.inv b (fun _ _ _ _ => True) (fun _ _ _ _ => trivial)
  have hFv : ∀ k < ts.length, (F k).shape = bs.toList ++ restShape rows ∧ ∀ p i, Valid bs.toList p → Valid (restShape rows) i →
      (F k).get (p ++ i) = (ts.getD k default).entry p (restModes rows i) := by
    intro k hk
    obtain ⟨F', e, s, v⟩ := full_ok (h0.wf k hk)
    obtain rfl : F' = F k := Except.ok.inj (e.symm.trans (hF k hk))
    have hp : (ts.getD k default).bpre = bs.toList := by rw [TT.bpre, h0.batch k hk]
    rw [hp, h0.shape k hk] at s v
    exact ⟨s, v⟩
  obtain ⟨x, ex, wx, rx, bx, -⟩ := C35_ranks hqr hsvd hts hb hbatch
  obtain ⟨X, eX, sX, vX⟩ := full_ok wx
  have hxp : x.bpre = bs.toList := by rw [TT.bpre, bx]
  rw [hxp, rx] at sX vX
  refine ⟨x, X, ex, eX, (hFv 0 hn).1, sX, fun Q hQ hQv hQ0 p hp => ?_⟩
  obtain ⟨-, -, h1⟩ := hts.inv b Q (fun q hq p hp => hQv _ _ _ _ _ (fun i hi => (hFv q hq).2 p i hp hi) (hQ0 q hq p hp))
  obtain ⟨l, y, ey, hy, -⟩ := addNLoop_ok hqr hsvd hts.2.1 hdr hpos hb hbatch hn hQ ts.length 0 ts h1 le_rfl
  have hxy : x = y := by
    rw [addN, ey] at ex
    exact (Except.ok.inj ex).symm
  subst hxy
  rw [← hy.lvl.clog hy.two]
  exact hQv _ _ _ _ _ (fun i hi => (vX p i hp hi).symm) (hy.entry 0 (by simp) p hp)

include hqr hsvd in
/-- **C74.** The error of `add_n` is bounded by the distances of the exact partial sums of the tree from the tensors within the bounds. A rounding at level `j + 1` counts with the
factor `√(d - 1) (1 + √(d - 1)) ^ k`, where `k` is the number of levels above it. (In particular there is no error if all partial sums are within the bounds, C35.) -/
theorem C74_add_n {ts : List (TT ℝ)} {rows : List (List ℕ)} {bs : Option ℕ} {d : ℕ} (hts : Summands ts rows bs d) {m : MaxRank} {b : ℕ → ℕ} (hb : m.Bounds d b)
    (hbatch : bs ≠ none → m.Single) {F : ℕ → Tensor ℝ} (hF : ∀ k < ts.length, full (ts.getD k default) = Except.ok (F k)) :
    ∃ x X s, addN qr svd ts m = Except.ok x ∧ full x = Except.ok X ∧ (F 0).shape = bs.toList ++ s ∧ X.shape = bs.toList ++ s ∧
      ∀ p, Valid bs.toList p → ∀ G : ℕ → ℕ → List ℕ → ℝ, (∀ j q, (2 * q + 1) * 2 ^ j < ts.length → HasTT rows b (G j q)) →
        elemDist s (fun i => X.get (p ++ i)) (fun i => ∑ k ∈ Finset.range ts.length, (F k).get (p ++ i)) ≤
          ∑ j ∈ Finset.range (Nat.clog 2 ts.length), ∑ q ∈ (Finset.range ts.length).filter (fun q => (2 * q + 1) * 2 ^ j < ts.length),
            √(d - 1 : ℕ) * (1 + √(d - 1 : ℕ)) ^ (Nat.clog 2 ts.length - 1 - j) *
              elemDist s (fun i => ∑ k ∈ block ts.length (j + 1) q, (F k).get (p ++ i)) (G j q) := by
  have hn : 0 < ts.length := List.length_pos_iff.2 hts.1
  obtain ⟨x, X, ex, eX, s0, sX, hrun⟩ := hts.run hqr hsvd hb hbatch hF
  refine ⟨x, X, _, ex, eX, s0, sX, fun p hp G hG => ?_⟩
  have h := hrun _ (TreeStep.error (fun k p i => (F k).get (p ++ i)) p G fun l q h => hasTT_iff.1 (hG l q h))
    (fun l q p A B hAB hA hp => by rw [← elemDist_congr hAB (fun _ _ => rfl)]; exact hA hp)
    (fun q hq p' hp' _ => by
      rw [treeErr_zero, elemDist_congr (fun _ _ => rfl) (fun i _ => by rw [block_zero hq, Finset.sum_singleton])]
      simp [elemDist]) p hp rfl
  have hl : ts.length ≤ 2 ^ Nat.clog 2 ts.length := Nat.le_pow_clog (by norm_num) _
  rw [treeErr_top (fun j q hq => by
    rw [mem_pairNodes] at hq
    refine lt_of_le_of_lt ?_ hq
    rw [pow_succ]
    nlinarith [Nat.zero_le (2 ^ j)]) hl] at h
  rw [show block ts.length (Nat.clog 2 ts.length) 0 = Finset.range ts.length by
    rw [block, Finset.filter_true_of_mem]
    exact fun k hk => Nat.div_eq_of_lt ((Finset.mem_range.1 hk).trans_le hl)] at h
  exact h

include hqr hsvd in
/-- **C74.** The norm of the result of `add_n` is at most the sum of the norms of the summands. -/
theorem C74_add_n_norm {ts : List (TT ℝ)} {rows : List (List ℕ)} {bs : Option ℕ} {d : ℕ} (hts : Summands ts rows bs d) {m : MaxRank} {b : ℕ → ℕ} (hb : m.Bounds d b)
    (hbatch : bs ≠ none → m.Single) {F : ℕ → Tensor ℝ} (hF : ∀ k < ts.length, full (ts.getD k default) = Except.ok (F k)) :
    ∃ x X s, addN qr svd ts m = Except.ok x ∧ full x = Except.ok X ∧ (F 0).shape = bs.toList ++ s ∧ X.shape = bs.toList ++ s ∧
      ∀ p, Valid bs.toList p → elemNorm s (fun i => X.get (p ++ i)) ≤ ∑ k ∈ Finset.range ts.length, elemNorm s (fun i => (F k).get (p ++ i)) := by
  obtain ⟨x, X, ex, eX, s0, sX, hrun⟩ := hts.run hqr hsvd hb hbatch hF
  refine ⟨x, X, _, ex, eX, s0, sX, fun p hp => ?_⟩
  have h := hrun _ (TreeStep.norm (fun k p i => (F k).get (p ++ i))) (fun l q p A B hAB hA => by rw [← elemNorm_congr hAB]; exact hA)
    (fun q hq p' hp' => by rw [block_zero hq, Finset.sum_singleton]) p hp
  refine h.trans (Finset.sum_le_sum_of_subset_of_nonneg (Finset.filter_subset _ _) fun _ _ _ => Real.sqrt_nonneg _)

include hqr hsvd in
theorem reduceSumBatch_run {t : TT ℝ} (h : t.WF) (hd : 2 ≤ t.ndims)
    (hpos : t.ModesPos) {n : ℕ} (hb : t.batch = some n) {m : MaxRank} {b : ℕ → ℕ} (hm : m.Bounds t.ndims b) (hs : m.Single)
    {coef : Option (Tensor ℝ)} {out : Option ℕ} {N : ℕ} {c : ℕ → ℕ → ℝ} (hw : SumWeights n coef out N c) {T : Tensor ℝ} (hT : full t = Except.ok T) :
    ∃ x X, reduceSumBatch qr svd t m coef = Except.ok x ∧ full x = Except.ok X ∧ T.shape = n :: restShape t.rawShape ∧ X.shape = out.toList ++ restShape t.rawShape ∧
      ∀ Q : ℕ → ℕ → ℕ → (List ℕ → ℝ) → Prop, ReduceStep t.rawShape b t.ndims n N Q →
        (∀ l q j A B, (∀ i, Valid (restShape t.rawShape) i → A i = B i) → Q l q j A → Q l q j B) →
        (∀ q < n, ∀ j < N, Q 0 q j fun i => c q j * T.get (q :: i)) →
        ∀ j < N, Q (Nat.clog 2 n) 0 j fun i => X.get ((out.toList.map fun _ => j) ++ i) := by
  obtain ⟨hN, hout, w, e, ww, r, -, bw, v⟩ := hw.ok h hb
  obtain ⟨x, ex, wx, rx, bx, -⟩ := C36_ranks hqr hsvd h hd hpos hb hm hs hw
  obtain ⟨T', eT, sT, vT⟩ := full_ok h
  obtain rfl : T' = T := Except.ok.inj (eT.symm.trans hT)
  have hp : t.bpre = [n] := by rw [TT.bpre, hb]; rfl
  rw [hp] at sT vT
  have vT' : ∀ k < n, ∀ i, Valid (restShape t.rawShape) i → T'.get (k :: i) = t.entry [k] (restModes t.rawShape i) :=
    fun k hk i hi => vT [k] i ⟨hk, trivial⟩ hi
  obtain ⟨X, eX, sX, vX⟩ := full_ok wx
  have hpx : x.bpre = out.toList := by rw [TT.bpre, bx]
  rw [hpx, rx] at sX vX
  refine ⟨x, X, ex, eX, sT, sX, fun Q hQ hQv hQ0 j hj => ?_⟩
  obtain ⟨y, l, ey, -, -, -, -, -, hl, h2, hy⟩ := reduceSumBatch_gen hqr hsvd h hd hpos hb hm hs hN hout e ww r bw hQ
    (fun q hq j hj => hQv _ _ _ _ _ (fun i hi => by
      rw [vT' q hq i hi]
      exact (v q hq j hj _ (validModes_rest h hi)).symm) (hQ0 q hq j hj)) hQv
  obtain rfl : x = y := Except.ok.inj (ex.symm.trans ey)
  have hv : Valid out.toList (out.toList.map fun _ => j) := by
    rcases hout with rfl | ⟨rfl, -⟩
    · exact ⟨hj, trivial⟩
    · exact trivial
  rw [← hl.clog h2]
  exact hQv _ _ _ _ _ (fun i hi => (vX _ i hv hi).symm) (hy j hj)

include hqr hsvd in
/-- **C74.** The same for `reduce_sum_batch`, where the nodes with a single child are rounded too; `c k j` is the weight of the `k`-th element in the `j`-th sum. -/
theorem C74_reduce_sum_batch {t : TT ℝ} (h : t.WF) (hd : 2 ≤ t.ndims)
    (hpos : t.ModesPos) {n : ℕ} (hb : t.batch = some n) {m : MaxRank} {b : ℕ → ℕ} (hm : m.Bounds t.ndims b) (hs : m.Single)
    {coef : Option (Tensor ℝ)} {out : Option ℕ} {N : ℕ} {c : ℕ → ℕ → ℝ} (hw : SumWeights n coef out N c) {T : Tensor ℝ} (hT : full t = Except.ok T) :
    ∃ x X s, reduceSumBatch qr svd t m coef = Except.ok x ∧ full x = Except.ok X ∧ T.shape = n :: s ∧ X.shape = out.toList ++ s ∧
      ∀ j < N, ∀ G : ℕ → ℕ → List ℕ → ℝ, (∀ l q, 2 ^ l < n → q * 2 ^ (l + 1) < n → HasTT t.rawShape b (G l q)) →
        elemDist s (fun i => X.get ((out.toList.map fun _ => j) ++ i)) (fun i => ∑ k ∈ Finset.range n, c k j * T.get (k :: i)) ≤
          ∑ l ∈ Finset.range (Nat.clog 2 n), ∑ q ∈ (Finset.range n).filter (fun q => q * 2 ^ (l + 1) < n),
            √(t.ndims - 1 : ℕ) * (1 + √(t.ndims - 1 : ℕ)) ^ (Nat.clog 2 n - 1 - l) *
              elemDist s (fun i => ∑ k ∈ block n (l + 1) q, c k j * T.get (k :: i)) (G l q) := by
  obtain ⟨x, X, ex, eX, sT, sX, hrun⟩ := reduceSumBatch_run hqr hsvd h hd hpos hb hm hs hw hT
  refine ⟨x, X, _, ex, eX, sT, sX, fun j hj G hG => ?_⟩
  have h := hrun _ (ReduceStep.error (fun k j i => c k j * T.get (k :: i)) j G fun l q h1 h2 => hasTT_iff.1 (hG l q h1 h2))
    (fun l q p A B hAB hA hp => by rw [← elemDist_congr hAB (fun _ _ => rfl)]; exact hA hp)
    (fun q hq j' hj' _ => by
      rw [treeErr_zero, elemDist_congr (fun _ _ => rfl) (fun i _ => by rw [block_zero hq, Finset.sum_singleton])]
      simp [elemDist]) j hj rfl
  have hl : n ≤ 2 ^ Nat.clog 2 n := Nat.le_pow_clog (by norm_num) _
  rw [treeErr_top (fun j q hq => mem_allNodes.1 hq) hl] at h
  rw [show block n (Nat.clog 2 n) 0 = Finset.range n by
    rw [block, Finset.filter_true_of_mem]
    exact fun k hk => Nat.div_eq_of_lt ((Finset.mem_range.1 hk).trans_le hl)] at h
  exact h

include hqr hsvd in
/-- **C74.** The norm of a result of `reduce_sum_batch` is at most the sum of the norms of the weighted elements. -/
theorem C74_reduce_sum_batch_norm {t : TT ℝ} (h : t.WF) (hd : 2 ≤ t.ndims)
    (hpos : t.ModesPos) {n : ℕ} (hb : t.batch = some n) {m : MaxRank} {b : ℕ → ℕ} (hm : m.Bounds t.ndims b) (hs : m.Single)
    {coef : Option (Tensor ℝ)} {out : Option ℕ} {N : ℕ} {c : ℕ → ℕ → ℝ} (hw : SumWeights n coef out N c) {T : Tensor ℝ} (hT : full t = Except.ok T) :
    ∃ x X s, reduceSumBatch qr svd t m coef = Except.ok x ∧ full x = Except.ok X ∧ T.shape = n :: s ∧ X.shape = out.toList ++ s ∧
      ∀ j < N, elemNorm s (fun i => X.get ((out.toList.map fun _ => j) ++ i)) ≤ ∑ k ∈ Finset.range n, elemNorm s (fun i => c k j * T.get (k :: i)) := by
  obtain ⟨x, X, ex, eX, sT, sX, hrun⟩ := reduceSumBatch_run hqr hsvd h hd hpos hb hm hs hw hT
  refine ⟨x, X, _, ex, eX, sT, sX, fun j hj => ?_⟩
  have h := hrun _ (ReduceStep.norm (fun k j i => c k j * T.get (k :: i))) (fun l q p A B hAB hA => by rw [← elemNorm_congr hAB]; exact hA)
    (fun q hq p' hp' => by rw [block_zero hq, Finset.sum_singleton]) j hj
  exact h.trans (Finset.sum_le_sum_of_subset_of_nonneg (Finset.filter_subset _ _) fun _ _ _ => Real.sqrt_nonneg _)

end

/-! ## The result depends on the order, and may have nothing to do with the sum -/

/-- The matrix `u vᵀ` of shape `2 × 2`, with TT-ranks one. -/
noncomputable def exOuter (u v : ℕ → ℝ) : TT ℝ where
  cores := [⟨[1, 2, 1], fun i => u (i.getD 1 0)⟩, ⟨[1, 2, 1], fun i => v (i.getD 1 0)⟩]
  rawShape := [[2, 2]]
  ttRanks := [1, 1, 1]
  batch := none

/-- `c` at position `k`, zero elsewhere. -/
def spike (k : ℕ) (c : ℝ) (i : ℕ) : ℝ := if i = k then c else 0

theorem exOuter_wf (u v : ℕ → ℝ) : (exOuter u v).WF := of_decide_eq_true rfl

theorem exOuter_entry (u v : ℕ → ℝ) (i j : ℕ) : (exOuter u v).entry [] (restModes [[2, 2]] [i, j]) = u i * v j := by
  simp [TT.entry, lprod, TT.ndims, exOuter, TT.rank, TT.slice, TT.core, restModes, tIdx]

theorem valid22 {i : List ℕ} : Valid [2, 2] i ↔ i = [0, 0] ∨ i = [0, 1] ∨ i = [1, 0] ∨ i = [1, 1] := by
  constructor
  · intro h
    obtain ⟨a, i, rfl, ha, h⟩ := (valid_cons_iff _ _ _).1 h
    obtain ⟨b, i, rfl, hb, h⟩ := (valid_cons_iff _ _ _).1 h
    rw [valid_nil_iff] at h
    subst h
    interval_cases a <;> interval_cases b <;> simp
  · rintro (rfl | rfl | rfl | rfl) <;> simp [Valid]

theorem restShape22 : restShape [[2, 2]] = [2, 2] := by decide

theorem dist2_22 (X Y : List ℕ → ℝ) : dist2 [2, 2] X Y = (X [0, 0] - Y [0, 0]) ^ 2 + (X [0, 1] - Y [0, 1]) ^ 2 + (X [1, 0] - Y [1, 0]) ^ 2 + (X [1, 1] - Y [1, 1]) ^ 2 := by
  simp [dist2, Finset.sum_range_succ, unravel]

theorem repEntry_det {X : List ℕ → ℝ} {b : ℕ → ℕ} (hb : b 1 = 1) (h : RepEntry [[2, 2]] b X) : X [0, 0] * X [1, 1] = X [0, 1] * X [1, 0] := by
  obtain ⟨S, hS, hr, hbt, hk, hv⟩ := h
  have hd : S.ndims = 2 := ndims_of_len (d := 2) (by simp) hS hr
  have h1 : S.rank 1 = 1 := by
    have := hk 1 (by omega) (by omega)
    have := hS.rank_pos 1 (by omega)
    omega
  have h0 := hS.rank_first
  rw [restShape22] at hv
  have e : ∀ i j, S.entry [] (restModes [[2, 2]] [i, j]) = (S.core 0).get [0, i, 0] * (S.core 1).get [0, j, 0] := by
    intro i j
    simp [TT.entry, hd, lprod, h0, h1, TT.slice, restModes, tIdx]
  rw [← hv _ (valid22.2 (by simp)), ← hv _ (valid22.2 (by simp)), ← hv [0, 1] (valid22.2 (by simp)), ← hv [1, 0] (valid22.2 (by simp)), e, e, e, e]
  ring

theorem repEntry_outer (u v : ℕ → ℝ) {X : List ℕ → ℝ} (hX : ∀ i j, X [i, j] = u i * v j) {b : ℕ → ℕ} (hb : b 1 = 1) : RepEntry [[2, 2]] b X := by
  refine ⟨exOuter u v, exOuter_wf u v, rfl, rfl, fun k h0 hk => ?_, fun i hi => ?_⟩
  · have : k < 2 := hk
    obtain rfl : k = 1 := by omega
    rw [hb]; exact le_rfl
  · rw [restShape22, valid22] at hi
    rcases hi with rfl | rfl | rfl | rfl <;> rw [exOuter_entry, hX]

/-- Rounding `diag(M, 1)` to rank one loses the `1`. -/
theorem round_diag {M : ℝ} (hM : 1 < M) {b : ℕ → ℕ} (hb : b 1 = 1) {S X : List ℕ → ℝ} (h : RoundsTo [[2, 2]] b 2 S X) (h00 : S [0, 0] = M) (h01 : S [0, 1] = 0)
    (h10 : S [1, 0] = 0) (h11 : S [1, 1] = 1) : X [0, 0] = M ∧ X [0, 1] = 0 ∧ X [1, 0] = 0 ∧ X [1, 1] = 0 := by
  have hd := repEntry_det hb h.rep
  have ho := h.opt (fun i => spike 0 M (i.getD 0 0) * spike 0 1 (i.getD 1 0)) (repEntry_outer (spike 0 M) (spike 0 1) (fun i j => rfl) hb)
  rw [restShape22, dist2_22, dist2_22, h00, h01, h10, h11] at ho
  simp only [spike, List.getD_cons_zero, List.getD_cons_succ] at ho
  generalize X [0, 0] = x at *
  generalize X [0, 1] = y at *
  generalize X [1, 0] = z at *
  generalize X [1, 1] = w at *
  norm_num at ho
  have h1 : 2 * (|x| * |w|) ≤ y ^ 2 + z ^ 2 := by
    rw [← abs_mul, hd, abs_mul]
    nlinarith [sq_nonneg (|y| - |z|), sq_abs y, sq_abs z]
  have h2 : (|x| + |w| - M) ^ 2 + 2 * (M - 1) * |w| ≤ 0 := by
    nlinarith [sq_abs x, sq_abs w, mul_le_mul_of_nonneg_left (le_abs_self x) (show (0 : ℝ) ≤ M by linarith), le_abs_self w]
  have h3 : |w| = 0 := by
    have : 0 ≤ 2 * (M - 1) * |w| := mul_nonneg (by linarith) (abs_nonneg w)
    have : 2 * (M - 1) * |w| = 0 := by nlinarith [sq_nonneg (|x| + |w| - M)]
    rcases mul_eq_zero.1 this with h | h
    · linarith
    · exact h
  obtain rfl : w = 0 := abs_eq_zero.1 h3
  have h4 : (x - M) ^ 2 + y ^ 2 + z ^ 2 ≤ 0 := by nlinarith
  refine ⟨?_, ?_, ?_, rfl⟩
  · have : (x - M) ^ 2 = 0 := by nlinarith [sq_nonneg (x - M), sq_nonneg y, sq_nonneg z]
    linarith [pow_eq_zero_iff (n := 2) (by norm_num) |>.1 this]
  · exact pow_eq_zero_iff (n := 2) (by norm_num) |>.1 (by nlinarith [sq_nonneg (x - M), sq_nonneg y, sq_nonneg z])
  · exact pow_eq_zero_iff (n := 2) (by norm_num) |>.1 (by nlinarith [sq_nonneg (x - M), sq_nonneg y, sq_nonneg z])

theorem exOuter_full (u v : ℕ → ℝ) : ∃ F, full (exOuter u v) = Except.ok F ∧ F.shape = [2, 2] ∧ ∀ i < 2, ∀ j < 2, F.get [i, j] = u i * v j := by
  obtain ⟨F, e, s, h⟩ := full_ok (exOuter_wf u v)
  refine ⟨F, e, s, fun i hi j hj => ?_⟩
  rw [← exOuter_entry u v i j]
  exact h [] [i, j] (by exact trivial) ⟨hi, hj, trivial⟩

theorem exOuter_summands (l : List ((ℕ → ℝ) × (ℕ → ℝ))) (hl : l ≠ []) : Summands (l.map fun w => exOuter w.1 w.2) [[2, 2]] none 2 := by
  refine ⟨by simpa using hl, le_rfl, fun t ht => ?_⟩
  obtain ⟨w, -, rfl⟩ := List.mem_map.1 ht
  exact ⟨exOuter_wf _ _, rfl, rfl, rfl, by simp [TT.ModesPos, exOuter]⟩

theorem tree3 {l q : ℕ} (h : (2 * q + 1) * 2 ^ l < 3) : l = 0 ∧ q = 0 ∨ l = 1 ∧ q = 0 := by
  have h1 := Nat.one_le_two_pow (n := l)
  have hq : q = 0 := by nlinarith
  subst hq
  have : l < 2 := by
    by_contra hh
    have := Nat.pow_le_pow_right (n := 2) (by norm_num) (show 2 ≤ l by omega)
    omega
  omega

/-- The elements of a matrix of shape `2 × 2`. -/
def Is22 (A : List ℕ → ℝ) (a b c d : ℝ) : Prop := A [0, 0] = a ∧ A [0, 1] = b ∧ A [1, 0] = c ∧ A [1, 1] = d

/-- The nodes of the tree of `M E₀₀`, `E₁₁`, `-M E₀₀`. -/
def LostInv (M : ℝ) : ℕ → ℕ → (List ℕ → ℝ) → Prop
  | 0, 0, A => Is22 A M 0 0 0
  | 0, 1, A => Is22 A 0 0 0 1
  | 0, 2, A => Is22 A (-M) 0 0 0
  | 1, 0, A => Is22 A M 0 0 0
  | 1, 1, A => Is22 A (-M) 0 0 0
  | 2, 0, A => Is22 A 0 0 0 0
  | _, _, _ => True

theorem lostInv_merge {M : ℝ} (hM : 1 < M) {b : ℕ → ℕ} (hb : b 1 = 1) {l q : ℕ} (h : l = 0 ∧ q = 0 ∨ l = 1 ∧ q = 0) {A B S X : List ℕ → ℝ}
    (hA : LostInv M l (2 * q) A) (hB : LostInv M l (2 * q + 1) B) (hS : ∀ i, Valid [2, 2] i → S i = A i + B i) (hX : RoundsTo [[2, 2]] b 2 S X) :
    LostInv M (l + 1) q X := by
  have s1 := hS [0, 0] (valid22.2 (by simp))
  have s2 := hS [0, 1] (valid22.2 (by simp))
  have s3 := hS [1, 0] (valid22.2 (by simp))
  have s4 := hS [1, 1] (valid22.2 (by simp))
  rcases h with ⟨rfl, rfl⟩ | ⟨rfl, rfl⟩
  · obtain ⟨a1, a2, a3, a4⟩ := hA
    obtain ⟨b1, b2, b3, b4⟩ := hB
    rw [a1, b1, add_zero] at s1
    rw [a2, b2, add_zero] at s2
    rw [a3, b3, add_zero] at s3
    rw [a4, b4, zero_add] at s4
    exact round_diag hM hb hX s1 s2 s3 s4
  · obtain ⟨a1, a2, a3, a4⟩ := hA
    obtain ⟨b1, b2, b3, b4⟩ := hB
    rw [a1, b1, add_neg_cancel] at s1
    rw [a2, b2, add_zero] at s2
    rw [a3, b3, add_zero] at s3
    rw [a4, b4, add_zero] at s4
    have hr : RepEntry [[2, 2]] b S := repEntry_mono (d := 2) (by simp) (fun _ _ _ => le_rfl) (fun i hi => by
      rw [restShape22, valid22] at hi
      rcases hi with rfl | rfl | rfl | rfl <;> simp [s1, s2, s3, s4]) (repEntry_outer (X := fun _ => 0) 0 0 (fun _ _ => by simp) hb)
    have hX := fun i (hi : Valid [2, 2] i) => hX.exact hr (by rw [restShape22]; exact hi)
    exact ⟨(hX _ (valid22.2 (by simp))).trans s1, (hX _ (valid22.2 (by simp))).trans s2, (hX _ (valid22.2 (by simp))).trans s3, (hX _ (valid22.2 (by simp))).trans s4⟩

theorem lostInv_lone {M : ℝ} {l q : ℕ} (h : 3 ≤ (2 * q + 1) * 2 ^ l) {A : List ℕ → ℝ} (hA : LostInv M l (2 * q) A) : LostInv M (l + 1) q A := by
  match l, q, h, hA with
  | 0, 1, _, hA => exact hA
  | 0, _ + 2, _, _ => trivial
  | 1, _ + 1, _, _ => trivial
  | _ + 2, _, _, _ => trivial

theorem lostInv_congr {M : ℝ} {l q : ℕ} {A B : List ℕ → ℝ} (h : ∀ i, Valid [2, 2] i → A i = B i) (hA : LostInv M l q A) : LostInv M l q B := by
  have h1 := h [0, 0] (valid22.2 (by simp))
  have h2 := h [0, 1] (valid22.2 (by simp))
  have h3 := h [1, 0] (valid22.2 (by simp))
  have h4 := h [1, 1] (valid22.2 (by simp))
  have e : ∀ a b c d, Is22 A a b c d → Is22 B a b c d := by
    intro a b c d
    rw [Is22, Is22, h1, h2, h3, h4]; exact id
  match l, q, hA with
  | 0, 0, hA => exact e _ _ _ _ hA
  | 0, 1, hA => exact e _ _ _ _ hA
  | 0, 2, hA => exact e _ _ _ _ hA
  | 1, 0, hA => exact e _ _ _ _ hA
  | 1, 1, hA => exact e _ _ _ _ hA
  | 2, 0, hA => exact e _ _ _ _ hA
  | 0, _ + 3, _ => trivial
  | 1, _ + 2, _ => trivial
  | 2, _ + 1, _ => trivial
  | _ + 3, _, _ => trivial

/-- **C74, finding.** `add_n([M E₀₀, E₁₁, -M E₀₀], 1)` is zero for every `M > 1`, although the exact sum `E₁₁` has TT-rank one; `add_n([M E₀₀, -M E₀₀, E₁₁], 1)` is the
exact sum. -/
theorem C74_order {qr : QRRoutine} (hqr : qr.Correct) {svd : SVDRoutine} (hsvd : svd.Correct) {M : ℝ} (hM : 1 < M) :
    ∃ x y A B C X Y, full (exOuter (spike 0 M) (spike 0 1)) = Except.ok A ∧ full (exOuter (spike 1 1) (spike 1 1)) = Except.ok B ∧
      full (exOuter (spike 0 (-M)) (spike 0 1)) = Except.ok C ∧
      addN qr svd [exOuter (spike 0 M) (spike 0 1), exOuter (spike 1 1) (spike 1 1), exOuter (spike 0 (-M)) (spike 0 1)] (.num 1) = Except.ok x ∧
      addN qr svd [exOuter (spike 0 M) (spike 0 1), exOuter (spike 0 (-M)) (spike 0 1), exOuter (spike 1 1) (spike 1 1)] (.num 1) = Except.ok y ∧
      full x = Except.ok X ∧ full y = Except.ok Y ∧ X.shape = [2, 2] ∧ Y.shape = [2, 2] ∧
      ∀ i < 2, ∀ j < 2, A.get [i, j] + B.get [i, j] + C.get [i, j] = (if i = 1 ∧ j = 1 then 1 else 0) ∧
        X.get [i, j] = 0 ∧ Y.get [i, j] = if i = 1 ∧ j = 1 then 1 else 0 := by
  obtain ⟨A, eA, sA, vA⟩ := exOuter_full (spike 0 M) (spike 0 1)
  obtain ⟨B, eB, sB, vB⟩ := exOuter_full (spike 1 1) (spike 1 1)
  obtain ⟨C, eC, sC, vC⟩ := exOuter_full (spike 0 (-M)) (spike 0 1)
  have hb : (MaxRank.num 1).Bounds 2 (fun _ => 1) := Or.inl ⟨1, by omega, Or.inl rfl, fun _ => rfl⟩
  obtain ⟨x, X, ex, eX, -, sX, hrun⟩ := (exOuter_summands [(spike 0 M, spike 0 1), (spike 1 1, spike 1 1), (spike 0 (-M), spike 0 1)] (by simp)).run hqr hsvd
    hb (by simp) (F := fun k => if k = 0 then A else if k = 1 then B else C) (by
      intro k hk
      have : k < 3 := hk
      interval_cases k
      · exact eA
      · exact eB
      · exact eC)
  obtain ⟨y, Y, ey, eY, sY, vY⟩ := C35_exact hqr hsvd (exOuter_summands [(spike 0 M, spike 0 1), (spike 0 (-M), spike 0 1), (spike 1 1, spike 1 1)] (by simp))
    hb (by simp) (F := fun k => if k = 0 then A else if k = 1 then C else B) (by
      intro k hk
      have : k < 3 := hk
      interval_cases k
      · exact eA
      · exact eC
      · exact eB) (by
      intro l q hq p hp
      obtain rfl : p = [] := by cases p with | nil => rfl | cons _ _ => exact hp.elim
      have hlen : ([(spike 0 M, spike 0 1), (spike 0 (-M), spike 0 1), (spike 1 1, spike 1 1)].map fun w => exOuter w.1 w.2).length = 3 := rfl
      rw [hlen] at hq ⊢
      rcases tree3 hq with ⟨rfl, rfl⟩ | ⟨rfl, rfl⟩
      · rw [show block 3 (0 + 1) 0 = {0, 1} by decide]
        refine hasTT_iff.2 (repEntry_mono (d := 2) (by simp) (fun _ _ _ => le_rfl) (fun i hi => ?_) (repEntry_outer (X := fun _ => 0) 0 0 (fun _ _ => by simp) rfl))
        rw [restShape22, valid22] at hi
        rcases hi with rfl | rfl | rfl | rfl <;> simp [vA, vC, spike]
      · rw [show block 3 (1 + 1) 0 = {0, 1, 2} by decide]
        refine hasTT_iff.2 (repEntry_mono (d := 2) (by simp) (fun _ _ _ => le_rfl) (fun i hi => ?_)
          (repEntry_outer (X := fun i => spike 1 1 (i.getD 0 0) * spike 1 1 (i.getD 1 0)) (spike 1 1) (spike 1 1) (fun _ _ => rfl) rfl))
        rw [restShape22, valid22] at hi
        rcases hi with rfl | rfl | rfl | rfl <;> simp [vA, vB, vC, spike])
  refine ⟨x, y, A, B, C, X, Y, eA, eB, eC, ex, ey, eX, eY, by rw [sX]; decide, by rw [sY]; exact sA, fun i hi j hj => ⟨?_, ?_, ?_⟩⟩
  · rw [vA i hi j hj, vB i hi j hj, vC i hi j hj]
    interval_cases i <;> interval_cases j <;> simp [spike]
  · have h := hrun (fun l q _ A => LostInv M l q A)
      ⟨fun l q p hq _ A B S X hA hB hS hX => lostInv_merge hM rfl (tree3 hq) hA hB (by rw [restShape22] at hS; exact hS) hX,
        fun l q p A hq hA => lostInv_lone hq hA⟩
      (fun l q p A B hAB hA => lostInv_congr (by rw [restShape22] at hAB; exact hAB) hA) (fun q hq p hp => by
        have hq : q < 3 := hq
        obtain rfl : p = [] := by cases p with | nil => rfl | cons _ _ => exact hp.elim
        interval_cases q <;> simp [LostInv, Is22, vA, vB, vC, spike]) [] trivial
    simp only [List.length_map, List.length_cons, List.length_nil, show Nat.clog 2 (0 + 1 + 1 + 1) = 2 by decide] at h
    obtain ⟨h1, h2, h3, h4⟩ := h
    interval_cases i <;> interval_cases j
    · exact h1
    · exact h2
    · exact h3
    · exact h4
  · rw [vY _ (by rw [sY]; show Valid A.shape _; rw [sA]; exact ⟨hi, hj, trivial⟩)]
    simp only [List.length_map, List.length_cons, List.length_nil, Finset.sum_range_succ, Finset.sum_range_zero]
    simp [vA i hi j hj, vB i hi j hj, vC i hi j hj]
    interval_cases i <;> interval_cases j <;> simp [spike]

/-- The batch of `M E₀₀`, `E₁₁` and `-M E₀₀`, with TT-ranks one. -/
noncomputable def exOuter3 (M : ℝ) : TT ℝ where
  cores := [⟨[3, 1, 2, 1], fun i => if i.getD 0 0 = 0 then spike 0 M (i.getD 2 0) else if i.getD 0 0 = 1 then spike 1 1 (i.getD 2 0) else spike 0 (-M) (i.getD 2 0)⟩,
    ⟨[3, 1, 2, 1], fun i => if i.getD 0 0 = 1 then spike 1 1 (i.getD 2 0) else spike 0 1 (i.getD 2 0)⟩]
  rawShape := [[2, 2]]
  ttRanks := [1, 1, 1]
  batch := some 3

theorem exOuter3_wf (M : ℝ) : (exOuter3 M).WF := of_decide_eq_true rfl

theorem exOuter3_full (M : ℝ) : ∃ T, full (exOuter3 M) = Except.ok T ∧ T.shape = [3, 2, 2] ∧
    Is22 (fun i => T.get (0 :: i)) M 0 0 0 ∧ Is22 (fun i => T.get (1 :: i)) 0 0 0 1 ∧ Is22 (fun i => T.get (2 :: i)) (-M) 0 0 0 := by
  obtain ⟨T, e, s, h⟩ := full_ok (exOuter3_wf M)
  have h : ∀ k < 3, ∀ i < 2, ∀ j < 2, T.get [k, i, j] = (exOuter3 M).entry [k] (restModes [[2, 2]] [i, j]) := fun k hk i hi j hj =>
    h [k] [i, j] ⟨hk, trivial⟩ ⟨hi, hj, trivial⟩
  refine ⟨T, e, s, ⟨?_, ?_, ?_, ?_⟩, ⟨?_, ?_, ?_, ?_⟩, ⟨?_, ?_, ?_, ?_⟩⟩ <;> beta_reduce <;> rw [h _ (by omega) _ (by omega) _ (by omega)] <;>
    simp [TT.entry, lprod, TT.ndims, exOuter3, TT.rank, TT.slice, TT.core, restModes, tIdx, spike]

/-- **C74, finding.** `reduce_sum_batch` of the same three matrices with `max_tt_rank=1` is zero as well. -/
theorem C74_order_batch {qr : QRRoutine} (hqr : qr.Correct) {svd : SVDRoutine} (hsvd : svd.Correct) {M : ℝ} (hM : 1 < M) :
    ∃ x T X, full (exOuter3 M) = Except.ok T ∧ reduceSumBatch qr svd (exOuter3 M) (.num 1) none = Except.ok x ∧ full x = Except.ok X ∧
      T.shape = [3, 2, 2] ∧ X.shape = [2, 2] ∧ ∀ i < 2, ∀ j < 2,
        T.get [0, i, j] + T.get [1, i, j] + T.get [2, i, j] = (if i = 1 ∧ j = 1 then 1 else 0) ∧ X.get [i, j] = 0 := by
  obtain ⟨T, eT, sT, t0, t1, t2⟩ := exOuter3_full M
  have hb : (MaxRank.num 1).Bounds 2 (fun _ => 1) := Or.inl ⟨1, by omega, Or.inl rfl, fun _ => rfl⟩
  obtain ⟨x, X, ex, eX, -, sX, hrun⟩ := reduceSumBatch_run hqr hsvd (exOuter3_wf M) le_rfl (by simp [TT.ModesPos, exOuter3]) (n := 3) rfl hb (fun l hl => by cases hl)
    (SumWeights.absent (n := 3)) eT
  refine ⟨x, T, X, eT, ex, eX, sT, by rw [sX]; rfl, fun i hi j hj => ⟨?_, ?_⟩⟩
  · obtain ⟨a1, a2, a3, a4⟩ := t0
    obtain ⟨b1, b2, b3, b4⟩ := t1
    obtain ⟨c1, c2, c3, c4⟩ := t2
    interval_cases i <;> interval_cases j <;> simp_all
  · have h := hrun (fun l q _ A => LostInv M l q A) (fun l q j h1 h2 hj A B S X hA hB hB0 hS hX => by
        by_cases h3 : (2 * q + 1) * 2 ^ l < 3
        · exact lostInv_merge hM rfl (tree3 h3) hA (hB h3) (by intro i hi; exact hS i (by rw [show (exOuter3 M).rawShape = [[2, 2]] from rfl, restShape22]; exact hi)) hX
        · have h4 := lostInv_lone (by omega) hA
          have hB0 := hB0 (by omega)
          have hS : ∀ i, Valid [2, 2] i → S i = A i := fun i hi => by
            rw [hS i (by rw [show (exOuter3 M).rawShape = [[2, 2]] from rfl, restShape22]; exact hi), hB0]; simp
          refine lostInv_congr (A := S) (fun i hi => (hX.exact ?_ (by rw [show (exOuter3 M).rawShape = [[2, 2]] from rfl, restShape22]; exact hi)).symm) (lostInv_congr (fun i hi => (hS i hi).symm) h4)
          obtain ⟨rfl, rfl⟩ : l = 0 ∧ q = 1 := by
            have hl : l < 2 := by
              by_contra hh
              have := Nat.pow_le_pow_right (n := 2) (by norm_num) (show 2 ≤ l by omega)
              omega
            interval_cases l <;> omega
          obtain ⟨a1, a2, a3, a4⟩ := hA
          refine repEntry_mono (d := 2) (by simp [exOuter3]) (fun _ _ _ => le_rfl) (fun i hi => ?_)
            (repEntry_outer (X := fun i => spike 0 (-M) (i.getD 0 0) * spike 0 1 (i.getD 1 0)) (spike 0 (-M)) (spike 0 1) (fun _ _ => rfl) rfl)
          rw [show (exOuter3 M).rawShape = [[2, 2]] from rfl, restShape22] at hi
          rw [hS i hi]
          rw [valid22] at hi
          rcases hi with rfl | rfl | rfl | rfl <;> simp [spike, a1, a2, a3, a4])
      (fun l q p A B hAB hA => lostInv_congr (by intro i hi; exact hAB i (by rw [show (exOuter3 M).rawShape = [[2, 2]] from rfl, restShape22]; exact hi)) hA) (fun q hq j hj => by
        simp only [one_mul]
        interval_cases q
        · exact t0
        · exact t1
        · exact t2) 0 (by omega)
    simp only [show Nat.clog 2 3 = 2 by decide] at h
    obtain ⟨h1, h2, h3, h4⟩ := h
    interval_cases i <;> interval_cases j
    · exact h1
    · exact h2
    · exact h3
    · exact h4

/-- The hypotheses hold for three matrices of rank one, whose sum is approximated with rank one, and for the batch of them. -/
example (M : ℝ) : Summands [exOuter (spike 0 M) (spike 0 1), exOuter (spike 1 1) (spike 1 1), exOuter (spike 0 (-M)) (spike 0 1)] [[2, 2]] none 2 ∧
    (MaxRank.num 1).Bounds 2 (fun _ => 1) ∧ (MaxRank.num 1).Single ∧ HasTT [[2, 2]] (fun _ => 1) (fun i => spike 0 M (i.getD 0 0) * spike 0 1 (i.getD 1 0)) ∧
    (exOuter3 M).WF ∧ 2 ≤ (exOuter3 M).ndims ∧ (exOuter3 M).ModesPos ∧ (exOuter3 M).batch = some 3 ∧ SumWeights 3 none none 1 (fun _ _ => 1) ∧
    ∃ T, full (exOuter3 M) = Except.ok T :=
  ⟨exOuter_summands [(spike 0 M, spike 0 1), (spike 1 1, spike 1 1), (spike 0 (-M), spike 0 1)] (by simp),
    (Or.inl ⟨1, by omega, Or.inl rfl, fun _ => rfl⟩ : MaxRank.Bounds _ _ _), (fun l hl => (by cases hl) : MaxRank.Single _),
    hasTT_iff.2 (repEntry_outer (spike 0 M) (spike 0 1) (fun _ _ => rfl) rfl), exOuter3_wf M, le_rfl, by simp [TT.ModesPos, exOuter3], rfl, .absent,
    (exOuter3_full M).imp fun _ h => h.1⟩

end T3f
