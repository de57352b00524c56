import Verif.Proofs.ReduceSum
import Verif.Spec.Kron
import Verif.Proofs.Factor

/-!
# C36: `reduce_sum_batch`

`t` is the batch, `T` its dense form of shape `n :: s`, `c k j` the weight of the `k`-th element in the `j`-th sum. `block n l q` are the numbers of
the elements that enter the `q`-th node of level `l` of the summation tree. Unlike in `add_n` a lone node is added to zero and rounded.
-/

namespace T3f

theorem SumWeights.ok {t : TT ℝ} (h : t.WF) {n : ℕ} (hb : t.batch = some n) {coef : Option (Tensor ℝ)} {out : Option ℕ} {N : ℕ} {c : ℕ → ℕ → ℝ}
    (hw : SumWeights n coef out N c) : 0 < N ∧ (out = some N ∨ out = none ∧ N = 1) ∧
      ∃ w, weightBatch t coef = Except.ok (w, out) ∧ w.WF ∧ w.rawShape = t.rawShape ∧ w.ttRanks = t.ttRanks ∧ w.batch = some (n * N) ∧
        ∀ q < n, ∀ j < N, ∀ g, t.ValidModes g t.ndims → w.entry [q * N + j] g = c q j * t.entry [q] g := by
  cases hw with
  | absent =>
    refine ⟨by omega, Or.inr ⟨rfl, rfl⟩, t, rfl, h, rfl, rfl, by rw [hb, mul_one], fun q hq j hj g hg => ?_⟩
    obtain rfl : j = 0 := by omega
    rw [mul_one, add_zero, one_mul]
  | vector C hC =>
    obtain ⟨w, e, ww, r, k, b, v⟩ := multiplyAlongBatchDim_spec h hb C (Or.inl hC)
    refine ⟨by omega, Or.inr ⟨rfl, rfl⟩, w, by simp only [weightBatch, hC]; rw [e]; rfl, ww, r, k, by rw [b, hb, mul_one], fun q hq j hj g hg => ?_⟩
    obtain rfl : j = 0 := by omega
    rw [mul_one, add_zero, v q hq g hg, if_pos hC]
  | matrix C _ hN hC => exact ⟨hN, Or.inl rfl, weightBatch_matrix h hN hb hC⟩

/-- C36: `reduce_sum_batch` succeeds for every batch size, keeps the shape and returns a `TensorTrain`, or a batch with one element for each column of a
matrix of coefficients. The TT-ranks are within the bounds if the batch has more than one element. -/
theorem C36_ranks {qr : QRRoutine} (hqr : qr.Correct) {svd : SVDRoutine} (hsvd : svd.Correct) {t : TT ℝ} (h : t.WF) (hd : 2 ≤ t.ndims)
    (hpos : t.ModesPos) {n : ℕ} (hb : t.batch = some n) {m : MaxRank} {b : ℕ → ℕ} (hm : m.Bounds t.ndims b) (hs : m.Single)
    {coef : Option (Tensor ℝ)} {out : Option ℕ} {N : ℕ} {c : ℕ → ℕ → ℝ} (hw : SumWeights n coef out N c) :
    ∃ x, reduceSumBatch qr svd t m coef = Except.ok x ∧ x.WF ∧ x.rawShape = t.rawShape ∧ x.batch = out ∧
      (1 < n → ∀ k, 0 < k → k < t.ndims → x.rank k ≤ b k) := by
  obtain ⟨hN, hout, w, e, ww, r, -, bw, v⟩ := hw.ok h hb
  obtain ⟨x, ex, wx, rx, bx, -, kx, -⟩ := reduceSumBatch_ok hqr hsvd h hd hpos hb hm hs hN hout e ww r bw v
  exact ⟨x, ex, wx, rx, bx, kx⟩

/-- C36: if the partial weighted sums of the summation tree can be represented within the bounds, `reduce_sum_batch` is the exact weighted sum, for
every batch size, with every element occurring exactly once. -/
theorem C36_exact {qr : QRRoutine} (hqr : qr.Correct) {svd : SVDRoutine} (hsvd : svd.Correct) {t : TT ℝ} (h : t.WF) (hd : 2 ≤ t.ndims)
    (hpos : t.ModesPos) {n : ℕ} (hb : t.batch = some n) {m : MaxRank} {b : ℕ → ℕ} (hm : m.Bounds t.ndims b) (hs : m.Single)
    {coef : Option (Tensor ℝ)} {out : Option ℕ} {N : ℕ} {c : ℕ → ℕ → ℝ} (hw : SumWeights n coef out N c) {T : Tensor ℝ} (hT : full t = Except.ok T)
    (hblk : ∀ l q, 2 ^ l < n → q * 2 ^ (l + 1) < n → ∀ j < N, HasTT t.rawShape b fun i => ∑ k ∈ block n (l + 1) q, c k j * T.get (k :: i)) :
    ∃ x X s, reduceSumBatch qr svd t m coef = Except.ok x ∧ full x = Except.ok X ∧ T.shape = n :: s ∧ X.shape = out.toList ++ s ∧
      ∀ j < N, ∀ i, Valid s i → X.get ((out.toList.map fun _ => j) ++ i) = ∑ k ∈ Finset.range n, c k j * T.get (k :: i) := by
  obtain ⟨hN, hout, w, e, ww, r, -, bw, v⟩ := hw.ok h hb
  obtain ⟨x, ex, wx, rx, bx, nx, -, vx⟩ := reduceSumBatch_ok hqr hsvd h hd hpos hb hm hs hN hout e ww r bw v
  obtain ⟨T', eT, sT, vT⟩ := full_ok h
  obtain rfl : T' = T := Except.ok.inj (eT.symm.trans hT)
  have hp : t.bpre = [n] := by rw [TT.bpre, hb]; rfl
  rw [hp] at sT vT
  have vT' : ∀ k < n, ∀ i, Valid (restShape t.rawShape) i → T'.get (k :: i) = t.entry [k] (restModes t.rawShape i) :=
    fun k hk i hi => vT [k] i ⟨hk, trivial⟩ hi
  obtain ⟨X, eX, sX, vX⟩ := full_ok wx
  have hpx : x.bpre = out.toList := by rw [TT.bpre, bx]
  rw [hpx, rx] at sX vX
  refine ⟨x, X, restShape t.rawShape, ex, eX, sT, sX, fun j hj i hi => ?_⟩
  have hv : Valid out.toList (out.toList.map fun _ => j) := by
    rcases hout with rfl | ⟨rfl, -⟩
    · exact ⟨hj, trivial⟩
    · exact trivial
  rw [vX _ i hv hi, vx (fun l q h1 h2 j hj => ?_) j hj i hi]
  · exact Finset.sum_congr rfl fun k hk => by rw [vT' k (Finset.mem_range.1 hk) i hi]
  · refine repEntry_mono h.rows_len (fun _ _ _ => le_rfl) ?_ (hasTT_iff.1 (hblk l q h1 h2 j hj))
    exact fun i hi => Finset.sum_congr rfl fun k hk => by rw [vT' k (Finset.mem_range.1 (Finset.mem_filter.1 hk).1) i hi]

/-- C36: `reduce_sum_batch` is exact if the bounds are at least `n` times the TT-ranks of the batch. -/
theorem C36_sum_of_ranks {qr : QRRoutine} (hqr : qr.Correct) {svd : SVDRoutine} (hsvd : svd.Correct) {t : TT ℝ} (h : t.WF) (hd : 2 ≤ t.ndims)
    (hpos : t.ModesPos) {n : ℕ} (hb : t.batch = some n) {m : MaxRank} {b : ℕ → ℕ} (hm : m.Bounds t.ndims b) (hs : m.Single)
    {coef : Option (Tensor ℝ)} {out : Option ℕ} {N : ℕ} {c : ℕ → ℕ → ℝ} (hw : SumWeights n coef out N c) {T : Tensor ℝ} (hT : full t = Except.ok T)
    (hr : ∀ k, 0 < k → k < t.ndims → n * t.rank k ≤ b k) :
    ∃ x X s, reduceSumBatch qr svd t m coef = Except.ok x ∧ full x = Except.ok X ∧ T.shape = n :: s ∧ X.shape = out.toList ++ s ∧
      ∀ j < N, ∀ i, Valid s i → X.get ((out.toList.map fun _ => j) ++ i) = ∑ k ∈ Finset.range n, c k j * T.get (k :: i) := by
  refine C36_exact hqr hsvd h hd hpos hb hm hs hw hT fun l q hl hq j hj => hasTT_iff.2 ?_
  obtain ⟨hN, hout, w, e, ww, r, kw, bw, v⟩ := hw.ok h hb
  obtain ⟨T', eT, sT, vT⟩ := full_ok h
  obtain rfl : T' = T := Except.ok.inj (eT.symm.trans hT)
  have hp : t.bpre = [n] := by rw [TT.bpre, hb]; rfl
  rw [hp] at sT vT
  have hmem : q * 2 ^ (l + 1) ∈ block n (l + 1) q := by simp [block, hq]
  refine repEntry_mono h.rows_len (fun k h1 h2 => le_trans ?_ (hr k h1 h2)) ?_
    (repEntry_sum hd h.rows_len (block n (l + 1) q) ⟨_, hmem⟩ (fun _ => t.rank) (fun k i => w.entry [k * N + j] (restModes t.rawShape i)) fun k hk => ?_)
  · rw [Finset.sum_const, smul_eq_mul]
    refine Nat.mul_le_mul_right _ ((Finset.card_le_card (Finset.filter_subset _ _)).trans (by simp))
  · intro i hi
    refine Finset.sum_congr rfl fun k hk => ?_
    have hk := Finset.mem_range.1 (Finset.mem_filter.1 hk).1
    rw [v k hk j hj _ (validModes_rest h hi)]
    congr 1
    exact (vT [k] i ⟨hk, trivial⟩ hi).symm
  · have hk := Finset.mem_range.1 (Finset.mem_filter.1 hk).1
    have := repEntry_item ww (p := [k * N + j]) (by
      rw [TT.bpre, bw]
      exact ⟨lt_of_lt_of_le (b := (k + 1) * N) (by rw [Nat.add_mul, one_mul]; omega) (Nat.mul_le_mul_right _ hk), trivial⟩)
    rw [r, show w.rank = t.rank by funext k; rw [TT.rank, TT.rank, kw]] at this
    exact this

/-- C36: coefficients that are a number or have more than two axes, and matrices with a wrong number of rows raise a ValueError. -/
theorem C36_coef_errors (qr : QRRoutine) (svd : SVDRoutine) (t : TT ℝ) (m : MaxRank) (C : Tensor ℝ)
    (h : C.shape.length = 0 ∨ 3 ≤ C.shape.length ∨ ∃ r c, C.shape = [r, c] ∧ t.batch ≠ some r) :
    reduceSumBatch qr svd t m (some C) = Except.error Err.value := by
  have : weightBatch t (some C) = Except.error Err.value := by
    rcases h with h | h | ⟨r, c, h, hr⟩
    · rw [List.length_eq_zero_iff] at h
      simp only [weightBatch, h]; rfl
    · match hs : C.shape, h with
      | _ :: _ :: _ :: _, _ => simp only [weightBatch, hs]; rfl
    · simp only [weightBatch, h]
      rw [require, if_neg hr]; rfl
  rw [reduceSumBatch, this]; rfl

example : exBatchMatrix.toReal.WF ∧ 2 ≤ exBatchMatrix.toReal.ndims ∧ exBatchMatrix.toReal.ModesPos ∧ exBatchMatrix.toReal.batch = some 2 ∧
    (MaxRank.num 4).Bounds 2 (fun _ => 4) ∧ (MaxRank.num 4).Single ∧ (∀ k, 0 < k → k < exBatchMatrix.toReal.ndims → 2 * exBatchMatrix.toReal.rank k ≤ 4) ∧
    SumWeights 2 none none 1 (fun _ _ => 1) ∧
    SumWeights 2 (some (Tensor.ofList [2] [3, -1])) none 1 (fun k _ => (Tensor.ofList [2] [3, -1]).get [k]) ∧
    SumWeights 2 (some (Tensor.ofList [2, 3] [1, 2, 3, 4, 5, 6])) (some 3) 3 (fun k j => (Tensor.ofList [2, 3] [1, 2, 3, 4, 5, 6]).get [k, j]) := by
  refine ⟨TT.WF.toReal (by decide), le_rfl, by simp [TT.ModesPos, TT.toReal, exBatchMatrix], rfl,
    (Or.inl ⟨4, by omega, Or.inl rfl, fun _ => rfl⟩ : MaxRank.Bounds _ _ _), (fun l hl => (by cases hl) : MaxRank.Single _), ?_,
    .absent, .vector _ rfl, .matrix _ _ (by omega) rfl⟩
  intro k h0 hk
  have : k < 2 := hk
  obtain rfl : k = 1 := by omega
  simp [TT.rank, TT.toReal, exBatchMatrix]

end T3f
