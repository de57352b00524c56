import Verif.Proofs.AddN
import Verif.Spec.Kron
import Verif.Proofs.Factor

/-!
# C35: `add_n`

`ts` is the list of summands, all of raw shape `rows` and all with the same batch size (`bs = none`: not batches); `F k` is the dense form of the
`k`-th summand. `block n l q` are the numbers of the summands that enter the `q`-th node of level `l` of the summation tree.
-/

namespace T3f

theorem Summands.inv {ts : List (TT ℝ)} {rows : List (List ℕ)} {bs : Option ℕ} {d : ℕ} (h : Summands ts rows bs d) (b : ℕ → ℕ)
    (Q : ℕ → ℕ → List ℕ → (List ℕ → ℝ) → Prop) (hQ : ∀ q < ts.length, ∀ p, Valid bs.toList p → Q 0 q p fun i => (ts.getD q default).entry p (restModes rows i)) :
    (∀ row ∈ rows, row.length = d) ∧ (∀ row ∈ rows, ∀ x ∈ row, 0 < x) ∧
      TreeInv rows bs b ts.length Q 0 ts := by
  obtain ⟨hne, -, h⟩ := h
  have hmem : ∀ q < ts.length, ts.getD q default ∈ ts := fun q hq => by
    rw [List.getD_eq_getElem _ _ hq]; exact List.getElem_mem hq
  obtain ⟨t, ht⟩ := List.exists_mem_of_ne_nil _ hne
  obtain ⟨h1, h2, h3, h4, h5⟩ := h t ht
  refine ⟨fun row hr => by rw [← h4]; exact h1.rows_len row (by rw [h2]; exact hr), by rw [TT.ModesPos, h2] at h5; exact h5, Lvl.zero _,
    fun q hq => (h _ (hmem q hq)).1, fun q hq => (h _ (hmem q hq)).2.1, fun q hq => (h _ (hmem q hq)).2.2.1, by simp, by simp, hQ⟩

/-- C35: `add_n` succeeds on every non-empty list and keeps the shape; if there is more than one summand, the TT-ranks are within the bounds. -/
theorem C35_ranks {qr : QRRoutine} (hqr : qr.Correct) {svd : SVDRoutine} (hsvd : svd.Correct) {ts : List (TT ℝ)} {rows : List (List ℕ)}
    {bs : Option ℕ} {d : ℕ} (hts : Summands ts rows bs d) {m : MaxRank} {b : ℕ → ℕ} (hb : m.Bounds d b) (hbatch : bs ≠ none → m.Single) :
    ∃ x, addN qr svd ts m = Except.ok x ∧ x.WF ∧ x.rawShape = rows ∧ x.batch = bs ∧
      (1 < ts.length → ∀ k, 0 < k → k < d → x.rank k ≤ b k) := by
  obtain ⟨hdr, hpos, h0⟩ := hts.inv b (fun _ _ _ _ => True) (fun _ _ _ _ => trivial)
  have hn : 0 < ts.length := List.length_pos_iff.2 hts.1
  obtain ⟨l, x, e, hx, hl⟩ := addNLoop_ok hqr hsvd hts.2.1 hdr hpos hb hbatch hn ⟨fun _ _ _ _ _ _ _ _ _ _ _ _ _ => trivial, fun _ _ _ _ _ _ => trivial⟩ ts.length 0 ts h0 le_rfl
  refine ⟨x, by rw [addN, e]; rfl, hx.wf 0 (by simp), hx.shape 0 (by simp), hx.batch 0 (by simp), fun h1 k h0 hk => ?_⟩
  refine hx.rank 0 (by simp) (hl h1) (by simpa using hx.two (hl h1)) k h0 ?_
  rw [ndims_of_len hdr (hx.wf 0 (by simp)) (hx.shape 0 (by simp))]
  exact hk

/-- C35: if the partial sums of the summation tree can be represented within the bounds, `add_n` is the exact sum, with every summand
occurring exactly once. -/
theorem C35_exact {qr : QRRoutine} (hqr : qr.Correct) {svd : SVDRoutine} (hsvd : svd.Correct) {ts : List (TT ℝ)} {rows : List (List ℕ)}
    {bs : Option ℕ} {d : ℕ} (hts : Summands ts rows bs d) {m : MaxRank} {b : ℕ → ℕ} (hb : m.Bounds d b) (hbatch : bs ≠ none → m.Single)
    {F : ℕ → Tensor ℝ} (hF : ∀ k < ts.length, full (ts.getD k default) = Except.ok (F k))
    (hblk : ∀ l q, (2 * q + 1) * 2 ^ l < ts.length → ∀ p, Valid bs.toList p →
      HasTT rows b fun i => ∑ k ∈ block ts.length (l + 1) q, (F k).get (p ++ i)) :
    ∃ x X, addN qr svd ts m = Except.ok x ∧ full x = Except.ok X ∧ X.shape = (F 0).shape ∧
      ∀ i, Valid X.shape i → X.get i = ∑ k ∈ Finset.range ts.length, (F k).get i := by
  obtain ⟨hdr, hpos, h0⟩ := hts.inv b (fun l q p A => ∀ i, Valid (restShape rows) i → A i = ∑ k ∈ block ts.length l q, (ts.getD k default).entry p (restModes rows i))
    (fun q hq p _ i _ => by rw [block_zero hq, Finset.sum_singleton])
  have hn : 0 < ts.length := List.length_pos_iff.2 hts.1
  have hFv : ∀ k < ts.length, (F k).shape = bs.toList ++ restShape rows ∧ ∀ p i, Valid bs.toList p → Valid (restShape rows) i →
      (F k).get (p ++ i) = (ts.getD k default).entry p (restModes rows i) := by
    intro k hk
    obtain ⟨F', e, s, v⟩ := full_ok (h0.wf k hk)
    obtain rfl : F' = F k := Except.ok.inj (e.symm.trans (hF k hk))
    have hp : (ts.getD k default).bpre = bs.toList := by rw [TT.bpre, h0.batch k hk]
    rw [hp, h0.shape k hk] at s v
    exact ⟨s, v⟩
  obtain ⟨l, x, e, hx, hl⟩ := addNLoop_ok hqr hsvd hts.2.1 hdr hpos hb hbatch hn (TreeStep.exact hdr _ fun l q hq p hp => by
    refine repEntry_mono hdr (fun _ _ _ => le_rfl) ?_ (hasTT_iff.1 (hblk l q hq p hp))
    exact fun i hi => Finset.sum_congr rfl fun k hk => (hFv k (Finset.mem_range.1 (Finset.mem_filter.1 hk).1)).2 p i hp hi) ts.length 0 ts h0 le_rfl
  obtain ⟨X, eX, sX, vX⟩ := full_ok (hx.wf 0 (by simp))
  have hxp : TT.bpre ([x].getD 0 default) = bs.toList := by rw [TT.bpre, hx.batch 0 (by simp)]
  rw [hxp, hx.shape 0 (by simp)] at sX vX
  refine ⟨x, X, by rw [addN, e]; rfl, eX, by rw [sX, (hFv 0 hn).1], fun i hi => ?_⟩
  rw [sX] at hi
  obtain ⟨p, j, rfl, hp, hj⟩ := valid_append_iff.1 hi
  refine (vX p j hp hj).trans ((hx.entry 0 (by simp) p hp j hj).trans ?_)
  rw [hx.lvl.all]
  exact Finset.sum_congr rfl fun k hk => ((hFv k (Finset.mem_range.1 hk)).2 p j hp hj).symm

/-- C35: `add_n` is exact if the bounds are at least the sums of the TT-ranks of the summands. -/
theorem C35_sum_of_ranks {qr : QRRoutine} (hqr : qr.Correct) {svd : SVDRoutine} (hsvd : svd.Correct) {ts : List (TT ℝ)} {rows : List (List ℕ)}
    {bs : Option ℕ} {d : ℕ} (hts : Summands ts rows bs d) {m : MaxRank} {b : ℕ → ℕ} (hb : m.Bounds d b) (hbatch : bs ≠ none → m.Single)
    (hr : ∀ k, 0 < k → k < d → (ts.map fun t => t.rank k).sum ≤ b k)
    {F : ℕ → Tensor ℝ} (hF : ∀ k < ts.length, full (ts.getD k default) = Except.ok (F k)) :
    ∃ x X, addN qr svd ts m = Except.ok x ∧ full x = Except.ok X ∧ X.shape = (F 0).shape ∧
      ∀ i, Valid X.shape i → X.get i = ∑ k ∈ Finset.range ts.length, (F k).get i := by
  obtain ⟨hdr, hpos, h0⟩ := hts.inv b (fun l q p A => ∀ i, Valid (restShape rows) i → A i = ∑ k ∈ block ts.length l q, (ts.getD k default).entry p (restModes rows i))
    (fun q hq p _ i _ => by rw [block_zero hq, Finset.sum_singleton])
  refine C35_exact hqr hsvd hts hb hbatch hF fun l q hq p hp => hasTT_iff.2 ?_
  have hq0 : q * 2 ^ (l + 1) < ts.length := lt_of_le_of_lt (by rw [pow_succ]; nlinarith [Nat.zero_le (2 ^ l)]) hq
  have hmem : q * 2 ^ (l + 1) ∈ block ts.length (l + 1) q := by
    simp [block, hq0]
  refine repEntry_mono hdr (fun k h1 h2 => le_trans ?_ (hr k h1 h2)) ?_
    (repEntry_sum hts.2.1 hdr (block ts.length (l + 1) q) ⟨_, hmem⟩ (fun k => (ts.getD k default).rank)
      (fun k i => (ts.getD k default).entry p (restModes rows i)) fun k hk => ?_)
  · have e : (ts.map fun t => t.rank k).sum = ∑ j ∈ Finset.range ts.length, (ts.getD j default).rank k := by
      rw [Finset.sum_range, ← List.sum_ofFn]
      congr 1
      apply List.ext_getElem <;> simp
    rw [e]
    exact Finset.sum_le_sum_of_subset (Finset.filter_subset _ _)
  · intro i hi
    refine Finset.sum_congr rfl fun k hk => ?_
    have hk := Finset.mem_range.1 (Finset.mem_filter.1 hk).1
    obtain ⟨F', e, s, v⟩ := full_ok (h0.wf k hk)
    obtain rfl : F' = F k := Except.ok.inj (e.symm.trans (hF k hk))
    have hp' : (ts.getD k default).bpre = bs.toList := by rw [TT.bpre, h0.batch k hk]
    rw [hp', h0.shape k hk] at v
    exact (v p i hp hi).symm
  · have hk := Finset.mem_range.1 (Finset.mem_filter.1 hk).1
    have := repEntry_item (h0.wf k hk) (p := p) (by rw [TT.bpre, h0.batch k hk]; exact hp)
    rw [h0.shape k hk] at this
    exact this

/-- C35: a single summand is returned as it is, whatever its ranks; an empty list raises an IndexError. -/
theorem C35_short (qr : QRRoutine) (svd : SVDRoutine) (t : TT ℝ) (m : MaxRank) :
    addN qr svd [t] m = Except.ok t ∧ addN qr svd [] m = Except.error Err.index := ⟨rfl, rfl⟩

/-- C35: two or more objects with a single core cannot be added. -/
theorem C35_one_dim (qr : QRRoutine) (svd : SVDRoutine) {a b : TT ℝ} (ha : a.WF) (hb : b.WF) (hd : a.ndims = 1) (hr : a.rawShape = b.rawShape)
    (rest : List (TT ℝ)) (m : MaxRank) : addN qr svd (a :: b :: rest) m = Except.error Err.value := by
  have h : addNLevel qr svd m (a :: b :: rest) = Except.error Err.value := by
    rw [addNLevel, mapRange, show ((a :: b :: rest).length + 1) / 2 = ((rest.length + 1) / 2) + 1 by simp; omega, List.range_succ_eq_map, List.mapM_cons]
    have : (do
        let curr ← pyGet (a :: b :: rest) (2 * 0)
        if 2 * 0 + 1 < (a :: b :: rest).length then do
          let other ← pyGet (a :: b :: rest) (2 * 0 + 1)
          let sum ← add curr other
          ttRound qr svd sum m none
        else pure curr : R (TT ℝ)) = Except.error Err.value := by
      rw [pyGet_of_lt _ _ default (by simp), R.ok_bind, if_pos (by simp), pyGet_of_lt _ _ default (by simp), R.ok_bind]
      show (add a b >>= _) = _
      rw [add_one_dim ha hb hd hr]; rfl
    rw [this]; rfl
  rw [addN, List.length_cons, addNLoop, if_pos (by simp), h]; rfl

example : Summands [exTensor.toReal, exTensor'.toReal, exTensor.toReal] [[2, 3]] none 2 ∧ (MaxRank.num 9).Bounds 2 (fun _ => 9) ∧
    (∀ k, 0 < k → k < 2 → ([exTensor.toReal, exTensor'.toReal, exTensor.toReal].map fun t => t.rank k).sum ≤ 9) ∧
    Summands [exBatchMatrix.toReal, exBatchMatrix.toReal] exBatchMatrix.rawShape exBatchMatrix.batch 2 := by
  refine ⟨⟨by simp, le_rfl, ?_⟩, Or.inl ⟨9, by omega, Or.inl rfl, fun _ => rfl⟩, ?_, by simp, le_rfl, ?_⟩
  · intro t ht
    simp only [List.mem_cons, List.not_mem_nil, or_false] at ht
    rcases ht with rfl | rfl | rfl
    · exact ⟨TT.WF.toReal (by decide), rfl, rfl, rfl, by simp [TT.ModesPos, TT.toReal, exTensor]⟩
    · exact ⟨TT.WF.toReal (by decide), rfl, rfl, rfl, by simp [TT.ModesPos, TT.toReal, exTensor']⟩
    · exact ⟨TT.WF.toReal (by decide), rfl, rfl, rfl, by simp [TT.ModesPos, TT.toReal, exTensor]⟩
  · intro k h0 hk
    obtain rfl : k = 1 := by omega
    simp [TT.rank, TT.toReal, exTensor, exTensor']
  · intro t ht
    simp only [List.mem_cons, List.not_mem_nil, or_false, or_self] at ht
    subst ht
    exact ⟨TT.WF.toReal (by decide), rfl, rfl, rfl, by simp [TT.ModesPos, TT.toReal, exBatchMatrix]⟩

end T3f
