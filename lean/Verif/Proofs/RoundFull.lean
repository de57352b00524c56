import Verif.Proofs.Round

/-! # What rounding returns -/

namespace T3f

/-- Squared distance of the tensors of two TT objects at a batch index. -/
noncomputable def entryDist (t s : TT ℝ) (p : List ℕ) : ℝ :=
  ∑ n ∈ Finset.range (restShape t.rawShape).prod, (t.entry p (restModes t.rawShape (unravel (restShape t.rawShape) n)) -
    s.entry p (restModes t.rawShape (unravel (restShape t.rawShape) n))) ^ 2

noncomputable def entryDot (t s : TT ℝ) (p : List ℕ) : ℝ :=
  ∑ n ∈ Finset.range (restShape t.rawShape).prod, t.entry p (restModes t.rawShape (unravel (restShape t.rawShape) n)) *
    s.entry p (restModes t.rawShape (unravel (restShape t.rawShape) n))

/-- The cores of `t` (at the batch index `p`) are the chain `A` with the ranks `r`. -/
structure TT.IsChain (t : TT ℝ) (p : List ℕ) (r : ℕ → ℕ) (A : ℕ → ℕ → ℕ → ℕ → ℝ) : Prop where
  rank : ∀ k ≤ t.ndims, t.rank k = r k
  core : ∀ k < t.ndims, ∀ n < t.N k, ∀ a < r k, ∀ b < r (k + 1), t.fl p k n a b = A k n a b

theorem gram_entry {t s : TT ℝ} (h : t.WF) (hs : s.rawShape = t.rawShape) (hn : s.ndims = t.ndims) (p : List ℕ) :
    gram t.N t.rank s.rank (t.fl p) (s.fl p) t.ndims 0 0 = entryDot t s p := by
  have hm : s.modes = t.modes := by funext k; simp [TT.modes, hs]
  have := gram_msum t.modes t.rank s.rank (fun k v a b => (t.core k).get (p ++ a :: (v ++ [b])))
    (fun k v a b => (s.core k).get (p ++ a :: (v ++ [b]))) t.ndims 0 0
  have e : s.fl p = fun k n a b => (s.core k).get (p ++ a :: (unravel (t.modes k) n ++ [b])) := by
    funext k n a b; rw [TT.fl, hm]
  rw [e]
  refine (show gram t.N t.rank s.rank (t.fl p) _ t.ndims 0 0 = _ from this.symm).trans ?_
  refine (msum_rest h _ ?_).trans ?_
  · intro g g' hg
    have h1 := entry_depends t p g g' hg
    have h2 := entry_depends s p g g' (by rw [hn]; exact hg)
    simp only [TT.entry, hn] at h1 h2
    exact congrArg₂ (· * ·) h1 h2
  · unfold entryDot TT.entry
    rw [hn]
    rfl

theorem chainDist_entry {t s : TT ℝ} (h : t.WF) (hsw : s.WF) (hs : s.rawShape = t.rawShape) (hn : s.ndims = t.ndims) (p : List ℕ) :
    chainDist t.N t.rank s.rank (t.fl p) (s.fl p) t.ndims = entryDist t s p := by
  have hN : s.N = t.N := by funext k; simp [TT.N, TT.modes, hs]
  have e3 := gram_entry hsw rfl rfl p
  rw [hn, hN] at e3
  unfold chainDist
  rw [gram_entry h rfl rfl, gram_entry h hs hn, e3]
  unfold entryDot entryDist
  rw [hs, Finset.mul_sum, ← Finset.sum_sub_distrib, ← Finset.sum_add_distrib]
  exact Finset.sum_congr rfl fun n _ => by ring

theorem roundStep_congr (svd : SVDRoutine) {t o : TT ℝ} (hb : o.batch = t.batch) (hs : o.rawShape = t.rawShape) (bounds : List ℕ) (i : ℕ)
    (s : List (Tensor ℝ) × List ℕ) : roundStep svd t bounds i s = roundStep svd o bounds i s := by
  unfold roundStep coreModes
  rw [hb, hs]

theorem gram_congr' {N ra ra' rb rb' : ℕ → ℕ} {A A' B B' : ℕ → ℕ → ℕ → ℕ → ℝ} {d : ℕ} (h1 : ∀ k ≤ d, ra' k = ra k) (h2 : ∀ k ≤ d, rb' k = rb k)
    (hA : ∀ k < d, ∀ n < N k, ∀ a < ra k, ∀ b < ra (k + 1), A' k n a b = A k n a b)
    (hB : ∀ k < d, ∀ n < N k, ∀ a < rb k, ∀ b < rb (k + 1), B' k n a b = B k n a b) {x y : ℕ} (hx : x < ra d) (hy : y < rb d) :
    gram N ra' rb' A' B' d x y = gram N ra rb A B d x y := by
  induction d generalizing x y with
  | zero => rfl
  | succ d ih =>
    simp only [gram]
    rw [h1 d (by omega), h2 d (by omega)]
    refine Finset.sum_congr rfl fun a ha => Finset.sum_congr rfl fun c hc => ?_
    rw [Finset.mem_range] at ha hc
    rw [ih (fun k hk => h1 k (by omega)) (fun k hk => h2 k (by omega)) (fun k hk => hA k (by omega)) (fun k hk => hB k (by omega)) ha hc]
    refine congrArg _ (Finset.sum_congr rfl fun n hn => ?_)
    rw [Finset.mem_range] at hn
    rw [hA d (by omega) n hn a ha x hx, hB d (by omega) n hn c hc y hy]

theorem rdRank_congr {bd N r r' : ℕ → ℕ} {d : ℕ} (h : ∀ k ≤ d, r k = r' k) (k : ℕ) : rdRank bd N r d k = rdRank bd N r' d k := by
  have : ∀ m, rdAux bd N r d m = rdAux bd N r' d m := by
    intro m
    induction m with
    | zero => rfl
    | succ m ih => rw [rdAux, rdAux, ih, h _ (by omega)]
  unfold rdRank
  rw [this]

/-- Rank bounds that allow each other (no rank exceeds what the neighbouring cores can carry) are attained. -/
theorem rdRank_attained {bd N r ρ : ℕ → ℕ} {d : ℕ} (h0 : ρ 0 = 1) (hd : ρ d = 1) (hb : ∀ k, 0 < k → k < d → bd k = ρ k) (hr : ∀ k, 0 < k → k < d → ρ k ≤ r k)
    (hl : ∀ k < d, ρ (k + 1) ≤ ρ k * N k) (hR : ∀ k < d, ρ k ≤ N k * ρ (k + 1)) {k : ℕ} (hk : k ≤ d) :
    rdRank bd N (lrRank N r) d k = ρ k := by
  have h1 : ∀ k < d, ρ k ≤ lrRank N r k := by
    intro k
    induction k with
    | zero => intro _; rw [h0, lrRank]
    | succ k ih =>
      intro hk
      rw [lrRank]
      exact le_min ((hl k (by omega)).trans (Nat.mul_le_mul_right _ (ih (by omega)))) (hr _ (by omega) hk)
  have h4 : ∀ m k, 0 < k → k + m = d → rdRank bd N (lrRank N r) d k = ρ k := by
    intro m
    induction m with
    | zero =>
      intro k _ hk
      obtain rfl : k = d := hk
      rw [rdRank_last, hd]
    | succ m ih =>
      intro k hp hk
      rw [rdRank_step _ _ _ hp (by omega), ih (k + 1) (by omega) (by omega), hb k hp (by omega), keptRank]
      have h2 := h1 k (by omega)
      have h3 := hR k (by omega)
      split_ifs <;> omega
  rcases Nat.eq_zero_or_pos k with rfl | hp
  · rw [rdRank_zero, h0]
  · exact h4 (d - k) k hp (by omega)

/-- The sweep that `round` performs: `o` is the orthogonalized argument, `V` are the new cores, `C` the blocks before truncation. -/
theorem roundWith_sweep {qr : QRRoutine} (hqr : qr.Correct) {svd : SVDRoutine} (hsvd : svd.Correct) {t : TT ℝ} (h : t.WF) (hm : t.ModesPos)
    {bounds : List ℕ} (hbl : bounds.length = t.ndims + 1) (hbp : ∀ k ≤ t.ndims, 0 < bounds.getD k 0) :
    ∃ (x o : TT ℝ) (r' : ℕ → ℕ) (V C : List ℕ → ℕ → ℕ → ℕ → ℕ → ℝ) (tail : List ℕ → ℕ → ℝ), roundWith qr svd t bounds = Except.ok x ∧ x.WF ∧
      x.rawShape = t.rawShape ∧ x.batch = t.batch ∧ x.ndims = t.ndims ∧ o.WF ∧ o.ModesPos ∧ o.rawShape = t.rawShape ∧ o.batch = t.batch ∧
      o.ndims = t.ndims ∧ (∀ k ≤ t.ndims, o.rank k = lrRank t.N t.rank k) ∧
      (∀ p, Valid t.bpre p → ∀ m, (∀ j < t.ndims, Valid (t.modes j) (m j)) → o.entry p m = t.entry p m) ∧
      r' = rdRank (fun k => bounds.getD k 0) o.N o.rank o.ndims ∧ (∀ k ≤ t.ndims, x.rank k = r' k) ∧
      (∀ p k, 0 < k → k < t.ndims → x.fl p k = V p k) ∧
      (∀ p, Valid t.bpre p → ∀ n < o.N 0, ∀ a < 1, ∀ b < r' 1, x.fl p 0 n a b = C p 0 n a b) ∧
      ∀ p, Valid t.bpre p → RSweep o.N o.rank r' (o.fl p) (V p) (C p) t.ndims (tail p) fun k => bounds.getD k 0 := by
  have hpos := h.pos
  obtain ⟨o, eo, ho, hors, hob, hon, hork, hoL, hoe⟩ := orthoLR_ok hqr h hm
  have hom : o.ModesPos := by rw [TT.ModesPos, hors]; exact hm
  set d := t.ndims with hd
  set bd : ℕ → ℕ := fun k => bounds.getD k 0 with hbd
  have hinit := RdInv.init ho bd
  rw [hon] at hinit
  obtain ⟨s, es, hs⟩ := forRange_inv (fun j s => RdInv o bd (d - 1 - j) s)
    (fun j => roundStep svd t bounds (d - 1 - j)) 0 (d - 1) (o.cores, List.replicate (d + 1) 1) hinit
    (fun j s _ hj hP => by
      have e : d - 1 - j = d - 1 - (j + 1) + 1 := by omega
      rw [roundStep_congr svd hob hors, e]
      rw [e] at hP
      exact roundStep_ok hsvd ho hom (by rw [hon]; exact hbl) (by rw [hon]; exact hbp) _ (by omega) s hP)
  rw [Nat.zero_add, Nat.sub_self] at hs
  obtain ⟨C, tail, hB, hC⟩ := hs.cur
  set r' := rdRank bd o.N o.rank o.ndims with hr'
  have hM : o.modes = t.modes := by funext k; simp [TT.modes, hors]
  have hN : o.N = t.N := by funext k; simp [TT.N, hM]
  have hpre : o.bpre = t.bpre := by simp [TT.bpre, hob]
  have hNp : ∀ k < o.ndims, 0 < o.N k := fun k hk => modes_pos ho hom hk
  have hr'pos : ∀ k ≤ d, 0 < r' k := fun k hk =>
    rdRank_pos (by rw [hon]; exact hbp) hNp ho.rank_pos (by rw [hon]; exact hk)
  have hr'0 : r' 0 = 1 := rdRank_zero _ _ _ _
  have hr'd : r' d = 1 := by rw [← hon]; exact rdRank_last _ _ _ _
  rw [ho.rank_first, hpre] at hB
  obtain ⟨G, eG, sG, bG⟩ := hB.reshape_some (s := t.batch.toList ++ 1 :: (t.modes 0 ++ [r' 1]))
    (by simp [List.prod_append, TT.N, TT.bpre, hM])
  have hl : (s.1.set 0 G).length = d := by rw [List.length_set, hs.len, hon]
  have g0 : (s.1.set 0 G).getD 0 default = G := getD_set_self _ _ _ _ (by rw [hs.len]; omega)
  have gk : ∀ k, 0 < k → (s.1.set 0 G).getD k default = s.1.getD k default := fun k hk => getD_set_ne _ _ _ (by omega)
  have chain : Chain t.batch (s.1.set 0 G) r' t.modes t.rawShape.length := by
    refine ⟨by omega, hr'0, by rw [hl]; exact hr'd, fun k hk => hr'pos k (by omega), h.rows,
      fun k _ => by simp [TT.modes], fun k hk => ?_, h.batch_pos⟩
    rw [hl] at hk
    rcases Nat.eq_zero_or_pos k with rfl | h1
    · rw [g0, hr'0]; exact sG
    · rw [gk k h1, hs.shape k h1 (by omega), hM, hpre]; rfl
  have rows : t.rawShape = rowsOf t.modes (s.1.set 0 G).length t.rawShape.length := by rw [hl]; exact h.rows_eq
  have hranks : s.2 = ranksOf r' d := by
    apply List.ext_getElem
    · rw [hs.rlen, hon]; simp [ranksOf]
    · intro k h1 h2
      have := hs.rk k (by rw [hs.rlen] at h1; omega)
      rw [List.getD_eq_getElem _ _ h1] at this
      rw [this]
      simp only [ranksOf, List.getElem_map, List.getElem_range]
      split_ifs with h0
      · obtain rfl : k = 0 := by omega
        exact hr'0.symm
      · rfl
  have e : roundWith qr svd t bounds = Except.ok (chainTT t.batch (s.1.set 0 G) r' t.modes t.rawShape.length) := by
    have q0 : pyGet s.2 0 = Except.ok 1 := by
      rw [pyGet_of_lt _ _ 0 (by rw [hs.rlen]; omega), hs.rk 0 (by omega)]; rfl
    have q1 : pyGet s.2 1 = Except.ok (r' 1) := by
      rw [pyGet_of_lt _ _ 0 (by rw [hs.rlen]; omega), hs.rk 1 (by omega)]; rfl
    unfold roundWith
    rw [show orthogonalize qr t true = orthoLR qr t from rfl, eo]
    simp only [R.ok_bind, ← hd, es, q0, q1]
    rw [show pyGet s.1 0 = Except.ok (s.1.getD 0 default) from pyGet_of_lt _ _ _ (by rw [hs.len]; omega), R.ok_bind,
      show reshape (s.1.getD 0 default) ((t.batch.toList ++ 1 :: (coreModes t 0 ++ [r' 1])).map some) = Except.ok G from eG, R.ok_bind]
    have hranks' : some s.2 = some (ranksOf r' (s.1.set 0 G).length) := by rw [hl, hranks]
    cases hb : t.batch with
    | none =>
      rw [hb] at chain
      exact mkTT_ok chain _ (Or.inr (chain.clean rows)) _ (Or.inr hranks')
    | some n =>
      rw [hb] at chain
      exact mkBatch_ok chain _ (Or.inr (chain.clean rows)) _ (Or.inr hranks') _ (Or.inr rfl)
  set x := chainTT t.batch (s.1.set 0 G) r' t.modes t.rawShape.length with hx
  have hrank : ∀ k ≤ d, x.rank k = r' k := fun k hk => chainTT_rank k (by rw [hl]; exact hk)
  have hmodes : ∀ k < d, x.modes k = t.modes k := fun k hk => chain.modes_eq k (by rw [hl]; exact hk)
  have hfl : ∀ p, ∀ k, 0 < k → k < d → x.fl p k = cfl s.1 o.modes p k := by
    intro p k h0 hk
    funext n a b
    rw [TT.fl, hmodes k hk, cfl, ← gk k h0, hM]
    rfl
  have hf0 : ∀ p, Valid t.bpre p → ∀ n < o.N 0, ∀ a < 1, ∀ b < r' 1, x.fl p 0 n a b = C p 0 n a b := by
    intro p hp n hn a ha b hb
    have hn' : n < (t.modes 0).prod := by rw [hN] at hn; exact hn
    rw [TT.fl, hmodes 0 hpos, show x.core 0 = G from g0, bG.core sG (by rw [hN]; rfl) hp ha (unravel_valid hn') hb, ravel_unravel hn']
  have sw : ∀ p, Valid t.bpre p → RSweep o.N o.rank r' (o.fl p) (cfl s.1 o.modes p) (C p) d (tail p) bd := by
    intro p hp
    have hp' : Valid o.bpre p := by rw [hpre]; exact hp
    refine ⟨hpos, ho.rank_first, by rw [← hon]; exact ho.rank_last, hr'd, fun k hk => ?_, ?_, fun k h0 hk => ?_⟩
    · exact hoL p hp k hk
    · have := (hC p hp').1
      rw [hon] at this
      exact this
    · exact (hC p hp').2 k h0 (by rw [hon]; exact hk)
  have hxrs : x.rawShape = t.rawShape := rows.symm
  exact ⟨x, o, r', fun p => cfl s.1 o.modes p, C, tail, e, chain.wf, hxrs, rfl, hl, ho, hom, hors, hob, hon, hork, hoe, rfl, hrank, hfl, hf0, sw⟩

theorem roundWith_spec {qr : QRRoutine} (hqr : qr.Correct) {svd : SVDRoutine} (hsvd : svd.Correct) {t : TT ℝ} (h : t.WF) (hm : t.ModesPos)
    {bounds : List ℕ} (hbl : bounds.length = t.ndims + 1) (hbp : ∀ k ≤ t.ndims, 0 < bounds.getD k 0) :
    ∃ x, roundWith qr svd t bounds = Except.ok x ∧ x.WF ∧ x.rawShape = t.rawShape ∧ x.batch = t.batch ∧ x.ndims = t.ndims ∧
      (∀ k ≤ t.ndims, x.rank k = rdRank (fun k => bounds.getD k 0) t.N (lrRank t.N t.rank) t.ndims k) ∧
      (∀ k, 0 < k → k < t.ndims → x.rank k ≤ bounds.getD k 0) ∧ (∀ k ≤ t.ndims, x.rank k ≤ t.rank k) ∧
      (∀ p, Valid t.bpre p → ∀ k, 0 < k → k < t.ndims → x.RightOrthonormal p k) ∧
      ∃ tail : List ℕ → ℕ → ℝ, ∀ p, Valid t.bpre p →
        entryDist t x p = ∑ j ∈ Finset.range (t.ndims - 1), tail p (j + 1) ∧
        entryDist t x p = entryDot t t p - entryDot x x p ∧
        ∀ k, 0 < k → k < t.ndims → ∀ S : TT ℝ, S.WF → S.rawShape = t.rawShape → S.ndims = t.ndims → S.rank k ≤ bounds.getD k 0 →
          tail p k ≤ entryDist t S p := by
  obtain ⟨x, o, r', V, C, tail, e, hxw, hxrs, hxb, hl, ho, hom, hors, hob, hon, hork, hoe, hr', hrank, hfl, hf0, sw⟩ := roundWith_sweep hqr hsvd h hm hbl hbp
  have hpos := h.pos
  set d := t.ndims with hd
  set bd : ℕ → ℕ := fun k => bounds.getD k 0 with hbd
  have hM : o.modes = t.modes := by funext k; simp [TT.modes, hors]
  have hN : o.N = t.N := by funext k; simp [TT.N, hM]
  have hNp : ∀ k < o.ndims, 0 < o.N k := fun k hk => modes_pos ho hom hk
  have hr'pos : ∀ k ≤ d, 0 < r' k := fun k hk => by
    rw [hr']; exact rdRank_pos (by rw [hon]; exact hbp) hNp ho.rank_pos (by rw [hon]; exact hk)
  have hr'0 : r' 0 = 1 := by rw [hr']; exact rdRank_zero _ _ _ _
  have hr'd : r' d = 1 := by rw [hr', ← hon]; exact rdRank_last _ _ _ _
  have hmodes : ∀ k < d, x.modes k = t.modes k := fun k _ => by simp [TT.modes, hxrs]
  have hrow : ∀ k, 0 < k → k < d → r' k = keptRank (bd k) (o.rank k) (o.N k * r' (k + 1)) := fun k h0 hk => by
    rw [hr']; exact rdRank_step _ _ _ h0 (by rw [hon]; exact hk)
  have hole : ∀ k ≤ d, o.rank k ≤ t.rank k := fun k hk => by rw [hork k hk]; exact lrRank_le _ _ h.rank_first k
  refine ⟨x, e, hxw, hxrs, hxb, hl, fun k hk => ?_, fun k h0 hk => ?_, fun k hk => ?_, fun p hp k h0 hk => ?_, tail, fun p hp => ?_⟩
  · rw [hrank k hk, hr', hN, hon]
    exact rdRank_congr (fun k hk => hork k hk) k
  · rw [hrank k (by omega), hrow k h0 hk]; exact keptRank_le_bound
  · rw [hrank k hk]
    rcases Nat.eq_zero_or_pos k with rfl | h0
    · rw [hr'0, h.rank_first]
    rcases Nat.lt_or_ge k d with h1 | h1
    · rw [hrow k h0 h1]
      refine le_trans (keptRank_le_min (ho.rank_pos k (by omega)) (Nat.mul_pos (hNp k (by omega)) (hr'pos _ (by omega)))) ?_
      exact le_trans (min_le_left _ _) (hole k hk)
    · obtain rfl : k = d := le_antisymm hk h1
      rw [hr'd, h.rank_last]
  · have := ((sw p hp).step k h0 hk).orth
    intro a ha a' ha'
    rw [hrank k (by omega)] at ha ha'
    rw [hrank (k + 1) (by omega), hmodes k hk, hfl p k h0 hk]
    have := this a ha a' ha'
    rw [hN] at this
    exact this
  · have S := sw p hp
    have odist : ∀ S' : TT ℝ, S'.rawShape = t.rawShape → entryDist o S' p = entryDist t S' p := by
      intro S' _
      unfold entryDist
      rw [hors]
      refine Finset.sum_congr rfl fun n hn => ?_
      rw [hoe p hp _ (validModes_rest h (unravel_valid (Finset.mem_range.1 hn)))]
    have odot : entryDot o o p = entryDot t t p := by
      unfold entryDot
      rw [hors]
      refine Finset.sum_congr rfl fun n hn => ?_
      rw [hoe p hp _ (validModes_rest h (unravel_valid (Finset.mem_range.1 hn)))]
    have hrX : ∀ k ≤ d, x.rank k = blockRank o.rank r' 0 k := by
      intro k hk
      rw [hrank k hk, blockRank]
      split_ifs with h0
      · obtain rfl : k = 0 := by omega
        rw [hr'0, ho.rank_first]
      · rfl
    have hX : ∀ k < d, ∀ n < o.N k, ∀ a < blockRank o.rank r' 0 k, ∀ b < blockRank o.rank r' 0 (k + 1),
        x.fl p k n a b = blockChain (o.fl p) (V p) (C p 0) 0 k n a b := by
      intro k hk n hn a ha b hb
      unfold blockChain
      rcases Nat.eq_zero_or_pos k with rfl | h0
      · rw [if_neg (by omega), if_pos rfl]
        rw [blockRank, if_pos le_rfl, ho.rank_first] at ha
        rw [blockRank, if_neg (by omega)] at hb
        exact hf0 p hp n hn a ha b hb
      · rw [if_neg (by omega), if_neg (by omega), hfl p k h0 hk]
    have h0r : 0 < blockRank o.rank r' 0 d := by rw [← hrX d le_rfl, hrank d le_rfl, hr'd]; omega
    have h0o : 0 < o.rank d := ho.rank_pos d (by rw [hon])
    have eX : entryDot x x p = gram o.N (blockRank o.rank r' 0) (blockRank o.rank r' 0)
        (blockChain (o.fl p) (V p) (C p 0) 0) (blockChain (o.fl p) (V p) (C p 0) 0) d 0 0 := by
      rw [← gram_congr' hrX hrX hX hX h0r h0r]
      have := gram_entry hxw (s := x) rfl rfl p
      rw [← this, show x.N = o.N by funext k; simp [TT.N, TT.modes, hors, hxrs], show x.ndims = d from hl]
    have eOX : chainDist o.N o.rank (blockRank o.rank r' 0) (o.fl p) (blockChain (o.fl p) (V p) (C p 0) 0) d =
        entryDist t x p := by
      rw [← odist x hxrs, ← chainDist_entry ho hxw (by rw [hors, hxrs]) (by rw [hon]; exact hl) p, hon]
      unfold chainDist
      rw [gram_congr' hrX hrX hX hX h0r h0r,
        gram_congr' (A' := o.fl p) (A := o.fl p) (fun _ _ => rfl) hrX (fun _ _ _ _ _ _ _ _ => rfl) hX h0o h0r]
    obtain ⟨e1, e2⟩ := S.error
    rw [eOX] at e1 e2
    refine ⟨e1, ?_, fun k h0 hk S' hS'w hS' hS'n hbk => ?_⟩
    · have e3 := gram_entry ho (s := o) rfl rfl p
      rw [hon] at e3
      rw [e2, eX, ← odot, e3]
    · have := S.best h0 hk (S'.fl p) (rS := S'.rank) (by rw [← hS'n]; exact hS'w.rank_last) hbk
      have e3 := chainDist_entry ho hS'w (by rw [hS', hors]) (by rw [hS'n, hon]) p
      rw [hon] at e3
      rw [e3, odist S' hS'] at this
      exact this

theorem roundWith_ok {qr : QRRoutine} (hqr : qr.Correct) {svd : SVDRoutine} (hsvd : svd.Correct) {t : TT ℝ} (h : t.WF) (hm : t.ModesPos)
    {bounds : List ℕ} (hbl : bounds.length = t.ndims + 1) (hbp : ∀ k ≤ t.ndims, 0 < bounds.getD k 0) :
    ∃ x, roundWith qr svd t bounds = Except.ok x ∧ x.WF ∧ x.rawShape = t.rawShape ∧ x.batch = t.batch ∧ x.ndims = t.ndims ∧
      (∀ k, 0 < k → k < t.ndims → x.rank k ≤ bounds.getD k 0) ∧ (∀ k ≤ t.ndims, x.rank k ≤ t.rank k) ∧
      (∀ p, Valid t.bpre p → ∀ k, 0 < k → k < t.ndims → x.RightOrthonormal p k) ∧
      ∃ tail : List ℕ → ℕ → ℝ, ∀ p, Valid t.bpre p →
        entryDist t x p = ∑ j ∈ Finset.range (t.ndims - 1), tail p (j + 1) ∧
        entryDist t x p = entryDot t t p - entryDot x x p ∧
        ∀ k, 0 < k → k < t.ndims → ∀ S : TT ℝ, S.WF → S.rawShape = t.rawShape → S.ndims = t.ndims → S.rank k ≤ bounds.getD k 0 →
          tail p k ≤ entryDist t S p := by
  obtain ⟨x, h1, h2, h3, h4, h5, -, h6⟩ := roundWith_spec hqr hsvd h hm hbl hbp
  exact ⟨x, h1, h2, h3, h4, h5, h6⟩

end T3f
