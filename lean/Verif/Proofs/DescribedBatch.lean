import Verif.Proofs.DescribedItem

/-! # Batch operations, Kronecker functions and initializers return described objects -/

namespace T3f

variable {K : Type} {a b t : TT ℝ}

theorem concatBatch_desc {ts : List (TT ℝ)} (h : ∀ t ∈ ts, t.Described) : Desc (concatAlongBatchDim ts) := by
  intro u e
  simp only [concatAlongBatchDim, bind_ok_iff] at e
  obtain ⟨first, hf, _, hbat, _, -, cores, hc, e⟩ := e
  obtain ⟨hfe, hlen⟩ := pyGet_getD hf first
  have hfd : first.Described := by
    apply h
    rw [hfe, List.getD_eq_getElem _ _ hlen]
    exact List.getElem_mem _
  have hfb : first.batch.toList.length = 1 := by
    have h0 := (mapRange_inv hbat).2 0 hlen
    rw [hf, R.ok_bind] at h0
    have : first.isBatch = true := require_inv h0
    rw [isBatch_len, if_pos this]
  obtain ⟨hl, hg⟩ := mapRange_core hc
  refine mkBatch_desc hfd.rows (fun row hr => by rw [hl, hfd.rowLen row hr]) (fun r hr => by cases hr; rw [hl, hfd.ranksLen]) ?_ u e
  have h0 := hg 0 hfd.pos
  simp only [bind_ok_iff] at h0
  obtain ⟨cs, hcs, h0⟩ := h0
  obtain ⟨hcl, hcg⟩ := mapRange_core hcs
  have hc0 := hcg 0 hlen
  rw [hf, R.ok_bind] at hc0
  rw [concat_axes h0 (cs.getD 0 default) (by rw [List.getD_eq_getElem _ _ (by omega)]; exact List.getElem_mem _), (hfd.pyGet hc0).2.2, hfb]
  omega

/-- All cores that the constructor of batches accepts have the same number of axes. -/
theorem mkBatch_same_axes [CommRing K] {cores : List (Tensor K)} {shape : ShapeArg} {ranks : Option (List ℕ)} {bs : Option ℕ} {u : TT K}
    (h : mkBatch cores shape ranks bs = Except.ok u) (i : ℕ) (hi : i < cores.length) :
    (cores.getD i default).shape.length = (cores.getD 0 default).shape.length := by
  simp only [mkBatch, bind_ok_iff] at h
  obtain ⟨sh, -, v, hv, h⟩ := h
  cases v with
  | false => cases h
  | true =>
    rw [coresValid, andR_true_iff, allRange_true_iff] at hv
    have h0 := hv.1 i (Nat.zero_le _) (by simpa using hi)
    simp only [coreCheck, bind_ok_iff] at h0
    obtain ⟨cur, hc, first, hf, h0⟩ := h0
    rw [andR_true_iff] at h0
    have h1 := Except.ok.inj h0.1
    have key : ∀ j (s : List ℕ), j < cores.length → pyGet (cores.map (·.shape)) j = Except.ok s →
        s = (cores.getD j default).shape := by
      intro j s hj e
      simp only [pyGet, List.getElem?_map, List.getElem?_eq_getElem hj, Option.map_some] at e
      cases e
      rw [List.getD_eq_getElem _ _ hj]
    rw [← key i cur hi hc, ← key 0 first (by omega) hf]
    simpa using h1

theorem expandWeights_axes {e : ℕ} {w y : Tensor K} (h : expandWeights e w = Except.ok y) : y.shape.length = w.shape.length + e ∧ 0 < w.shape.length := by
  unfold expandWeights at h
  split at h
  · cases h
  · rename_i n rest hs
    cases h
    rw [hs]
    simp
    omega

theorem multiplyBatch_described (h : t.Described) (w : Tensor ℝ) (hw : t.ndims = 1 → w.shape.length = 1) :
    Post (fun u => u.Described ∧ u.rawShape = t.rawShape ∧ u.ndims = t.ndims ∧ u.batch = t.batch) (multiplyAlongBatchDim t w) := by
  intro u e
  simp only [multiplyAlongBatchDim, bind_ok_iff] at e
  obtain ⟨w', hw', c0, hc0, c0', hb, e⟩ := e
  obtain ⟨-, hpos, hx⟩ := h.pyGet hc0
  have hpos' : 0 < t.cores.length := hpos
  cases hbt : t.batch with
  | none => rw [hbt] at e; cases e
  | some bs =>
    rw [hbt] at e
    have hy := binop_axes hb
    obtain ⟨hwl, hw0⟩ := expandWeights_axes hw'
    rw [hx, hbt, hwl] at hy
    have hw1 : w.shape.length = 1 := by
      by_cases hd : t.ndims = 1
      · exact hw hd
      · have hd1 : 1 < t.cores.length := by unfold TT.ndims at hd; omega
        have hsame := mkBatch_same_axes e 1 (by simpa using hd1)
        have h1 : ((t.cores.set 0 c0').getD 1 default).shape.length = t.rawShape.length + 3 := by
          rw [List.getD_eq_getElem _ _ (by simpa using hd1), List.getElem_set_ne (by omega)]
          have := h.describes.core_shape 1 hd1
          rw [TT.core, List.getD_eq_getElem _ _ hd1] at this
          rw [this, TT.bpre, hbt]
          simp [TT.modes]
        rw [h1, getD_set_self _ _ _ _ hpos', hy] at hsame
        have := h.rows
        split_ifs at hsame with hM
        · have h2 : t.rawShape.length = 2 := hM
          simp [h2] at hsame
          omega
        · have h2 : t.rawShape.length ≠ 2 := hM
          rw [show t.rawShape.length = 1 by omega] at hsame
          simp at hsame
          omega
    rw [hw1] at hy
    obtain ⟨h1, h2, h3, h4⟩ := mkBatch_described h.rows (by simpa using! h.rowLen) (fun r hr => by cases hr; simpa using! h.ranksLen) (by
      rw [getD_set_self _ _ _ _ hpos', hy]
      have := h.rows
      split_ifs with hM
      · have h2 : t.rawShape.length = 2 := hM
        simp [h2]
      · have h2 : t.rawShape.length ≠ 2 := hM
        rw [show t.rawShape.length = 1 by omega]
        simp) (Or.inl rfl) u e
    exact ⟨h1, h3, by rw [TT.ndims, h2]; simp [TT.ndims], h4⟩

theorem kronMap_desc {f : Tensor ℝ → R (Tensor ℝ)} (hf : ∀ x y, f x = Except.ok y → y.shape = x.shape) (h : t.Described) : Desc (kronMap f t) := by
  intro u e
  simp only [kronMap, bind_ok_iff] at e
  obtain ⟨_, hk, cores, hc, e⟩ := e
  have hM : t.rawShape.length = 2 := by
    simp only [kronCheck, bind_ok_iff, isKron] at hk
    obtain ⟨k, hk, _, hq, -⟩ := hk
    have hq := require_inv hq
    split_ifs at hk with hM
    · exact hM
    · cases hk; cases hq
  obtain ⟨hl, hg⟩ := mapRange_core hc
  have hrow : ∀ row ∈ t.rawShape, row.length = cores.length := fun row hr => by rw [hl, h.rowLen row hr]
  have hrk : ∀ r ∈ some t.ttRanks, r.length = cores.length + 1 := fun r hr => by cases hr; rw [hl, h.ranksLen]
  cases hbt : t.batch with
  | none =>
    have hB : ¬ t.isBatch = true := by simp [TT.isBatch, hbt]
    rw [if_neg hB] at e
    refine mkTT_desc h.rows hrow hrk ?_ u e
    have h0 := hg 0 h.pos
    simp only [if_neg hB, bind_ok_iff, kronCore] at h0
    obtain ⟨c, ⟨c', hc', hc⟩, x, hx, y, hy, h0⟩ := h0
    rw [expandDims_axes h0, expandDims_axes hy, hf _ _ hx, hM]
    have := (getItem_axes hc).1
    rw [(h.pyGet hc').2.2, hbt, hM] at this
    rw [show (List.filter doCollapseDim [Ix.int 0, Ix.all, Ix.all, Ix.int 0]).length = 2 from rfl] at this
    simp only [Option.toList_none, List.length_nil] at this
    omega
  | some n =>
    have hB : t.isBatch = true := by simp [TT.isBatch, hbt]
    rw [if_pos hB] at e
    have key : ∀ k < t.ndims, (cores.getD k default).shape.length = 5 ∧ (cores.getD k default).shape.getD 0 0 = n := by
      intro k hk
      have h0 := hg k hk
      simp only [if_pos hB, bind_ok_iff, kronCore] at h0
      obtain ⟨c, ⟨c', hc', hc⟩, x, hx, y, hy, h0⟩ := h0
      have hc3 := (getItem_axes hc).1
      rw [(h.pyGet hc').2.2, hbt, hM] at hc3
      rw [show (List.filter doCollapseDim [Ix.all, Ix.int 0, Ix.all, Ix.all, Ix.int 0]).length = 2 from rfl] at hc3
      simp only [Option.toList_some, List.length_cons, List.length_nil] at hc3
      have hch : c.shape.getD 0 0 = n := by
        refine getItem_head (n := n) rfl ?_ hc
        obtain ⟨rfl, hk', -⟩ := h.pyGet hc'
        rw [h.describes.core_shape k hk', TT.bpre, hbt]
        rfl
      refine ⟨by rw [expandDims_axes h0, expandDims_axes hy, hf _ _ hx]; omega, ?_⟩
      have hs := hf _ _ hx
      have hcs : c.shape.length = 3 := by omega
      match hq : c.shape, hcs with
      | [p, q, r], _ =>
        rw [hq] at hs hch
        simp only [expandDims, hs, List.length_cons, List.length_nil] at hy
        rw [if_pos (by omega)] at hy
        cases hy
        simp only [expandDims] at h0
        rw [if_pos le_rfl] at h0
        have h0 := Except.ok.inj h0
        rw [← h0]
        exact hch
    exact (mkBatch_described h.rows hrow hrk (by rw [(key 0 h.pos).1, hM]) (Or.inr ⟨rfl, fun k hk => (key k (by omega)).2⟩) u e).1

theorem squareShape_inv {s pre : List ℕ} {n : ℕ} (h : squareShape s = Except.ok (pre, n)) : s = pre ++ [n, n] := by
  unfold squareShape at h
  split at h
  · split_ifs at h with hn
    cases h; subst hn; rfl
  · split_ifs at h with hn
    cases h; subst hn; rfl
  · cases h

theorem kronInv_desc (h : t.Described) : Desc (kronInv t) := kronMap_desc (fun x y e => by
  simp only [linalgInv, bind_ok_iff] at e
  obtain ⟨⟨pre, n⟩, hs, e⟩ := e
  dsimp only at e
  split_ifs at e
  cases e
  rw [squareShape_inv hs]
  rfl) h

theorem kronCholesky_desc (h : t.Described) : Desc (kronCholesky t) := kronMap_desc (fun x y e => by
  simp only [linalgCholesky, bind_ok_iff] at e
  obtain ⟨⟨pre, n⟩, hs, e⟩ := e
  dsimp only at e
  split_ifs at e
  cases e
  rw [squareShape_inv hs]
  rfl) h

theorem renormalize_desc (h : t.Described) (eps : ℝ) : Desc (renormalize t eps) := by
  intro u e
  unfold renormalize at e
  have hrows := h.rows
  cases hbt : t.batch with
  | none =>
    rw [if_neg (by simp [TT.isBatch, hbt])] at e
    simp only [renormalizeTT, bind_ok_iff] at e
    obtain ⟨cores, hc, e⟩ := e
    obtain ⟨hl, hg⟩ := mapRange_core hc
    refine (mkTT_omitted_described (by simp) ?_ u e).1
    have h0 := hg 0 h.pos
    simp only [bind_ok_iff] at h0
    obtain ⟨c, hc, _, -, h0⟩ := h0
    have hx := (h.pyGet hc).2.2
    rw [hbt] at hx
    have h0 := Except.ok.inj h0
    rw [← h0]
    change c.shape.length = 3 ∨ c.shape.length = 4
    rw [hx]
    simp only [Option.toList_none, List.length_nil]
    omega
  | some n =>
    rw [if_pos (by simp [TT.isBatch, hbt])] at e
    simp only [renormalizeBatch, bind_ok_iff, TT.lazyBatchSize, hbt] at e
    obtain ⟨bs, hbs, c0, hc0, norms, hn, logs, hlogs, cores, hc, e⟩ := e
    cases hbs
    have hm : ∀ k, (t.modes k).length = t.rawShape.length := fun k => by simp [TT.modes]
    have hcs : ∀ k < t.ndims, (t.core k).shape = n :: t.rank k :: (t.modes k ++ [t.rank (k + 1)]) := fun k hk => by
      rw [h.describes.core_shape k hk, TT.bpre, hbt]
      rfl
    obtain ⟨one, hone⟩ : ∃ one, one = n :: List.replicate (t.rawShape.length + 2) 1 := ⟨_, rfl⟩
    obtain ⟨hnl, hng⟩ := mapRange_core hn
    have hns : ∀ k < t.ndims, (norms.getD k default).shape = one := by
      intro k hk
      have h0 := hng k hk
      simp only [bind_ok_iff] at h0
      obtain ⟨c, hc, q, hq, h0⟩ := h0
      obtain ⟨rfl, -, hx⟩ := h.pyGet hc
      have h0 := Except.ok.inj h0
      rw [← h0]
      change q.shape = _
      simp only [reduceSumKeepFirst, Tensor.map, hcs k hk] at hq
      cases hq
      rw [hone, ← hm k]
      rw [show (fun _ : ℕ => 1) = Function.const ℕ 1 from rfl, List.map_const]
      simp
    have hse : ∀ l : List ℕ, bshape l l = some l := by
      intro l
      induction l with
      | nil => rfl
      | cons a l ih => simp [bshape, ih]
    have hso : ∀ l : List ℕ, bshape (l ++ [n]) (List.replicate l.length 1 ++ [n]) = some (l ++ [n]) := by
      intro l
      induction l with
      | nil => exact hse [n]
      | cons a l ih =>
        rw [List.length_cons, List.replicate_succ, List.cons_append, List.cons_append, bshape, ih]
        by_cases ha : a = 1 <;> simp [ha]
    have hbb : ∀ (f : ℝ → ℝ → ℝ) (x y z : Tensor ℝ), x.shape = one → y.shape = one → binop f x y = Except.ok z → z.shape = one := by
      intro f x y z hx hy hz
      simp only [binop, hx, hy, hse] at hz
      cases hz
      simp
    obtain ⟨rfl, -, hx0⟩ := h.pyGet hc0
    rw [hbt] at hx0
    have hls : logs.shape = one := by
      refine forRange_returns (P := fun _ s => s.shape = one) (fun k s s' _ hk hs he => ?_) ?_ hlogs
      · simp only [bind_ok_iff] at he
        obtain ⟨m, hm, he⟩ := he
        obtain ⟨rfl, -⟩ := pyGet_getD hm default
        exact hbb _ _ _ _ hs (by simpa [Tensor.map] using! hns k (by omega)) he
      · simp only [zeros, hone, hx0, Option.toList_some, List.length_cons, List.length_nil]
        congr 2
        omega
    obtain ⟨hl, hg⟩ := mapRange_core hc
    have key : ∀ k < t.ndims, (cores.getD k default).shape = (t.core k).shape := by
      intro k hk
      have h0 := hg k hk
      simp only [bind_ok_iff] at h0
      obtain ⟨c, hc, m, hm', f, hf, h0⟩ := h0
      obtain ⟨rfl, -, hx⟩ := h.pyGet hc
      obtain ⟨rfl, -⟩ := pyGet_getD hm' default
      have hfs := hbb _ _ _ _ (by simpa [Tensor.map] using! hls) (hns k hk) hf
      have hs := hcs k hk
      have hrev : f.shape.reverse = List.replicate (t.rank k :: (t.modes k ++ [t.rank (k + 1)])).reverse.length 1 ++ [n] := by
        rw [hfs, hone]
        simp [hm]
      simp only [binop, hs, hrev, List.reverse_cons] at h0
      have := hso (t.rank k :: (t.modes k ++ [t.rank (k + 1)])).reverse
      simp only [List.reverse_cons] at this
      rw [this] at h0
      have h0 := Except.ok.inj h0
      rw [← h0]
      simp [hs]
    refine (mkBatch_omitted_described (n := n) (by simp) ?_ (Or.inr ⟨rfl, fun k hk => ?_⟩) u e).1
    · rw [key 0 h.pos, hx0]
      simp only [Option.toList_some, List.length_cons, List.length_nil]
      omega
    · rw [key k (by omega), hcs k (by omega)]
      rfl

end T3f
