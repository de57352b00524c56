import Verif.Proofs.DescribedAdd

/-! # Subscripts, matrix products and batch operations return described objects -/

namespace T3f

variable {a b t : TT ℝ}

/-- Number of positions that an item which is not an integer selects on an axis of length `n`. -/
def ixCount (n : ℕ) : Ix → ℕ
  | .all => n
  | .int _ => 0
  | .slice a b c => (slicePositions n a b c).length

theorem resolveIx_axes : ∀ {s : List ℕ} {sp : List Ix} {l : List Sel}, resolveIx s sp = Except.ok l →
    (selShape l).length + (sp.filter doCollapseDim).length = s.length ∧ sp.length ≤ s.length
  | s, [], l, h => by
    rw [resolveIx] at h
    cases h
    have : ∀ s : List ℕ, (selShape (s.map fun n => Sel.many (List.range n))).length = s.length := by
      intro s
      induction s with
      | nil => rfl
      | cons a s ih => simp [selShape, ih]
    simp [this]
  | [], _ :: _, l, h => by cases h
  | n :: s, Ix.all :: sp, l, h => by
    simp only [resolveIx, bind_ok_iff] at h
    obtain ⟨l', h1, h⟩ := h
    cases h
    have := resolveIx_axes h1
    simp only [selShape, List.length_cons, List.filter_cons, doCollapseDim, Bool.false_eq_true, if_false]
    omega
  | n :: s, Ix.int i :: sp, l, h => by
    simp only [resolveIx, bind_ok_iff] at h
    obtain ⟨_, -, l', h1, h⟩ := h
    cases h
    have := resolveIx_axes h1
    simp only [selShape, List.length_cons, List.filter_cons, doCollapseDim, if_true]
    omega
  | n :: s, Ix.slice a b c :: sp, l, h => by
    simp only [resolveIx] at h
    split_ifs at h
    rw [bind_ok_iff] at h
    obtain ⟨l', h1, h⟩ := h
    cases h
    have := resolveIx_axes h1
    simp only [selShape, List.length_cons, List.filter_cons, doCollapseDim, Bool.false_eq_true, if_false]
    omega

theorem resolveIx_head {n : ℕ} {s : List ℕ} {b0 : Ix} {sp : List Ix} {l : List Sel} (hb : doCollapseDim b0 = false) (h : resolveIx (n :: s) (b0 :: sp) = Except.ok l) :
    (selShape l).getD 0 0 = ixCount n b0 := by
  cases b0 with
  | all =>
    simp only [resolveIx, bind_ok_iff] at h
    obtain ⟨l', h1, h⟩ := h
    cases h
    simp [selShape, ixCount]
  | int i => cases hb
  | slice a b c =>
    simp only [resolveIx] at h
    split_ifs at h
    rw [bind_ok_iff] at h
    obtain ⟨l', h1, h⟩ := h
    cases h
    simp [selShape, ixCount]

theorem getItem_axes {x y : Tensor ℝ} {sp : List Ix} (h : getItem x sp = Except.ok y) :
    y.shape.length + (sp.filter doCollapseDim).length = x.shape.length ∧ sp.length ≤ x.shape.length := by
  simp only [getItem, bind_ok_iff] at h
  obtain ⟨l, hl, h⟩ := h
  cases h
  exact resolveIx_axes hl

theorem getItem_head {x y : Tensor ℝ} {b0 : Ix} {sp : List Ix} {n : ℕ} (hb : doCollapseDim b0 = false) (hn : x.shape.getD 0 0 = n) (h : getItem x (b0 :: sp) = Except.ok y) :
    y.shape.getD 0 0 = ixCount n b0 := by
  simp only [getItem, bind_ok_iff] at h
  obtain ⟨l, hl, h⟩ := h
  cases h
  cases hx : x.shape with
  | nil => rw [hx] at hl; cases b0 <;> cases hl
  | cons m s =>
    rw [hx] at hl hn
    cases hn
    exact resolveIx_head hb hl

theorem batchDimGetItem_described (h : t.Described) (ix : Ix) :
    Post (fun u => u.Described ∧ u.rawShape = t.rawShape ∧ u.ndims = t.ndims ∧ (doCollapseDim ix = true → u.batch = none)) (batchDimGetItem t ix) := by
  intro u e
  simp only [batchDimGetItem, bind_ok_iff] at e
  obtain ⟨cores, hc, e⟩ := e
  obtain ⟨hl, hg⟩ := mapRange_core hc
  have hrows := h.rows
  have h0 := hg 0 h.pos
  simp only [bind_ok_iff] at h0
  obtain ⟨c, hc, h0⟩ := h0
  have hx := (h.pyGet hc).2.2
  obtain ⟨hy, hb⟩ : (cores.getD 0 default).shape.length + (if doCollapseDim ix = true then 1 else 0) = t.rawShape.length + 3 ∧ t.batch.toList.length = 1 := by
    have hbl := isBatch_len t
    by_cases hM : t.isMatrix
    · have h2 : t.rawShape.length = 2 := hM
      rw [if_pos hM] at h0
      have hy := getItem_axes h0
      rw [hx] at hy
      have hd : doCollapseDim Ix.all = false := rfl
      generalize cores.getD 0 default = y at *
      generalize y.shape.length = m at *
      generalize t.batch.toList.length = B at *
      cases hq : doCollapseDim ix <;> simp only [hq, hd, List.filter_cons, List.filter_nil, List.length_cons, List.length_nil, if_true, if_false, Bool.false_eq_true] at hy ⊢ <;> split_ifs at hbl <;> omega
    · have h2 : t.rawShape.length ≠ 2 := hM
      rw [if_neg hM] at h0
      have hy := getItem_axes h0
      rw [hx] at hy
      have hd : doCollapseDim Ix.all = false := rfl
      generalize cores.getD 0 default = y at *
      generalize y.shape.length = m at *
      generalize t.batch.toList.length = B at *
      cases hq : doCollapseDim ix <;> simp only [hq, hd, List.filter_cons, List.filter_nil, List.length_cons, List.length_nil, if_true, if_false, Bool.false_eq_true] at hy ⊢ <;> split_ifs at hbl <;> omega
  have hrow : ∀ row ∈ t.rawShape, row.length = cores.length := fun row hr => by rw [hl, h.rowLen row hr]
  have hrk : ∀ r ∈ some t.ttRanks, r.length = cores.length + 1 := fun r hr => by cases hr; rw [hl, h.ranksLen]
  by_cases hcx : doCollapseDim ix = true
  · rw [if_pos hcx] at e hy
    obtain ⟨h1, h2, h3, h4⟩ := mkTT_described h.rows hrow hrk (by omega) u e
    exact ⟨h1, h3, by rw [TT.ndims, h2, hl], fun _ => h4⟩
  · rw [if_neg hcx] at e hy
    simp only [bind_ok_iff] at e
    obtain ⟨_, -, bs, -, e⟩ := e
    obtain ⟨h1, h2, h3, h4⟩ := mkBatch_described h.rows hrow hrk (by omega) (Or.inl rfl) u e
    exact ⟨h1, h3, by rw [TT.ndims, h2, hl], fun hc => absurd hc hcx⟩

theorem squeeze_described (h : t.Described) : Post (fun u => u.Described ∧ u.rawShape = t.rawShape ∧ u.ndims = t.ndims) (squeezeBatchDim t) := by
  intro u e
  unfold squeezeBatchDim at e
  split_ifs at e
  · obtain ⟨h1, h2, h3, -⟩ := batchDimGetItem_described h _ u e
    exact ⟨h1, h2, h3⟩
  · cases e
    exact ⟨h, rfl, rfl⟩

theorem row_mem {α : Type} {l : List (List α)} {k : ℕ} {r : List α} (h : pyGet l k = Except.ok r) : r ∈ l := by
  obtain ⟨e, hk⟩ := pyGet_getD h []
  rw [e, List.getD_eq_getElem _ _ hk]
  exact List.getElem_mem _

theorem matmul_desc (ha : a.Described) (hb : b.Described) : Desc (ttTTMatmul a b) := by
  intro u e
  simp only [ttTTMatmul, bind_ok_iff] at e
  obtain ⟨_, -, _, -, _, hn, a', ha', b', hb', cores, hc, ra, hra, rb, hrb, e⟩ := e
  have hn : b.ndims = a.ndims := require_inv hn
  obtain ⟨da, -, na⟩ := squeeze_described ha a' ha'
  obtain ⟨db, -, nb⟩ := squeeze_described hb b' hb'
  obtain ⟨hl, hg⟩ := mapRange_core hc
  refine mkLike_desc (Or.inr rfl) ?_ ?_ ?_ u e
  · intro row hr
    rw [hl]
    rcases List.mem_pair.1 hr with rfl | rfl
    · rw [da.rowLen _ (row_mem hra), na]
    · rw [db.rowLen _ (row_mem hrb), nb, hn]
  · rw [List.length_zipWith, da.ranksLen, db.ranksLen, na, nb, hn, hl, min_self]
  · have h0 := hg 0 ha.pos
    simp only [matmulCore, bind_ok_iff] at h0
    obtain ⟨_, -, _, -, _, -, _, -, _, -, _, -, _, -, _, -, _, -, _, -, _, -, h0⟩ := h0
    rw [reshape_axes h0]
    simp

/-- The invariant of the loop over the cores in `TensorTrain.__getitem__`. -/
theorem ttGetItem_desc (h : t.Described) (spec : List Ix) : Desc (ttGetItem t spec) := by
  intro u e
  simp only [ttGetItem, bind_ok_iff] at e
  obtain ⟨_, -, st, hst, e⟩ := e
  have hinv := forRange_returns (fun i (st : List (Tensor ℝ) × Option (Tensor ℝ)) =>
    (∀ c ∈ st.1, c.shape.length = 3 ∨ c.shape.length = 4)) (fun k s s' _ _ hs hk => by
      simp only [ttGetItemStep, bind_ok_iff] at hk
      obtain ⟨core, hc, hk⟩ := hk
      have hx := (h.pyGet hc).2.2
      by_cases hM : t.isMatrix
      · rw [if_pos hM] at hk; cases hk
      have h1 : t.rawShape.length = 1 := by
        have : t.rawShape.length ≠ 2 := hM
        have := h.rows
        omega
      rw [if_neg hM] at hk
      simp only [bind_ok_iff] at hk
      obtain ⟨ix, -, sl, hsl, hk⟩ := hk
      by_cases hne : core.shape.length ≠ sl.shape.length
      · rw [if_pos hne] at hk
        cases h2 : s.2 with
        | none => rw [h2] at hk; cases hk; exact hs
        | some r =>
          rw [h2] at hk
          simp only [bind_ok_iff] at hk
          obtain ⟨_, -, hk⟩ := hk
          cases hk
          exact hs
      · rw [if_neg hne] at hk
        push Not at hne
        cases h2 : s.2 with
        | none =>
          rw [h2] at hk
          cases hk
          intro c hc
          rcases List.mem_append.1 hc with hc | hc
          · exact hs c hc
          · obtain rfl := List.mem_singleton.1 hc
            have := isBatch_len t
            split_ifs at this <;> omega
        | some r =>
          rw [h2] at hk
          simp only [bind_ok_iff] at hk
          obtain ⟨y, hy, hk⟩ := hk
          cases hk
          intro c hc
          rcases List.mem_append.1 hc with hc | hc
          · exact hs c hc
          · obtain rfl := List.mem_singleton.1 hc
            exact Or.inl (einsum_axes hy).1) (by simp) hst
  have key : ∀ cs : List (Tensor ℝ), (∀ c ∈ cs, c.shape.length = 3 ∨ c.shape.length = 4) → mkTT cs = Except.ok u → u.Described := by
    intro cs hcs e
    cases cs with
    | nil => simp [mkTT, cleanRawShape, coresValid, allRange, andR, eqR, pyGet] at e
    | cons c cs => exact (mkTT_omitted_described (by simp) (hcs _ (by simp)) u e).1
  cases h2 : st.2 with
  | none => rw [h2] at e; exact key _ hinv e
  | some r =>
    rw [h2] at e
    simp only [bind_ok_iff] at e
    obtain ⟨last, -, s, hs, e⟩ := e
    refine key _ (fun c hc => ?_) e
    rcases List.mem_append.1 hc with hc | hc
    · exact hinv c (List.mem_of_mem_dropLast hc)
    · obtain rfl := List.mem_singleton.1 hc
      exact Or.inl (einsum_axes hs).1

/-- The first axis of a contraction over batches. -/
theorem einsum_head {c : Char} {l out : List Char} {l2 : List (List Char)} {x y : Tensor ℝ} {ops : List (Tensor ℝ)}
    (h : einsum ((c :: l) :: l2, c :: out) (x :: ops) = Except.ok y) : y.shape.getD 0 0 = x.shape.getD 0 0 := by
  have h1 := einsum_shape h
  have h2 := (einsum_axes h).2
  simp only [List.map_cons, List.cons.injEq, List.length_cons] at h2
  rw [h1]
  cases hx : x.shape with
  | nil => rw [hx] at h2; simp at h2
  | cons n s =>
    simp [einDims, hx, lookupLabel]

theorem batchFullGetItem_desc (h : t.Described) (b0 : Ix) (spec : List Ix) : Desc (batchFullGetItem t b0 spec) := by
  intro u e
  simp only [batchFullGetItem, bind_ok_iff] at e
  obtain ⟨_, -, st, hst, e⟩ := e
  obtain ⟨N, hN⟩ : ∃ N, N = ixCount (t.batch.getD 0) b0 := ⟨_, rfl⟩
  have hinv := forRange_returns (fun i (st : List (Tensor ℝ) × Option (Tensor ℝ)) =>
    (∀ c ∈ st.1, c.shape.length = (if doCollapseDim b0 = true then 3 else 4) ∧ (doCollapseDim b0 = false → c.shape.getD 0 0 = N)) ∧
    ∀ r ∈ st.2, doCollapseDim b0 = false → r.shape.getD 0 0 = N) (fun k s s' _ _ hs hk => by
      simp only [batchFullGetItemStep, bind_ok_iff] at hk
      obtain ⟨core, hc, hk⟩ := hk
      obtain ⟨hcore, hkn, hx⟩ := h.pyGet hc
      by_cases hM : t.isMatrix
      · rw [if_pos hM] at hk; cases hk
      have h1 : t.rawShape.length = 1 := by
        have : t.rawShape.length ≠ 2 := hM
        have := h.rows
        omega
      rw [if_neg hM] at hk
      simp only [bind_ok_iff] at hk
      obtain ⟨ix, -, sl, hsl, hk⟩ := hk
      have hsx := getItem_axes hsl
      have hb1 : t.batch.toList.length = 1 := by
        have := hsx.2
        have := isBatch_len t
        simp only [List.length_cons, List.length_nil] at *
        split_ifs at this <;> omega
      obtain ⟨n, hn⟩ : ∃ n, t.batch = some n := by
        cases hq : t.batch with
        | none => rw [hq] at hb1; cases hb1
        | some n => exact ⟨n, rfl⟩
      have hsN : doCollapseDim b0 = false → sl.shape.getD 0 0 = N := fun hb => by
        rw [hN]
        refine getItem_head hb ?_ hsl
        rw [hcore, h.describes.core_shape k hkn, TT.bpre, hn]
        rfl
      rw [hx, h1, hb1] at hsx
      by_cases hix : doCollapseDim ix = true
      · rw [if_pos hix] at hk
        cases h2 : s.2 with
        | none =>
          rw [h2] at hk; cases hk
          refine ⟨hs.1, fun r hr => ?_⟩
          cases hr
          exact hsN
        | some r =>
          rw [h2] at hk
          have hr := hs.2 r h2
          by_cases hb : doCollapseDim b0 = true
          · simp only [if_pos hb, bind_ok_iff] at hk
            obtain ⟨y, hy, hk⟩ := hk
            cases hk
            exact ⟨hs.1, fun r hr hb' => by rw [hb] at hb'; cases hb'⟩
          · simp only [if_neg hb, bind_ok_iff] at hk
            obtain ⟨y, hy, hk⟩ := hk
            cases hk
            refine ⟨hs.1, fun r' hr' hb' => ?_⟩
            cases hr'
            rw [einsum_head hy]
            exact hr hb'
      · rw [if_neg hix] at hk
        rw [Bool.not_eq_true] at hix
        cases h2 : s.2 with
        | none =>
          rw [h2] at hk
          cases hk
          refine ⟨fun c hc => ?_, nofun⟩
          rcases List.mem_append.1 hc with hc | hc
          · exact hs.1 c hc
          · obtain rfl := List.mem_singleton.1 hc
            refine ⟨?_, hsN⟩
            have hd : doCollapseDim Ix.all = false := rfl
            cases hq : doCollapseDim b0 <;> simp [hq, hd, hix] at hsx ⊢ <;> omega
        | some r =>
          rw [h2] at hk
          have hr := hs.2 r h2
          by_cases hb : doCollapseDim b0 = true
          · simp only [if_pos hb, bind_ok_iff] at hk
            obtain ⟨y, hy, hk⟩ := hk
            cases hk
            refine ⟨fun c hc => ?_, nofun⟩
            rcases List.mem_append.1 hc with hc | hc
            · exact hs.1 c hc
            · obtain rfl := List.mem_singleton.1 hc
              refine ⟨?_, fun hb' => by rw [hb] at hb'; cases hb'⟩
              rw [if_pos hb]
              exact (einsum_axes hy).1
          · simp only [if_neg hb, bind_ok_iff] at hk
            obtain ⟨y, hy, hk⟩ := hk
            cases hk
            refine ⟨fun c hc => ?_, nofun⟩
            rcases List.mem_append.1 hc with hc | hc
            · exact hs.1 c hc
            · obtain rfl := List.mem_singleton.1 hc
              refine ⟨?_, fun hb' => ?_⟩
              · rw [if_neg hb]
                exact (einsum_axes hy).1
              · rw [einsum_head hy]
                exact hr hb') ⟨by simp, by simp⟩ hst
  obtain ⟨cs, hcs, e⟩ : ∃ cs : List (Tensor ℝ), (∀ c ∈ cs, c.shape.length = (if doCollapseDim b0 = true then 3 else 4) ∧
      (doCollapseDim b0 = false → c.shape.getD 0 0 = N)) ∧ (if doCollapseDim b0 then mkTT cs else mkBatch cs) = Except.ok u := by
    cases h2 : st.2 with
    | none => rw [h2] at e; exact ⟨st.1, hinv.1, e⟩
    | some r =>
      rw [h2] at e
      simp only [bind_ok_iff] at e
      obtain ⟨last, hlast, e⟩ := e
      have hlm : last ∈ st.1 := by
        unfold pyLast at hlast
        split at hlast
        · rename_i a ha
          cases hlast
          exact List.mem_of_getLast? ha
        · cases hlast
      by_cases hb : doCollapseDim b0 = true
      · simp only [if_pos hb, bind_ok_iff] at e
        obtain ⟨s, hs, _, hq, e⟩ := e
        cases hq
        refine ⟨_, fun c hc => ?_, by rw [if_pos hb]; exact e⟩
        rcases List.mem_append.1 hc with hc | hc
        · exact hinv.1 c (List.mem_of_mem_dropLast hc)
        · obtain rfl := List.mem_singleton.1 hc
          refine ⟨?_, fun hb' => by rw [hb] at hb'; cases hb'⟩
          rw [if_pos hb]
          exact (einsum_axes hs).1
      · simp only [if_neg hb, bind_ok_iff] at e
        obtain ⟨s, hs, _, hq, e⟩ := e
        cases hq
        refine ⟨_, fun c hc => ?_, by rw [if_neg hb]; exact e⟩
        rcases List.mem_append.1 hc with hc | hc
        · exact hinv.1 c (List.mem_of_mem_dropLast hc)
        · obtain rfl := List.mem_singleton.1 hc
          refine ⟨?_, fun hb' => ?_⟩
          · rw [if_neg hb]
            exact (einsum_axes hs).1
          · rw [einsum_head hs]
            exact (hinv.1 last hlm).2 hb'
  by_cases hb : doCollapseDim b0 = true
  · rw [if_pos hb] at e
    cases cs with
    | nil => simp [mkTT, cleanRawShape, coresValid, allRange, andR, eqR, pyGet] at e
    | cons c cs =>
      refine (mkTT_omitted_described (by simp) (Or.inl ?_) u e).1
      have := (hcs c (by simp)).1
      rwa [if_pos hb] at this
  · rw [if_neg hb] at e
    cases cs with
    | nil => simp [mkBatch, cleanRawShape, coresValid, allRange, andR, eqR, pyGet] at e
    | cons c cs =>
      refine (mkBatch_omitted_described (n := N) (by simp) (Or.inl ?_) (Or.inr ⟨rfl, fun k hk => ?_⟩) u e).1
      · have := (hcs c (by simp)).1
        rwa [if_neg hb] at this
      · rw [List.getD_eq_getElem _ _ hk]
        exact (hcs _ (List.getElem_mem _)).2 (by simpa using hb)

theorem batchGetItem_desc (h : t.Described) (b0 : Ix) (spec : List Ix) : Desc (batchGetItem t b0 spec) := by
  intro u e
  unfold batchGetItem at e
  split_ifs at e
  · exact (batchDimGetItem_described h b0 u e).1
  · exact batchFullGetItem_desc h b0 spec u e

end T3f
