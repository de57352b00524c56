import Verif.Proofs.DescribedOps

/-! # Sums, products and functions of single objects return described objects -/

namespace T3f

variable {a b t : TT ℝ}

theorem mkTT_desc {cores : List (Tensor ℝ)} {rows : List (List ℕ)} {rk : Option (List ℕ)} (hr : rows.length = 1 ∨ rows.length = 2)
    (hrow : ∀ row ∈ rows, row.length = cores.length) (hrk : ∀ r ∈ rk, r.length = cores.length + 1)
    (h0 : (cores.getD 0 default).shape.length = rows.length + 2) : Desc (mkTT cores (.shapes rows) rk) :=
  fun t e => (mkTT_described hr hrow hrk h0 t e).1

theorem mkBatch_desc {cores : List (Tensor ℝ)} {rows : List (List ℕ)} {rk : Option (List ℕ)} {n : ℕ} (hr : rows.length = 1 ∨ rows.length = 2)
    (hrow : ∀ row ∈ rows, row.length = cores.length) (hrk : ∀ r ∈ rk, r.length = cores.length + 1)
    (h0 : (cores.getD 0 default).shape.length = rows.length + 3) : Desc (mkBatch cores (.shapes rows) rk (some n)) :=
  fun t e => (mkBatch_described hr hrow hrk h0 (Or.inl rfl) t e).1

/-- The first core of a list computed core by core. -/
theorem mapRange_core {n : ℕ} {f : ℕ → R (Tensor ℝ)} {cores : List (Tensor ℝ)} (h : mapRange n f = Except.ok cores) :
    cores.length = n ∧ ∀ k < n, f k = Except.ok (cores.getD k default) := mapRange_inv h

theorem isBatch_len (t : TT ℝ) : t.batch.toList.length = if t.isBatch then 1 else 0 := by
  unfold TT.isBatch
  cases t.batch <;> rfl

theorem expand_described (h : t.Described) :
    Post (fun u => u.Described ∧ u.rawShape = t.rawShape ∧ u.batch = some (t.batch.getD 1) ∧ u.ndims = t.ndims) (expandBatchDim t) := by
  intro u e
  unfold expandBatchDim at e
  cases hb : t.batch with
  | some n =>
    rw [hb] at e
    cases e
    exact ⟨h, rfl, hb, rfl⟩
  | none =>
    rw [hb] at e
    simp only [bind_ok_iff] at e
    obtain ⟨cores, hc, e⟩ := e
    obtain ⟨hl, hg⟩ := mapRange_core hc
    have h0 := hg 0 h.pos
    simp only [bind_ok_iff] at h0
    obtain ⟨c, hc, h0⟩ := h0
    obtain ⟨-, -, hx⟩ := h.pyGet hc
    have hx' := expandDims_axes h0
    rw [hb] at hx
    obtain ⟨h1, h2, h3, h4⟩ := mkBatch_described h.rows (fun row hr => by rw [hl, h.rowLen row hr]) (fun r hr => by cases hr; rw [hl, h.ranksLen])
      (by rw [hx', hx]; simp only [Option.toList_none, List.length_nil]; omega) (Or.inl rfl) u e
    exact ⟨h1, h3, h4, by rw [TT.ndims, h2, hl]⟩

theorem addCore_axes {axL axR d : ℕ} {us ls : R (List ℕ)} {x y z : Tensor ℝ} (h : addCore axL axR d 0 us ls x y = Except.ok z) :
    z.shape.length = x.shape.length := by
  rw [addCore, if_pos rfl] at h
  exact (concat_pair_axes h).1

theorem addRanks_len {a b : TT ℝ} (h : a.Described) {rk : List ℕ} (e : addRanks a b = Except.ok rk) : rk.length = a.ndims + 1 := by
  simp only [addRanks, bind_ok_iff] at e
  obtain ⟨inner, hi, e⟩ := e
  cases e
  have := (mapRange_inv hi).1
  have := h.pos
  simp only [List.length_append, List.length_cons, List.length_nil]
  omega

theorem add_desc (ha : a.Described) (b : TT ℝ) : Desc (add a b) := by
  intro t e
  simp only [add, bind_ok_iff] at e
  obtain ⟨_, -, _, -, _, -, e⟩ := e
  by_cases hB : (a.isBatch || b.isBatch) = true
  · rw [if_pos hB] at e
    obtain ⟨cs, bs, hcs, e⟩ : ∃ (cs : List (Tensor ℝ)) (bs : ℕ), (cs.length = a.ndims ∧ (cs.getD 0 default).shape.length = a.rawShape.length + 3) ∧
        (do let ranks ← addRanks a b
            mkBatch cs (.shapes a.rawShape) (some ranks) (some bs)) = Except.ok t := by
      by_cases hM : a.isMatrix
      · simp only [if_pos hM] at e
        rw [bind_ok_iff] at e
        obtain ⟨⟨cs, bs⟩, hcs, e⟩ := e
        refine ⟨cs, bs, ?_, e⟩
        simp only [addBatchMatrixCores, bind_ok_iff] at hcs
        obtain ⟨bs', -, a', ha', b', -, cores, hcs, hq⟩ := hcs
        cases hq
        obtain ⟨hD, hR, hBt, hN⟩ := expand_described ha a' ha'
        simp only [addBatchMatrixBody, bind_ok_iff] at hcs
        obtain ⟨_, -, _, -, hcs⟩ := hcs
        obtain ⟨hl, hg⟩ := mapRange_core hcs
        refine ⟨hl, ?_⟩
        have h0 := hg 0 ha.pos
        generalize cs.getD 0 default = c at h0
        simp only [bind_ok_iff] at h0
        obtain ⟨ac, hac, h0⟩ := h0
        have hx := (hD.pyGet hac).2.2
        rw [hBt, hR] at hx
        rw [Option.toList_some, List.length_singleton] at hx
        rw [show a.rawShape.length + 3 = ac.shape.length by omega]
        split_ifs at h0 <;> simp only [bind_ok_iff, pure_bind] at h0
        · obtain ⟨x, hx, _, -, _, -, h0⟩ := h0
          rw [addCore_axes h0, (tile_axes hx).1]
        · obtain ⟨x, hx, _, -, h0⟩ := h0
          rw [addCore_axes h0, (tile_axes hx).1]
        · obtain ⟨_, -, _, -, h0⟩ := h0
          rw [addCore_axes h0]
        · obtain ⟨_, -, h0⟩ := h0
          rw [addCore_axes h0]
      · simp only [if_neg hM] at e
        rw [bind_ok_iff] at e
        obtain ⟨⟨cs, bs⟩, hcs, e⟩ := e
        refine ⟨cs, bs, ?_, e⟩
        simp only [addBatchTensorCores, bind_ok_iff] at hcs
        obtain ⟨bs', -, a', ha', b', -, cores, hcs, hq⟩ := hcs
        cases hq
        obtain ⟨hD, hR, hBt, hN⟩ := expand_described ha a' ha'
        simp only [addBatchTensorBody, bind_ok_iff] at hcs
        obtain ⟨_, -, hcs⟩ := hcs
        obtain ⟨hl, hg⟩ := mapRange_core hcs
        refine ⟨hl, ?_⟩
        have h0 := hg 0 ha.pos
        generalize cs.getD 0 default = c at h0
        simp only [bind_ok_iff] at h0
        obtain ⟨ac, hac, h0⟩ := h0
        have hx := (hD.pyGet hac).2.2
        rw [hBt, hR] at hx
        rw [Option.toList_some, List.length_singleton] at hx
        rw [show a.rawShape.length + 3 = ac.shape.length by omega]
        split_ifs at h0 <;> simp only [bind_ok_iff, pure_bind] at h0
        · obtain ⟨x, hx, _, -, _, -, h0⟩ := h0
          rw [addCore_axes h0, (tile_axes hx).1]
        · obtain ⟨x, hx, _, -, h0⟩ := h0
          rw [addCore_axes h0, (tile_axes hx).1]
        · obtain ⟨_, -, _, -, h0⟩ := h0
          rw [addCore_axes h0]
        · obtain ⟨_, -, h0⟩ := h0
          rw [addCore_axes h0]
    rw [bind_ok_iff] at e
    obtain ⟨rk, hrk, e⟩ := e
    exact mkBatch_desc ha.rows (fun row hr => by rw [hcs.1, ha.rowLen row hr]) (fun r hr => by cases hr; rw [hcs.1, addRanks_len ha hrk]) hcs.2 t e
  · rw [if_neg hB] at e
    have hab : a.batch = none := by
      unfold TT.isBatch at hB
      cases h : a.batch with
      | none => rfl
      | some n => rw [h] at hB; simp at hB
    obtain ⟨cs, hcs, e⟩ : ∃ (cs : List (Tensor ℝ)), (cs.length = a.ndims ∧ (cs.getD 0 default).shape.length = a.rawShape.length + 2) ∧
        (do let ranks ← addRanks a b
            mkTT cs (.shapes a.rawShape) (some ranks)) = Except.ok t := by
      by_cases hM : a.isMatrix
      · simp only [if_pos hM] at e
        rw [bind_ok_iff] at e
        obtain ⟨cs, hcs, e⟩ := e
        refine ⟨cs, ?_, e⟩
        simp only [addMatrixCores, bind_ok_iff] at hcs
        obtain ⟨_, -, _, -, hcs⟩ := hcs
        obtain ⟨hl, hg⟩ := mapRange_core hcs
        refine ⟨hl, ?_⟩
        have h0 := hg 0 ha.pos
        simp only [bind_ok_iff] at h0
        obtain ⟨ac, hac, _, -, h0⟩ := h0
        rw [addCore_axes h0, (ha.pyGet hac).2.2, hab]
        simp
      · simp only [if_neg hM] at e
        rw [bind_ok_iff] at e
        obtain ⟨cs, hcs, e⟩ := e
        refine ⟨cs, ?_, e⟩
        simp only [addTensorCores, bind_ok_iff] at hcs
        obtain ⟨_, -, hcs⟩ := hcs
        obtain ⟨hl, hg⟩ := mapRange_core hcs
        refine ⟨hl, ?_⟩
        have h0 := hg 0 ha.pos
        simp only [bind_ok_iff] at h0
        obtain ⟨ac, hac, _, -, h0⟩ := h0
        rw [addCore_axes h0, (ha.pyGet hac).2.2, hab]
        simp
    rw [bind_ok_iff] at e
    obtain ⟨rk, hrk, e⟩ := e
    exact mkTT_desc ha.rows (fun row hr => by rw [hcs.1, ha.rowLen row hr]) (fun r hr => by cases hr; rw [hcs.1, addRanks_len ha hrk]) hcs.2 t e

theorem sub_desc (ha : a.Described) (b : TT ℝ) : Desc (sub a b) := by
  intro t e
  simp only [sub, bind_ok_iff] at e
  obtain ⟨c, hc, e⟩ := e
  exact add_desc ha c t e

theorem ttTranspose_desc (h : t.Described) : Desc (ttTranspose t) := by
  intro u e
  simp only [ttTranspose, bind_ok_iff] at e
  obtain ⟨_, hM, cores, hc, r0, h0, r1, h1, e⟩ := e
  have hM : t.rawShape.length = 2 := require_inv hM
  obtain ⟨hl, hg⟩ := mapRange_core hc
  obtain ⟨e0, l0⟩ := pyGet_getD h0 []
  obtain ⟨e1, l1⟩ := pyGet_getD h1 []
  have hr0 : r0 ∈ t.rawShape := by rw [e0, List.getD_eq_getElem _ _ l0]; exact List.getElem_mem _
  have hr1 : r1 ∈ t.rawShape := by rw [e1, List.getD_eq_getElem _ _ l1]; exact List.getElem_mem _
  refine mkLike_desc (Or.inr rfl) ?_ (by rw [hl, h.ranksLen]) ?_ u e
  · intro row hr
    rw [hl]
    rcases List.mem_pair.1 hr with rfl | rfl
    · exact h.rowLen _ hr1
    · exact h.rowLen _ hr0
  · have h0 := hg 0 h.pos
    simp only [bind_ok_iff] at h0
    obtain ⟨c, hc, h0⟩ := h0
    have hx := (h.pyGet hc).2.2
    split_ifs at h0 <;> rw [(transpose_axes h0).1, hx, hM] <;> rfl

end T3f
