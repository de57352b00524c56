import Verif.Proofs.DescribedApprox

/-! # The Riemannian functions return described objects -/

namespace T3f

variable (qr : QRRoutine)

theorem mkTangent_desc {out : Option ℕ} {cores : List (Tensor ℝ)} {rows : List (List ℕ)} (hr : rows.length = 1 ∨ rows.length = 2)
    (hrow : ∀ row ∈ rows, row.length = cores.length) (h0 : (cores.getD 0 default).shape.length = out.toList.length + rows.length + 2) :
    Desc (mkTangent out cores rows) := by
  cases out with
  | none => exact mkTT_desc hr hrow (by simp) (by rw [h0]; simp)
  | some n => exact mkBatch_desc hr hrow (by simp) (by rw [h0, Option.toList_some, List.length_singleton]; omega)

theorem modeLabels_len {t : TT ℝ} (h : t.Described) : (modeLabels t).length = t.rawShape.length := by
  have := h.rows
  unfold modeLabels
  split_ifs with hM
  · exact (show t.rawShape.length = 2 from hM).symm
  · have h2 : t.rawShape.length ≠ 2 := hM
    change 1 = _
    omega

theorem projectBlock_axes {ax : List Char} {keep : Bool} {lhs rhs : List (Tensor ℝ)} {d k : ℕ} {wc lc y : Tensor ℝ}
    (h : projectBlock ax keep lhs rhs d k wc lc = Except.ok y) : y.shape.length = (if keep then 1 else 0) + ax.length + 2 := by
  unfold projectBlock at h
  dsimp only at h
  split_ifs at h with h1 h2 h2 <;> simp only [bind_ok_iff] at h
  · obtain ⟨_, -, _, -, h⟩ := h
    rw [(einsum_axes h).1]; simp [h2]; omega
  · obtain ⟨_, -, _, -, h⟩ := h
    rw [(einsum_axes h).1]; simp [h2]
  · obtain ⟨_, -, h⟩ := h
    rw [(einsum_axes h).1]; simp [h2]; omega
  · obtain ⟨_, -, h⟩ := h
    rw [(einsum_axes h).1]; simp [h2]

theorem tangentCore_axes {axL axR d : ℕ} {zs : R (List ℕ)} {lc rc p y : Tensor ℝ} (h : tangentCore axL axR d 0 zs lc rc p = Except.ok y) :
    y.shape.length = p.shape.length ∧ y.shape.length = lc.shape.length := by
  rw [tangentCore, if_pos rfl] at h
  exact concat_pair_axes h

theorem project_desc (what : TT ℝ) {whr : TT ℝ} (h : whr.Described) : Desc (project qr what whr) := by
  intro u e
  simp only [project, bind_ok_iff] at e
  obtain ⟨_, -, ⟨l, r⟩, -, w, -, n, -, rhs, -, lhs, -, cores, hc, e⟩ := e
  obtain ⟨hl, hg⟩ := mapRange_core hc
  refine mkTangent_desc h.rows (fun row hr => by rw [hl, h.rowLen row hr]) ?_ u e
  have h0 := hg 0 h.pos
  simp only [bind_ok_iff] at h0
  obtain ⟨_, -, _, -, _, -, p, hp, _, -, _, -, h0⟩ := h0
  rw [(tangentCore_axes h0).1, projectBlock_axes hp, modeLabels_len h, isBatch_len]

theorem projectSum_desc (what : TT ℝ) {whr : TT ℝ} (h : whr.Described) (ws : Option (Tensor ℝ)) : Desc (projectSum qr what whr ws) := by
  intro u e
  simp only [projectSum, bind_ok_iff] at e
  obtain ⟨w, -, _, -, ⟨l, r⟩, -, n, -, rhs, -, lhs, -, cores, hc, e⟩ := e
  obtain ⟨hl, hg⟩ := mapRange_core hc
  refine mkTangent_desc h.rows (fun row hr => by rw [hl, h.rowLen row hr]) ?_ u e
  have h0 := hg 0 h.pos
  simp only [bind_ok_iff] at h0
  obtain ⟨_, -, _, -, _, -, p, hp, _, -, _, -, h0⟩ := h0
  rw [(tangentCore_axes h0).1]
  cases ws with
  | none =>
    rw [projectBlock_axes hp, modeLabels_len h]
    rfl
  | some w =>
    simp only [projectSumBlock, bind_ok_iff] at hp
    obtain ⟨_, -, hp⟩ := hp
    rw [(einsum_axes hp).1]
    cases sumOutBatch (some w) <;> simp [bLabel, modeLabels_len h]
    omega

theorem projectMatmul_desc {what whr : TT ℝ} (hw : what.Described) (h : whr.Described) (A : TT ℝ) : Desc (projectMatmul qr what whr A) := by
  intro u e
  simp only [projectMatmul, bind_ok_iff] at e
  obtain ⟨_, hchk, ⟨l, r⟩, -, n, hn, w, hwe, rhs, -, lhs, -, cores, hc, e⟩ := e
  obtain ⟨hl, hg⟩ := mapRange_core hc
  simp only [projectChecks, bind_ok_iff] at hchk
  obtain ⟨_, -, hchk⟩ := hchk
  have hrows : whr.rawShape = what.rawShape := require_inv hchk
  obtain ⟨hwd, hwr, hwb, hwn⟩ := expand_described hw w hwe
  have hb : what.batch.toList.length = 1 := by
    unfold TT.lazyBatchSize at hn
    cases hb : what.batch with
    | none => rw [hb] at hn; cases hn
    | some m => rfl
  refine mkTangent_desc h.rows (fun row hr => by rw [hl, h.rowLen row hr]) ?_ u e
  have h0 := hg 0 h.pos
  simp only [bind_ok_iff] at h0
  obtain ⟨wc, hwc, _, -, _, -, _, -, p, hp, _, -, _, -, h0⟩ := h0
  have hx := (hwd.pyGet hwc).2.2
  rw [hwb, Option.toList_some, List.length_singleton, hwr] at hx
  have key : wc.shape.length = 5 ∧ p.shape.length = 5 := by
    unfold projectMatBlock at hp
    split_ifs at hp <;> simp only [bind_ok_iff] at hp
    · obtain ⟨_, -, _, -, _, -, q, hq, _, -, _, -, hp⟩ := hp
      have := (einsum_axes hq).2
      simp only [List.map_cons, List.cons.injEq] at this
      exact ⟨this.1.symm, (einsum_axes hp).1⟩
    · obtain ⟨_, -, hp⟩ := hp
      have := (einsum_axes hp).2
      simp only [List.map_cons, List.cons.injEq] at this
      exact ⟨this.2.2.1.symm, (einsum_axes hp).1⟩
  rw [(tangentCore_axes h0).1, hb, hrows, key.2]
  omega

theorem sliceCore_axes {axL axR : ℕ} {l r : Ix} {c y : Tensor ℝ} (hl : doCollapseDim l = false) (hr : doCollapseDim r = false) (h : sliceCore axL axR l r c = Except.ok y) :
    y.shape.length = c.shape.length := by
  have h1 := (getItem_axes h).1
  rw [List.filter_eq_nil_iff.2] at h1
  · simpa using h1
  · intro x hx
    rcases List.mem_or_eq_of_mem_set hx with hx | rfl
    · rcases List.mem_or_eq_of_mem_set hx with hx | rfl
      · rw [List.eq_of_mem_replicate hx]
        nofun
      · simp [hl]
    · simp [hr]

theorem addNProjected_desc {objs : List Projected} (h : ∀ t ∈ objs, t.tt.Described) (coef : Option (Tensor ℝ)) : Post (fun p => p.tt.Described) (addNProjected objs coef) := by
  intro u e
  simp only [addNProjected, bind_ok_iff] at e
  obtain ⟨_, -, first, hf, _, -, cf, -, last, -, cores, hc, y, hy, e⟩ := e
  cases e
  have hd := h first (pyGet_mem hf)
  obtain ⟨hl, hg⟩ := mapRange_core hc
  refine (mkLike_described hd.rows (fun row hr => by rw [hl, hd.rowLen row hr]) (by rw [hl, hd.ranksLen]) ?_ y hy).1
  have h0 := hg 0 hd.pos
  simp only [addProjectedCore, if_true, bind_ok_iff] at h0
  obtain ⟨fc, hfc, _, -, _, -, _, -, rp, hrp, h0⟩ := h0
  rw [(concat_pair_axes h0).2, sliceCore_axes rfl rfl hrp, (hd.pyGet hfc).2.2]

theorem deltasToTangent_desc (ds : List (Tensor ℝ)) {t : TT ℝ} (ht : t.Described) {left : Option (TT ℝ)} (right : Option (TT ℝ))
    (hleft : ∀ l ∈ left, l.Described ∧ l.batch = none) (hb : left = none → t.batch = none) : Desc (deltasToTangent qr ds t left right) := by
  intro u e
  simp only [deltasToTangent, bind_ok_iff] at e
  obtain ⟨l, hl, r, -, d0, -, c0, -, cores, hc, e⟩ := e
  obtain ⟨hld, hlb⟩ : l.Described ∧ l.batch = none := by
    cases left with
    | some l' =>
      have hl := Except.ok.inj hl
      rw [← hl]
      exact hleft l' rfl
    | none =>
      obtain ⟨h1, -, -, h2⟩ := orthogonalize_like qr ht true l hl
      exact ⟨h1, h2.trans (hb rfl)⟩
  obtain ⟨hcl, hg⟩ := mapRange_core hc
  have h0 := hg 0 ht.pos
  generalize (if c0.shape.length < d0.shape.length then d0.shape.head? else none) = bs at h0 e
  simp only [deltaTangentCore, bind_ok_iff] at h0
  obtain ⟨lc, hlc, _, -, lc', hlc', _, -, _, -, h0⟩ := h0
  have hx := (hld.pyGet hlc).2.2
  rw [hlb, Option.toList_none, List.length_nil] at hx
  have hrows := hld.rows
  cases bs with
  | none =>
    have hlc' := Except.ok.inj hlc'
    refine (mkTT_omitted_described (by simp) ?_ u e).1
    rw [(tangentCore_axes h0).2, ← hlc']
    omega
  | some n =>
    simp only [tileCore, bind_ok_iff] at hlc'
    obtain ⟨y, hy, hlc'⟩ := hlc'
    refine (mkBatch_omitted_described (n := n) (by simp) ?_ (Or.inl rfl) u e).1
    rw [(tangentCore_axes h0).2, (tile_axes hlc').1, expandDims_axes hy]
    omega

end T3f
