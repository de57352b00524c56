import Verif.Proofs.Described
import Verif.Proofs.GatherRank
import Verif.Proofs.RoundForms
import Verif.Model.Calls

/-! # The functions of `ops.py`, `shapes.py` and `batch_ops.py` return described objects -/

namespace T3f

section
variable {K : Type}

/-! ## Numbers of axes -/

theorem reshape_axes {x y : Tensor K} {target : List (Option ℕ)} (h : reshape x target = Except.ok y) : y.shape.length = target.length := by
  simp only [reshape, bind_ok_iff] at h
  obtain ⟨s, hs, h⟩ := h
  cases h
  unfold resolveShape at hs
  dsimp only at hs
  split at hs
  · split_ifs at hs
    cases hs; simp
  · split_ifs at hs
    cases hs; simp
  · cases hs

theorem reshape_some_shape {x y : Tensor K} {s : List ℕ} (h : reshape x (s.map some) = Except.ok y) : y.shape = s := by
  simp only [reshape, bind_ok_iff] at h
  obtain ⟨s', hs, h⟩ := h
  cases h
  unfold resolveShape at hs
  dsimp only at hs
  rw [List.count_eq_zero.2 (by simp)] at hs
  change (if knownProd (s.map some) = x.shape.prod then Except.ok ((s.map some).map (·.getD 0)) else Except.error Err.tf) = _ at hs
  split_ifs at hs
  cases hs
  simp

theorem concat2_axes {ax : ℕ} {a b y : Tensor K} (h : concat2 ax a b = Except.ok y) : y.shape.length = a.shape.length ∧ y.shape.length = b.shape.length := by
  unfold concat2 at h
  split_ifs at h with hc
  cases h
  simp [hc.1]

theorem concat_pair_axes {ax : ℕ} {a b y : Tensor K} (h : concat ax [a, b] = Except.ok y) : y.shape.length = a.shape.length ∧ y.shape.length = b.shape.length := by
  simp only [concat, bind_ok_iff] at h
  obtain ⟨r, hr, h⟩ := h
  split_ifs at hr
  cases hr
  exact concat2_axes h

theorem concat_axes {ax : ℕ} : ∀ {l : List (Tensor K)} {y : Tensor K}, concat ax l = Except.ok y → ∀ x ∈ l, y.shape.length = x.shape.length
  | [], _, h => by cases h
  | [a], y, h => by
    simp only [concat] at h
    split_ifs at h
    cases h
    simp
  | a :: b :: l, y, h => by
    simp only [concat, bind_ok_iff] at h
    obtain ⟨r, hr, h⟩ := h
    obtain ⟨h1, h2⟩ := concat2_axes h
    intro x hx
    rcases List.mem_cons.1 hx with rfl | hx
    · exact h1
    · rw [h2]; exact concat_axes hr x hx

theorem transpose_axes {x y : Tensor K} {perm : List ℕ} (h : transpose x perm = Except.ok y) : y.shape.length = x.shape.length ∧ perm.length = x.shape.length := by
  unfold transpose at h
  split_ifs at h with hp
  cases h
  have := hp.length_eq
  simp at this
  simp [this]

theorem expandDims_axes {x y : Tensor K} {ax : ℕ} (h : expandDims x ax = Except.ok y) : y.shape.length = x.shape.length + 1 := by
  unfold expandDims at h
  split_ifs at h with hp
  cases h
  simp [List.length_insertIdx, hp]

theorem tile_axes {x y : Tensor K} {m : List ℕ} (h : tile x m = Except.ok y) : y.shape.length = x.shape.length ∧ m.length = x.shape.length := by
  unfold tile at h
  split_ifs at h with hp
  cases h
  simp [hp]

theorem squeezeAxis_axes {x y : Tensor K} {ax : ℕ} (h : squeezeAxis x ax = Except.ok y) : y.shape.length + 1 = x.shape.length := by
  unfold squeezeAxis at h
  split_ifs at h with hp
  cases h
  have : ax < x.shape.length := by
    by_contra hc
    rw [List.getElem?_eq_none (by omega)] at hp
    cases hp
  simp only [List.length_eraseIdx, this, if_true]
  omega

theorem bshape_axes : ∀ {a b s : List ℕ}, bshape a b = some s → s.length = max a.length b.length
  | [], b, s, h => by
    rw [bshape] at h
    cases h; simp
  | x :: a, [], s, h => by
    rw [bshape] at h
    · cases h; simp
    · simp
  | x :: a, y :: b, s, h => by
    rw [bshape] at h
    split_ifs at h
    all_goals
      simp only [Option.map_eq_map, Option.map_eq_some_iff] at h
      obtain ⟨r, hr, rfl⟩ := h
      have := bshape_axes hr
      simp [this]

theorem binop_axes {f : K → K → K} {a b y : Tensor K} (h : binop f a b = Except.ok y) : y.shape.length = max a.shape.length b.shape.length := by
  unfold binop at h
  split at h
  · rename_i s hs
    cases h
    simpa using bshape_axes hs
  · cases h

theorem einsum_axes [CommSemiring K] {spec : List (List Char) × List Char} {ops : List (Tensor K)} {y : Tensor K} (h : einsum spec ops = Except.ok y) :
    y.shape.length = spec.2.length ∧ spec.1.map List.length = ops.map (fun t => t.shape.length) := by
  unfold einsum at h
  dsimp only at h
  split_ifs at h with hc
  cases h
  exact ⟨by simp, hc.1⟩

/-! ## Described objects -/

variable [Zero K] {t u : TT K}

theorem TT.Described.core_axes (h : t.Described) {k : ℕ} (hk : k < t.ndims) : (t.core k).shape.length = t.batch.toList.length + t.rawShape.length + 2 := by
  rw [h.describes.core_shape k hk]
  simp [TT.bpre, TT.modes]
  omega

theorem TT.Described.pyGet (h : t.Described) {k : ℕ} {c : Tensor K} (e : pyGet t.cores k = Except.ok c) :
    c = t.core k ∧ k < t.ndims ∧ c.shape.length = t.batch.toList.length + t.rawShape.length + 2 := by
  obtain ⟨rfl, hk⟩ := pyGet_getD e default
  exact ⟨rfl, hk, h.core_axes hk⟩

theorem TT.Described.ranksLen (h : t.Described) : t.ttRanks.length = t.ndims + 1 := h.describes.ranks_len

theorem TT.Described.rowLen (h : t.Described) : ∀ row ∈ t.rawShape, row.length = t.ndims := h.describes.rows_len

theorem TT.Described.ndims_eq (h : t.Described) (h' : u.Described) (e : t.rawShape = u.rawShape) : u.ndims = t.ndims := by
  obtain ⟨row, hrow⟩ : ∃ row, row ∈ t.rawShape := List.exists_mem_of_length_pos (by have := h.rows; omega)
  rw [← h.rowLen row hrow, ← h'.rowLen row (e ▸ hrow)]

theorem TT.Described.cores_len (_h : t.Described) : t.cores.length = t.ndims := rfl

theorem require_inv {c : Prop} [Decidable c] {e : Err} {u : Unit} (h : require c e = Except.ok u) : c := by
  by_contra hc
  rw [require_neg hc] at h
  cases h

end

/-- The result is described. -/
abbrev Desc (x : R (TT ℝ)) : Prop := Post TT.Described x

variable {a b t : TT ℝ}

theorem mkLike_desc {bs : Option ℕ} {cores : List (Tensor ℝ)} {rows : List (List ℕ)} {rk : List ℕ} (hr : rows.length = 1 ∨ rows.length = 2)
    (hrow : ∀ row ∈ rows, row.length = cores.length) (hrk : rk.length = cores.length + 1)
    (h0 : (cores.getD 0 default).shape.length = bs.toList.length + rows.length + 2) : Desc (mkLike bs cores rows rk) :=
  fun t e => (mkLike_described hr hrow hrk h0 t e).1

theorem multiplyScalar_desc (h : a.Described) (c : ℝ) : Desc (multiplyScalar a c) := by
  intro t e
  simp only [multiplyScalar, bind_ok_iff] at e
  obtain ⟨c0, hc0, e⟩ := e
  obtain ⟨rfl, hk⟩ := pyGet_getD hc0 default
  have hpos : 0 < a.cores.length := h.pos
  refine mkLike_desc h.rows ?_ ?_ ?_ t e
  · simpa using! h.rowLen
  · simpa using! h.ranksLen
  · rw [getD_set_self _ _ _ _ (by simpa using hpos)]
    have := h.core_axes h.pos
    rw [← this, List.getD_eq_getElem _ _ hk, List.getElem_map]
    rw [TT.core, List.getD_eq_getElem _ _ hpos]
    rfl

theorem neg_desc (h : a.Described) : Desc (neg a) := multiplyScalar_desc h _

theorem cast_desc (f : ℝ → ℝ) (h : a.Described) : Desc (ttCast f a) := by
  intro t e
  simp only [ttCast, bind_ok_iff] at e
  obtain ⟨cores, hc, e⟩ := e
  obtain ⟨hl, hg⟩ := mapRange_inv hc
  have h0 := hg 0 h.pos
  simp only [bind_ok_iff] at h0
  obtain ⟨c, hc, h0⟩ := h0
  obtain ⟨rfl, hk, hx⟩ := h.pyGet hc
  rw [R.pure_eq, Except.ok.injEq] at h0
  refine mkLike_desc h.rows (fun row hr => by rw [hl, h.rowLen row hr]) (by rw [hl, h.ranksLen]) ?_ t e
  rw [← h0]
  exact hx

theorem multiply_desc (ha : a.Described) (hb : b.Described) : Desc (multiply a b) := by
  intro t e
  simp only [multiply, bind_ok_iff] at e
  obtain ⟨_, hm, _, hr, _, -, cores, hc, e⟩ := e
  replace hm := require_inv hm
  replace hr := require_inv hr
  obtain ⟨hl, hg⟩ := mapRange_inv hc
  have hnd := ha.ndims_eq hb hr
  have h0 := hg 0 ha.pos
  refine mkLike_desc ha.rows (fun row hr => by rw [hl, ha.rowLen row hr]) (by rw [List.length_zipWith, ha.ranksLen, hb.ranksLen, hnd, hl]; simp) ?_ t e
  generalize cores.getD 0 default = c at h0
  simp only [mulCore, mulCoreWith, bind_ok_iff] at h0
  obtain ⟨_, -, _, -, _, -, _, -, _, -, _, -, h0⟩ := h0
  obtain ⟨x, hxl, h0⟩ : ∃ x : Tensor ℝ, x.shape.length = a.rawShape.length + 3 ∧
      (if (a.isBatch || b.isBatch) = true then Except.ok x else squeezeAxis x 0) = Except.ok c := by
    by_cases hM : a.isMatrix
    · simp only [if_pos hM, bind_ok_iff] at h0
      obtain ⟨_, -, _, -, _, -, _, -, _, -, x, hx, h0⟩ := h0
      refine ⟨x, ?_, h0⟩
      rw [reshape_axes hx, show a.rawShape.length = 2 from hM]
      rfl
    · simp only [if_neg hM, bind_ok_iff] at h0
      obtain ⟨_, -, _, -, _, -, x, hx, h0⟩ := h0
      refine ⟨x, ?_, h0⟩
      have h2 : a.rawShape.length ≠ 2 := hM
      have := ha.rows
      rw [reshape_axes hx, show a.rawShape.length = 1 by omega]
      rfl
  have hob : (mulOutBatch a.batch b.batch).toList.length = if a.isBatch || b.isBatch then 1 else 0 := by
    unfold TT.isBatch
    cases a.batch <;> cases b.batch <;> simp [mulOutBatch]
    split_ifs <;> rfl
  split_ifs at h0 with hB
  · cases h0
    rw [hob, if_pos hB, hxl]
    omega
  · have := squeezeAxis_axes h0
    rw [hob, if_neg hB]
    omega

end T3f
