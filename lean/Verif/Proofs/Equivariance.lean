import Verif.Proofs.SameTensors
import Verif.Proofs.Stage
import Verif.Proofs.TTTranspose
import Verif.Proofs.Scalar

/-! # Maps of dense tensors that keep ranks and scale distances -/

namespace T3f

/-- Truncation commutes with maps of dense tensors that keep the ranks, can be undone, and multiply squared distances by a constant. -/
theorem truncated_map {rows rows' : List (List ℕ)} {φ : (List ℕ → ℝ) → List ℕ → ℝ} {c : ℝ} (hc : 0 ≤ c)
    (h1 : ∀ k r X, HasCut rows k r X → HasCut rows' k r (φ X))
    (h2 : ∀ k r Z, HasCut rows' k r Z → ∃ W, HasCut rows k r W ∧ ∀ i, Valid (restShape rows') i → φ W i = Z i)
    (hd : ∀ X Y, sqDist (restShape rows') (φ X) (φ Y) = c * sqDist (restShape rows) X Y)
    (hφ : ∀ X Y, (∀ i, Valid (restShape rows) i → X i = Y i) → ∀ i, Valid (restShape rows') i → φ X i = φ Y i)
    {b : ℕ → ℕ} {ks : List ℕ} {X Y : List ℕ → ℝ} (h : Truncated rows (restShape rows) b ks X Y) :
    Truncated rows' (restShape rows') b ks (φ X) (φ Y) := by
  induction h with
  | done h0 => exact .done (hφ _ _ h0)
  | cut h0 _ ih =>
    refine .cut ⟨h1 _ _ _ h0.1, fun Z hZ => ?_⟩ ih
    obtain ⟨W, hW, e⟩ := h2 _ _ _ hZ
    rw [← sqDist_congr (fun _ _ => rfl) e, hd, hd]
    exact mul_le_mul_of_nonneg_left (h0.2 W hW) hc

theorem hasCut_smul (c : ℝ) {rows : List (List ℕ)} {k r : ℕ} {X : List ℕ → ℝ} (h : HasCut rows k r X) : HasCut rows k r fun i => c * X i := by
  obtain ⟨b, hb, h⟩ := h
  obtain ⟨S, w, rs, bt, rk, v⟩ := hasTT_iff.1 h
  obtain ⟨u, -, wu, ru, bu, ku, nu, eu⟩ := multiplyScalar_spec w c
  refine ⟨b, hb, hasTT_iff.2 ⟨u, wu, ru.trans rs, bu.trans bt, fun j h0 h1 => ?_, fun i hi => by rw [eu, v i hi]⟩⟩
  have := rk j h0 (nu ▸ h1)
  unfold TT.rank at *
  rwa [ku]

theorem sqDist_smul (s : List ℕ) (c : ℝ) (X Y : List ℕ → ℝ) : sqDist s (fun i => c * X i) (fun i => c * Y i) = c ^ 2 * sqDist s X Y := by
  unfold sqDist dot
  rw [Finset.mul_sum]
  exact Finset.sum_congr rfl fun n _ => by ring

theorem truncated_smul {c : ℝ} (hc : c ≠ 0) {rows : List (List ℕ)} {b : ℕ → ℕ} {ks : List ℕ} {X Y : List ℕ → ℝ}
    (h : Truncated rows (restShape rows) b ks X Y) : Truncated rows (restShape rows) b ks (fun i => c * X i) (fun i => c * Y i) :=
  truncated_map (φ := fun X i => c * X i) (sq_nonneg c) (fun _ _ _ h => hasCut_smul c h)
    (fun _ _ Z hZ => ⟨_, hasCut_smul c⁻¹ hZ, fun i _ => by field_simp⟩) (sqDist_smul _ c) (fun X Y h i hi => by rw [h i hi]) h

/-- The zero tensor is its only truncation. -/
theorem truncated_zero {rows : List (List ℕ)} {b : ℕ → ℕ} {ks : List ℕ} {X Y : List ℕ → ℝ} (h : Truncated rows (restShape rows) b ks X Y)
    (h0 : ∀ i, Valid (restShape rows) i → X i = 0) : ∀ i, Valid (restShape rows) i → Y i = 0 := by
  induction h with
  | done e => exact fun i hi => by rw [← e i hi, h0 i hi]
  | @cut k ks X Z Y hn _ ih =>
    refine ih fun i hi => ?_
    have := hn.2 _ (hasCut_smul 0 hn.1)
    have e0 : sqDist (restShape rows) X (fun i => 0 * Z i) = 0 := by
      unfold sqDist dot
      refine Finset.sum_eq_zero fun n hn => ?_
      simp only [h0 _ (unravel_valid (Finset.mem_range.1 hn))]
      ring
    rw [e0] at this
    have h3 := dot_self (le_antisymm this (dot_self_nonneg _)) i hi
    simp only [h0 i hi] at h3
    linarith

theorem swap_valid {I J : List ℕ} {i : List ℕ} (hi : Valid (restShape [J, I]) i) : ∃ x y, i = [y, x] ∧ x < I.prod ∧ y < J.prod := by
  rw [restShape_matrix] at hi
  obtain ⟨y, x, rfl, hy, hx⟩ := (valid_pair _ _ _).1 hi
  exact ⟨x, y, rfl, hx, hy⟩

theorem hasCut_transpose {I J : List ℕ} {k r : ℕ} {X : List ℕ → ℝ} (h : HasCut [I, J] k r X) : HasCut [J, I] k r fun i => X i.reverse := by
  obtain ⟨b, hb, h⟩ := h
  obtain ⟨S, w, rs, bt, rk, v⟩ := hasTT_iff.1 h
  obtain ⟨u, -, wu, ru, bu, nu, ku, eu⟩ := ttTranspose_spec w rs
  refine ⟨b, hb, hasTT_iff.2 ⟨u, wu, ru, bu.trans bt, fun j h0 h1 => ?_, fun i hi => ?_⟩⟩
  · have := rk j h0 (nu ▸ h1)
    unfold TT.rank at *
    rwa [ku]
  · obtain ⟨x, y, rfl, hx, hy⟩ := swap_valid hi
    have := v [x, y] ⟨hx, hy, trivial⟩
    rw [restModes_matrix] at this ⊢
    rw [eu [] _ _ (by simp [TT.bpre, bt]), this]
    rfl

/-- Sums over the positions of a matrix. -/
theorem dot_matrix (a b : ℕ) (f g : List ℕ → ℝ) : dot [a, b] f g = ∑ x ∈ Finset.range a, ∑ y ∈ Finset.range b, f [x, y] * g [x, y] := by
  unfold dot
  rw [show [a, b].prod = a * b by simp, sum_range_mul]
  refine Finset.sum_congr rfl fun x hx => Finset.sum_congr rfl fun y hy => ?_
  have := unravel_ravel (s := [a, b]) (i := [x, y]) ⟨Finset.mem_range.1 hx, Finset.mem_range.1 hy, trivial⟩
  simp only [ravel, List.prod_cons, List.prod_nil, mul_one, add_zero] at this
  rw [this]

theorem dot_swap (I J : List ℕ) (f g : List ℕ → ℝ) :
    dot (restShape [J, I]) (fun i => f i.reverse) (fun i => g i.reverse) = dot (restShape [I, J]) f g := by
  rw [restShape_matrix, restShape_matrix, dot_matrix, dot_matrix, Finset.sum_comm]
  rfl

theorem truncated_transpose {I J : List ℕ} {b : ℕ → ℕ} {ks : List ℕ} {X Y : List ℕ → ℝ}
    (h : Truncated [I, J] (restShape [I, J]) b ks X Y) : Truncated [J, I] (restShape [J, I]) b ks (fun i => X i.reverse) (fun i => Y i.reverse) :=
  truncated_map (φ := fun X i => X i.reverse) zero_le_one (fun _ _ _ h => hasCut_transpose h)
    (fun _ _ Z hZ => ⟨_, hasCut_transpose hZ, fun i _ => by rw [List.reverse_reverse]⟩)
    (fun X Y => by rw [one_mul]; exact dot_swap I J (fun i => X i - Y i) (fun i => X i - Y i))
    (fun X Y h i hi => by
      obtain ⟨x, y, rfl, hx, hy⟩ := swap_valid hi
      exact h [x, y] ⟨hx, hy, trivial⟩) h

/-! ## Tangent spaces -/

theorem decode_single {x : TT ℝ} (hb : x.batch = none) (i : List ℕ) : (x.decode i).2 = restModes x.rawShape i := by
  unfold TT.decode
  simp only [show x.bpre = [] by simp [TT.bpre, hb], List.length_nil, List.drop_zero]
  by_cases hm : x.isMatrix
  · rw [if_pos hm, restModes, if_pos (show x.rawShape.length = 2 from hm)]
  · rw [if_neg hm, restModes, if_neg (show ¬ x.rawShape.length = 2 from hm)]

theorem dense_single {x : TT ℝ} (hb : x.batch = none) (i : List ℕ) : x.dense.get i = x.entry [] (restModes x.rawShape i) := by
  have := dense_get x [] i (by simp [TT.bpre, hb])
  rwa [List.nil_append] at this

/-- The object with the first core multiplied by a number. -/
def scaleFirst (c : ℝ) (x : TT ℝ) : TT ℝ := { x with cores := x.cores.set 0 ⟨(x.core 0).shape, fun i => c * (x.core 0).get i⟩ }

section
variable {x : TT ℝ} {c : ℝ}

theorem scaleFirst_ndims : (scaleFirst c x).ndims = x.ndims := by simp [scaleFirst, TT.ndims]

theorem scaleFirst_core (h : x.WF) (j : ℕ) : ((scaleFirst c x).core j).shape = (x.core j).shape ∧
    ∀ i, ((scaleFirst c x).core j).get i = (if j = 0 then c else 1) * (x.core j).get i := by
  have hpos : 0 < x.cores.length := h.pos
  by_cases hj : j = 0
  · subst hj
    simp [scaleFirst, TT.core, hpos]
  · have : (scaleFirst c x).core j = x.core j := by
      simp [scaleFirst, TT.core, List.getElem?_set_ne (Ne.symm hj)]
    rw [this, if_neg hj]
    simp

theorem scaleFirst_wf (h : x.WF) : (scaleFirst c x).WF := by
  have hl : (scaleFirst c x).ndims = x.ndims := scaleFirst_ndims
  exact {
    pos := by rw [hl]; exact h.pos
    ranks_len := by rw [hl]; exact h.ranks_len
    rank_first := h.rank_first
    rank_last := by rw [hl]; exact h.rank_last
    rank_pos := by rw [hl]; exact h.rank_pos
    rows := h.rows
    rows_len := by rw [hl]; exact h.rows_len
    core_shape := fun k hk => (scaleFirst_core h k).1.trans (h.core_shape k (hl ▸ hk))
    batch_pos := h.batch_pos }

theorem scaleFirst_entry (h : x.WF) (p : List ℕ) (m : ℕ → List ℕ) : (scaleFirst c x).entry p m = c * x.entry p m := by
  rw [TT.entry, TT.entry, scaleFirst_ndims]
  have e : (scaleFirst c x).slice p m = fun j a b => (if j = 0 then c else 1) * x.slice p m j a b := by
    funext j a b
    exact (scaleFirst_core h j).2 _
  rw [e]
  refine (lprod_scale _ _ _ _ _).trans ?_
  rw [Finset.prod_ite_eq', if_pos (Finset.mem_range.2 h.pos)]
  rfl

theorem replaceCore_scale (s : ℝ) {k : ℕ} (hk : k < x.ndims) (D : List ℕ → ℕ → ℕ → ℝ) (i : List ℕ) :
    x.replaceCore k (fun v a b => s * D v a b) i = s * x.replaceCore k D i := by
  unfold TT.replaceCore
  dsimp only
  rw [show s = ∏ j ∈ Finset.range x.ndims, if j = k then s else 1 by rw [Finset.prod_ite_eq', if_pos (Finset.mem_range.2 hk)], ← lprod_scale,
    Finset.prod_ite_eq', if_pos (Finset.mem_range.2 hk)]
  congr 1
  funext j a b
  by_cases hj : j = k
  · simp [hj]
  · simp [hj]

theorem scaleFirst_replaceCore (h : x.WF) {k : ℕ} (D : List ℕ → ℕ → ℕ → ℝ) (i : List ℕ) :
    (scaleFirst c x).replaceCore k D i = (if k = 0 then 1 else c) * x.replaceCore k D i := by
  unfold TT.replaceCore
  dsimp only
  rw [show (scaleFirst c x).decode i = x.decode i from rfl, show (scaleFirst c x).rank = x.rank from rfl, scaleFirst_ndims]
  rw [show (if k = 0 then (1 : ℝ) else c) = ∏ j ∈ Finset.range x.ndims, if j = 0 then (if k = 0 then 1 else c) else 1 by
    rw [Finset.prod_ite_eq', if_pos (Finset.mem_range.2 h.pos)], ← lprod_scale]
  congr 1
  funext j a b
  by_cases hj : j = k
  · subst hj
    by_cases h0 : j = 0 <;> simp [h0]
  · rw [if_neg hj, if_neg hj]
    refine ((scaleFirst_core h j).2 _).trans ?_
    by_cases h0 : j = 0
    · subst h0
      rw [if_pos rfl, if_pos rfl, if_neg (fun h => hj h.symm)]
      rfl
    · rw [if_neg h0, if_neg h0]
      rfl

/-- Scaling the first core does not change the tangent space. -/
theorem scaleFirst_tangent (h : x.WF) (hc : c ≠ 0) (f : List ℕ → ℝ) : (scaleFirst c x).TangentVector f ↔ x.TangentVector f := by
  constructor
  · rintro ⟨D, hD⟩
    refine ⟨fun k v a b => (if k = 0 then 1 else c) * D k v a b, fun i hi => ?_⟩
    rw [hD i hi, scaleFirst_ndims]
    refine Finset.sum_congr rfl fun k hk => ?_
    rw [scaleFirst_replaceCore h, replaceCore_scale _ (Finset.mem_range.1 hk)]
  · rintro ⟨D, hD⟩
    refine ⟨fun k v a b => (if k = 0 then 1 else c⁻¹) * D k v a b, fun i hi => ?_⟩
    rw [hD i hi, scaleFirst_ndims]
    refine Finset.sum_congr rfl fun k hk => ?_
    rw [scaleFirst_replaceCore h, replaceCore_scale _ (Finset.mem_range.1 hk)]
    by_cases h0 : k = 0
    · simp [h0]
    · rw [if_neg h0, if_neg h0, ← mul_assoc, mul_inv_cancel₀ hc, one_mul]

theorem scaleFirst_minimal (h : x.WF) (hb : x.batch = none) (hc : c ≠ 0) (hmin : x.MinimalRanks) : (scaleFirst c x).MinimalRanks := by
  intro s hs bs rs es k hk
  rw [scaleFirst_ndims] at hk
  refine hmin (scaleFirst c⁻¹ s) (scaleFirst_wf hs) bs rs ⟨es.1, fun i hi => ?_⟩ k hk
  have e := es.2 i hi
  rw [dense_single (show (scaleFirst c x).batch = none from hb), dense_single bs, scaleFirst_entry h] at e
  rw [dense_single (show (scaleFirst c⁻¹ s).batch = none from bs), dense_single hb, scaleFirst_entry hs]
  change c⁻¹ * s.entry [] (restModes s.rawShape i) = _
  rw [e, ← mul_assoc, inv_mul_cancel₀ hc, one_mul]
  rfl

end

/-- The object with transposed cores. -/
def swapTT (x : TT ℝ) : TT ℝ where
  cores := x.cores.map fun C => ⟨[C.shape.getD 0 0, C.shape.getD 2 0, C.shape.getD 1 0, C.shape.getD 3 0],
    fun i => C.get [i.getD 0 0, i.getD 2 0, i.getD 1 0, i.getD 3 0]⟩
  rawShape := x.rawShape.reverse
  ttRanks := x.ttRanks
  batch := x.batch

section
variable {x : TT ℝ} {I J : List ℕ}

theorem swapTT_ndims : (swapTT x).ndims = x.ndims := by simp [swapTT, TT.ndims]

theorem swapTT_raw (hr : x.rawShape = [I, J]) : (swapTT x).rawShape = [J, I] := by simp [swapTT, hr]

theorem swapTT_core {j : ℕ} (hj : j < x.ndims) : (swapTT x).core j = ⟨[(x.core j).shape.getD 0 0, (x.core j).shape.getD 2 0, (x.core j).shape.getD 1 0,
    (x.core j).shape.getD 3 0], fun i => (x.core j).get [i.getD 0 0, i.getD 2 0, i.getD 1 0, i.getD 3 0]⟩ := by
  have hj : j < x.cores.length := hj
  simp [swapTT, TT.core, hj]

theorem swapTT_wf (h : x.WF) (hb : x.batch = none) (hr : x.rawShape = [I, J]) : (swapTT x).WF := by
  have hl : (swapTT x).ndims = x.ndims := swapTT_ndims
  have hp : x.bpre = [] := by simp [TT.bpre, hb]
  exact {
    pos := by rw [hl]; exact h.pos
    ranks_len := by rw [hl]; exact h.ranks_len
    rank_first := h.rank_first
    rank_last := by rw [hl]; exact h.rank_last
    rank_pos := by rw [hl]; exact h.rank_pos
    rows := by rw [swapTT_raw hr]; right; rfl
    rows_len := by
      intro row hrow
      rw [hl]
      exact h.rows_len row (by simpa [swapTT] using hrow)
    core_shape := fun k hk => by
      rw [hl] at hk
      rw [swapTT_core hk, h.core_shape k hk, hp, show (swapTT x).bpre = [] from hp, TT.modes, TT.modes, swapTT_raw hr, hr]
      rfl
    batch_pos := h.batch_pos }

theorem swapTT_slice {m m' : ℕ → List ℕ} {j u v : ℕ} (hj : j < x.ndims) (hm : m j = [u, v]) (hm' : m' j = [v, u]) :
    (swapTT x).slice [] m' j = x.slice [] m j := by
  funext a b
  rw [TT.slice, TT.slice, swapTT_core hj, hm, hm']
  rfl

theorem swap_modes (hr : x.rawShape = [I, J]) (r c j : ℕ) : ∃ u v, restModes x.rawShape [r, c] j = [u, v] ∧ restModes (swapTT x).rawShape [c, r] j = [v, u] := by
  rw [swapTT_raw hr, hr, restModes_matrix, restModes_matrix]
  exact ⟨_, _, rfl, rfl⟩

theorem swapTT_entry (hr : x.rawShape = [I, J]) (r c : ℕ) :
    (swapTT x).entry [] (restModes (swapTT x).rawShape [c, r]) = x.entry [] (restModes x.rawShape [r, c]) := by
  rw [TT.entry, TT.entry, swapTT_ndims]
  refine lprod_congr' fun j hj => ?_
  obtain ⟨u, v, e, e'⟩ := swap_modes hr r c j
  exact swapTT_slice hj e e'

theorem swapTT_replaceCore (hb : x.batch = none) (hr : x.rawShape = [I, J]) {k : ℕ} (D : List ℕ → ℕ → ℕ → ℝ) (r c : ℕ) :
    (swapTT x).replaceCore k D [c, r] = x.replaceCore k (fun v => D v.reverse) [r, c] := by
  unfold TT.replaceCore
  dsimp only
  rw [decode_single hb, decode_single (show (swapTT x).batch = none from hb), swapTT_ndims]
  refine lprod_congr' fun j hj => ?_
  by_cases hjk : j = k
  · subst hjk
    rw [if_pos rfl, if_pos rfl]
    obtain ⟨u, v, e, e'⟩ := swap_modes hr r c j
    rw [e, e']
    rfl
  · rw [if_neg hjk, if_neg hjk]
    obtain ⟨u, v, e, e'⟩ := swap_modes hr r c j
    exact swapTT_slice hj e e'

/-- The tangent vectors at the transposed matrix are the transposed tangent vectors. -/
theorem swapTT_tangent (hb : x.batch = none) (hr : x.rawShape = [I, J]) (f : List ℕ → ℝ) :
    (swapTT x).TangentVector f ↔ x.TangentVector fun i => f i.reverse := by
  have s1 : x.dense.shape = restShape [I, J] := by rw [dense_shape_single hb, hr]
  have s2 : (swapTT x).dense.shape = restShape [J, I] := by rw [dense_shape_single (show (swapTT x).batch = none from hb), swapTT_raw hr]
  constructor
  · rintro ⟨D, hD⟩
    refine ⟨fun k v => D k v.reverse, fun i hi => ?_⟩
    rw [s1] at hi
    obtain ⟨c, r, rfl, hc, hr'⟩ := swap_valid hi
    have := hD [c, r] (by rw [s2]; exact ⟨hc, hr', trivial⟩)
    refine this.trans ?_
    rw [swapTT_ndims]
    exact Finset.sum_congr rfl fun k _ => swapTT_replaceCore hb hr _ _ _
  · rintro ⟨D, hD⟩
    refine ⟨fun k v => D k v.reverse, fun i hi => ?_⟩
    rw [s2] at hi
    obtain ⟨r, c, rfl, hr', hc⟩ := swap_valid hi
    have := hD [r, c] (by rw [s1]; exact ⟨hr', hc, trivial⟩)
    refine this.trans ?_
    rw [swapTT_ndims]
    refine Finset.sum_congr rfl fun k _ => ?_
    rw [swapTT_replaceCore hb hr]
    simp only [List.reverse_reverse]

theorem swapTT_minimal (hb : x.batch = none) (hr : x.rawShape = [I, J]) (hmin : x.MinimalRanks) : (swapTT x).MinimalRanks := by
  intro s hs bs rs es k hk
  rw [swapTT_ndims] at hk
  rw [swapTT_raw hr] at rs
  have b1 : (swapTT s).batch = none := bs
  have b2 : (swapTT x).batch = none := hb
  refine hmin (swapTT s) (swapTT_wf hs bs rs) bs ((swapTT_raw rs).trans hr.symm) ⟨?_, fun i hi => ?_⟩ k hk
  · rw [dense_shape_single b1, dense_shape_single hb, swapTT_raw rs, hr]
  · rw [dense_shape_single b1, swapTT_raw rs] at hi
    obtain ⟨c, r, rfl, hc, hr'⟩ := swap_valid hi
    have e := es.2 [c, r] (by rw [dense_shape_single bs, rs]; exact ⟨hc, hr', trivial⟩)
    rw [dense_single bs, dense_single b2, swapTT_entry hr] at e
    rw [dense_single b1, dense_single hb, swapTT_entry rs, e]

end

end T3f
