import Verif.Proofs.TangentSpace
import Verif.Proofs.ProjectProps

/-! # Different cores of the same tensor -/

namespace T3f

/-- Every choice of mode indices of the cores belongs to a position of the dense object. -/
theorem rest_modes {K : Type} [CommRing K] {x : TT K} (h : x.WF) {g : ℕ → List ℕ} (hg : ∀ j < x.ndims, Valid (x.modes j) (g j)) :
    ∃ i, Valid (restShape x.rawShape) i ∧ ∀ j < x.ndims, restModes x.rawShape i j = g j := by
  by_cases hm : x.isMatrix
  · obtain ⟨row0, row1, hrow, hl0, hl1⟩ := h.rawShape_matrix hm
    have key : ∀ j < x.ndims, ∃ a b, g j = [a, b] ∧ a < row0.getD j 0 ∧ b < row1.getD j 0 := by
      intro j hj
      have := hg j hj
      simp only [TT.modes, hrow, List.map_cons, List.map_nil] at this
      exact (valid_pair _ _ _).1 this
    have v0 : Valid row0 ((List.range x.ndims).map fun j => (g j).getD 0 0) := by
      refine (valid_iff_getD _ _).2 ⟨by simp [hl0], fun j hj => ?_⟩
      obtain ⟨a, b, e, ha, -⟩ := key j (by omega)
      simpa [List.getD_eq_getElem?_getD, List.getElem?_map, List.getElem?_range (show j < x.ndims by omega), e] using ha
    have v1 : Valid row1 ((List.range x.ndims).map fun j => (g j).getD 1 0) := by
      refine (valid_iff_getD _ _).2 ⟨by simp [hl1], fun j hj => ?_⟩
      obtain ⟨a, b, e, -, hb⟩ := key j (by omega)
      simpa [List.getD_eq_getElem?_getD, List.getElem?_map, List.getElem?_range (show j < x.ndims by omega), e] using hb
    refine ⟨[ravel row0 ((List.range x.ndims).map fun j => (g j).getD 0 0), ravel row1 ((List.range x.ndims).map fun j => (g j).getD 1 0)], ?_, fun j hj => ?_⟩
    · rw [hrow, restShape_matrix]; exact ⟨ravel_lt v0, ravel_lt v1, trivial⟩
    · obtain ⟨a, b, e, -, -⟩ := key j hj
      rw [hrow, restModes_matrix, unravel_ravel v0, unravel_ravel v1, e]
      simp [mIdx, List.getElem?_map, List.getElem?_range hj, e]
  · obtain ⟨row, hrow, hlen⟩ := h.rawShape_tensor hm
    have key : ∀ j < x.ndims, ∃ a, g j = [a] ∧ a < row.getD j 0 := by
      intro j hj
      have := hg j hj
      simp only [TT.modes, hrow, List.map_cons, List.map_nil] at this
      exact (valid_singleton _ _).1 this
    refine ⟨(List.range x.ndims).map fun j => (g j).getD 0 0, ?_, fun j hj => ?_⟩
    · rw [hrow, restShape_tensor]
      refine (valid_iff_getD _ _).2 ⟨by simp [hlen], fun j hj => ?_⟩
      obtain ⟨a, e, ha⟩ := key j (by omega)
      simpa [List.getD_eq_getElem?_getD, List.getElem?_map, List.getElem?_range (show j < x.ndims by omega), e] using ha
    · obtain ⟨a, e, -⟩ := key j hj
      rw [hrow, restModes_tensor, e]
      simp [tIdx, List.getElem?_map, List.getElem?_range hj, e]

section
variable {x x' : TT ℝ}

/-- Objects with the same elements have the same entries. -/
theorem entry_of_dense (h : x.WF) (h' : x'.WF) (hb : x.batch = none) (hb' : x'.batch = none) (hr : x'.rawShape = x.rawShape)
    (he : x'.dense ≃ₜ x.dense) (g : x.Modes) : x'.entry [] g.1 = x.entry [] g.1 := by
  obtain ⟨i, hi, hm⟩ := rest_modes h g.2
  have hn : x'.ndims = x.ndims := ndims_of_rows h' h hr
  have p1 : x.bpre = [] := by simp [TT.bpre, hb]
  have p2 : x'.bpre = [] := by simp [TT.bpre, hb']
  have e1 := dense_get x [] i (by rw [p1])
  have e2 := dense_get x' [] i (by rw [p2])
  rw [List.nil_append] at e1 e2
  have e3 := he.2 i (by change Valid (x'.bpre ++ restShape x'.rawShape) i; rw [p2, hr]; exact hi)
  rw [e1, e2, hr] at e3
  exact (entry_depends x' [] _ _ fun j hj => hm j (hn ▸ hj)).symm.trans (e3.trans (entry_depends x [] _ _ hm))

/-- The tangent vectors at an object with minimal ranks, in the frames of any other object with the same elements. -/
theorem tangent_change (h : x.WF) (hb : x.batch = none) (hmin : x.MinimalRanks) (hne : x.Nonzero) {left right : TT ℝ} (wl : left.WF) (wr : right.WF)
    (nl : left.ndims = x.ndims) (nr : right.ndims = x.ndims) (el : ∀ g : x.Modes, left.entry [] g.1 = x.entry [] g.1)
    (er : ∀ g : x.Modes, right.entry [] g.1 = x.entry [] g.1) {f : List ℕ → ℝ} (hf : x.TangentVector f) :
    ∃ D, ∀ i, Valid (restShape x.rawShape) i → f i = frameVec x left right D (restModes x.rawShape i) := by
  obtain ⟨D, hD⟩ := hf
  have hsh := dense_shape_single hb
  have hL := fun k (hk : k < x.ndims) => left_transfer h wl hb hmin hne nl el (k := k) (by omega)
  have hR := fun k (hk : k < x.ndims) => right_transfer h wr hb hmin hne nr er (k := k + 1) (by omega)
  choose! M hM using hL
  choose! N hN using hR
  refine ⟨fun k v c e => ∑ a ∈ Finset.range (x.rank k), ∑ b ∈ Finset.range (x.rank (k + 1)), M k c a * D k v a b * N k b e, fun i hi => ?_⟩
  have hm := validModes_rest h hi
  rw [hD i (by rw [hsh]; exact hi), frameVec, Finset.sum_congr rfl fun k hk => replaceCore_eq h hb _ i (Finset.mem_range.1 hk)]
  refine frame_change (l' := fun k a => lprod left.rank (left.slice [] (restModes x.rawShape i)) k a)
    (l := fun k a => lprod x.rank (x.slice [] (restModes x.rawShape i)) k a)
    (ρ' := fun k b => rprod right.rank (right.slice [] (restModes x.rawShape i)) (x.ndims - 1 - k) (k + 1) b)
    (ρ := fun k b => rprod x.rank (x.slice [] (restModes x.rawShape i)) (x.ndims - 1 - k) (k + 1) b)
    (fun k hk a ha => hM k hk ⟨_, hm⟩ a ha) (fun k hk b hb => ?_) (fun k => D k (restModes x.rawShape i k))
  have := hN k hk ⟨_, hm⟩ b hb
  rw [show x.ndims - (k + 1) = x.ndims - 1 - k by omega] at this
  exact this

/-- Tangent vectors at an object with minimal ranks are tangent vectors at all objects with the same elements. -/
theorem tangent_of_minimal (h : x.WF) (h' : x'.WF) (hb : x.batch = none) (hb' : x'.batch = none) (hr : x'.rawShape = x.rawShape)
    (he : x'.dense ≃ₜ x.dense) (hmin : x.MinimalRanks) (hne : x.Nonzero) {f : List ℕ → ℝ} (hf : x.TangentVector f) : x'.TangentVector f := by
  have hn : x'.ndims = x.ndims := ndims_of_rows h' h hr
  have ee := entry_of_dense h h' hb hb' hr he
  obtain ⟨D, hD⟩ := tangent_change h hb hmin hne h' h' hn hn ee ee hf
  refine ⟨D, fun i hi => ?_⟩
  rw [dense_shape_single hb', hr] at hi
  rw [hD i hi, frameVec, hn]
  refine Finset.sum_congr rfl fun k hk => ?_
  rw [replaceCore_eq h' hb' _ i (by rw [hn]; exact Finset.mem_range.1 hk), hr, hn]

/-- They are in the space of the frame computed for any object with the same elements. -/
theorem frame_of_minimal (h : x.WF) (h' : x'.WF) (hb : x.batch = none) (hb' : x'.batch = none) (hr : x'.rawShape = x.rawShape)
    (he : x'.dense ≃ₜ x.dense) (hmin : x.MinimalRanks) (hne : x.Nonzero) {left right : TT ℝ} (F : TFrame x' left right)
    {f : List ℕ → ℝ} (hf : x.TangentVector f) : f ∈ frameSpace x' left right := by
  have hn : x'.ndims = x.ndims := ndims_of_rows h' h hr
  have hmo : x'.modes = x.modes := modes_of_rows hr
  have ee := entry_of_dense h h' hb hb' hr he
  obtain ⟨D, hD⟩ := tangent_change h hb hmin hne F.wl F.wr (F.nl.trans hn) (F.nr.trans hn)
    (fun g => (F.el g.1 (by rw [hn, hmo]; exact g.2)).trans (ee g)) (fun g => (F.er g.1 (by rw [hn, hmo]; exact g.2)).trans (ee g)) hf
  refine ⟨D, fun i hi => ?_⟩
  rw [hr] at hi
  rw [hD i hi, hr, frameVec, frameVec, hn]

end

end T3f
