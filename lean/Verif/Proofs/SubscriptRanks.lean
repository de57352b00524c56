import Verif.Proofs.SubscriptCalls

/-! # Subscripts of batches that begin with `...` or `None` need TT-ranks one -/

namespace T3f

variable {K : Type} [CommRing K]

omit [CommRing K] in
/-- `...` in front stands for the first axis if the other items are one less than the axes. -/
theorem getItems_ellipsis_first {c : Tensor K} {l : List Ix} (h : c.shape.length = l.length + 1) : getItems c (.ellipsis :: l.map .ix) = getItem c (.all :: l) := by
  have ha : SubItem.axes (.ellipsis :: l.map .ix) = l := axes_map l
  have hc : (SubItem.ellipsis :: l.map .ix).count .ellipsis = 1 := by rw [List.count_cons_self, count_map_ix]
  unfold getItems
  rw [expandEllipsis_eq, ha, hc, h, if_neg (by omega), R.ok_bind, List.flatMap_cons, expand_map_ix, Nat.add_sub_cancel_left]
  change (getItem c (SubItem.axes ((Ix.all :: l).map .ix)) >>= fun s => (newAxes ((Ix.all :: l).map .ix) 0).foldlM expandDims s) = _
  rw [axes_map, newAxes_map]
  cases getItem c (.all :: l) <;> rfl

omit [CommRing K] in
/-- `None` in front adds an axis. -/
theorem getItems_newaxis_first {c y : Tensor K} {l : List Ix} (h : getItems c (.newaxis :: l.map .ix) = Except.ok y) : ∃ s, getItem c l = Except.ok s ∧ y.shape = 1 :: s.shape := by
  have ha : SubItem.axes (.newaxis :: l.map .ix) = l := axes_map l
  unfold getItems at h
  rw [expandEllipsis_eq, ha, bind_ok_iff] at h
  obtain ⟨sp, hsp, h⟩ := h
  split_ifs at hsp
  have hsp := Except.ok.inj hsp
  rw [List.flatMap_cons, expand_map_ix] at hsp
  change .newaxis :: l.map .ix = sp at hsp
  rw [← hsp, ha, newAxes, newAxes_map, bind_ok_iff] at h
  obtain ⟨s, hs, h⟩ := h
  refine ⟨s, hs, ?_⟩
  rw [List.foldlM_cons, bind_ok_iff] at h
  obtain ⟨z, hz, h⟩ := h
  cases h
  cases hz
  rfl

omit [CommRing K] in
theorem pyLast_append {α : Type} (l : List α) (x : α) : pyLast (l ++ [x]) = Except.ok x := by
  simp [pyLast]

omit [CommRing K] in
/-- First and last axis of `core[:, :, slice, :]`. -/
theorem getItem_slice_shape {c s : Tensor K} {n r m r' : ℕ} (hc : c.shape = [n, r, m, r']) {i : Ix} (hi : doCollapseDim i = false)
    (h : getItem c [.all, .all, i, .all] = Except.ok s) : ∃ x, s.shape = [n, r, x] ++ [r'] := by
  cases i with
  | int i => cases hi
  | all =>
    simp [getItem, hc, resolveIx] at h
    rw [← h]
    simp [selShape]
  | slice a b st =>
    simp only [getItem, hc, resolveIx, bind_ok_iff] at h
    obtain ⟨l, ⟨l1, ⟨l2, h2, h1⟩, hl⟩, h⟩ := h
    split_ifs at h2
    cases h2
    cases h1
    cases hl
    cases h
    simp [selShape]

omit [CommRing K] in
/-- First and last axis of `core[:, slice, :]`. -/
theorem getItem_slice_shape' {c s : Tensor K} {n r m r' : ℕ} (hc : c.shape = [n, r, m, r']) {i : Ix} (hi : doCollapseDim i = false)
    (h : getItem c [.all, i, .all] = Except.ok s) : ∃ x, s.shape = [n, x, m] ++ [r'] := by
  cases i with
  | int i => cases hi
  | all =>
    simp [getItem, hc, resolveIx] at h
    rw [← h]
    simp [selShape]
  | slice a b st =>
    simp only [getItem, hc, resolveIx, bind_ok_iff] at h
    obtain ⟨l, ⟨l1, h1, hl⟩, h⟩ := h
    split_ifs at h1
    cases h1
    cases hl
    cases h
    simp [selShape]

omit [CommRing K] in
theorem getItem_all_shape {c s : Tensor K} {l : List Ix} (hl : ∀ i ∈ l, i = .all) (h : getItem c l = Except.ok s) : s.shape = c.shape := by
  simp only [getItem, bind_ok_iff] at h
  obtain ⟨sel, hs, h⟩ := h
  cases h
  dsimp only
  generalize c.shape = sh at hs
  induction l generalizing sh sel with
  | nil =>
    rw [resolveIx] at hs
    rw [← Except.ok.inj hs]
    clear hs
    induction sh with
    | nil => rfl
    | cons n sh ih => simp [selShape, ih]
  | cons x l ih =>
    obtain rfl := hl x (by simp)
    cases sh with
    | nil => cases hs
    | cons n sh =>
      simp only [resolveIx, bind_ok_iff] at hs
      obtain ⟨l', hl', hs⟩ := hs
      cases hs
      simp [selShape, ih (fun i hi => hl i (by simp [hi])) _ _ hl']

/-- If the first item is `...` or `None` then all others are slices, and the cores are the sliced cores. -/
theorem batchFull_cores {t : TT K} (h : t.WF) {n : ℕ} (hb : t.batch = some n) {b0 : SubItem} (hb0 : ∀ j, b0 ≠ .ix j) {spec : List SubItem} {T : TT K}
    (e : batchFullSubscript t b0 spec = Except.ok T) :
    ∃ cores, mkTT cores = Except.ok T ∧ cores.length = t.ndims ∧
      ∀ k < t.ndims, getItems (t.core k) [b0, .ix .all, spec.getD k .newaxis, .ix .all] = Except.ok (cores.getD k default) := by
  obtain ⟨hm, hl, -⟩ := batchFull_collapse h e
  have hit := fun k (hk : k < t.ndims) => batchFull_items h hb e hk
  simp only [batchFullSubscript, bind_ok_iff] at e
  obtain ⟨_, -, st, hf, e⟩ := e
  have key := forRange_returns (fun k st => st.2 = none ∧ st.1.length = k ∧
      ∀ i < k, getItems (t.core i) [b0, .ix .all, spec.getD i .newaxis, .ix .all] = Except.ok (st.1.getD i default)) (a := 0) (n := t.ndims)
    (s := ([], none)) (r := st) (f := batchFullSubscriptStep t b0 spec) ?_ ⟨rfl, rfl, fun i hi => absurd hi (by omega)⟩ hf
  · obtain ⟨h1, h2, h3⟩ := key
    have hcol : b0.collapses = true := by
      cases b0 with
      | ix j => exact absurd rfl (hb0 j)
      | ellipsis => rfl
      | newaxis => rfl
    rw [h1] at e
    dsimp only at e
    rw [R.pure_eq, R.ok_bind, if_pos hcol] at e
    exact ⟨st.1, e, by omega, fun k hk => h3 k (by omega)⟩
  · intro k s s' _ hk ⟨h1, h2, h3⟩ hs
    have hk : k < t.ndims := by omega
    simp only [batchFullSubscriptStep, h.pyCore hk, R.ok_bind, if_neg hm, pyGet_of_lt spec k .newaxis (show k < spec.length by omega)] at hs
    rw [bind_ok_iff] at hs
    obtain ⟨sl, hsl, hs⟩ := hs
    obtain ⟨i, hi, hi'⟩ := hit k hk
    have hcol : ¬ (spec.getD k .newaxis).collapses = true := by
      rw [hi, SubItem.collapses, hi' hb0]
      simp
    rw [if_neg hcol, h1] at hs
    cases hs
    refine ⟨rfl, by simp [h2], fun j hj => ?_⟩
    rcases Nat.lt_or_ge j k with h4 | h4
    · rw [h3 j h4, List.getD_append _ _ _ _ (by omega)]
    · obtain rfl : j = k := by omega
      rw [hsl, List.getD_append_right _ _ _ _ (by omega), h2, Nat.sub_self]
      rfl

theorem pyGet_getD_core {cores : List (Tensor K)} {k : ℕ} {c : Tensor K} (h : pyGet cores k = Except.ok c) : c = cores.getD k default := (pyGet_getD h default).1

theorem pyGet_zero_cons {α : Type} {a x : α} {l : List α} (h : pyGet (a :: l) 0 = Except.ok x) : a = x := by
  cases h
  rfl

/-- A tuple that begins with `...` or `None` is accepted only if all TT-ranks are one. -/
theorem batchFull_ranks {t : TT K} (h : t.WF) {n : ℕ} (hb : t.batch = some n) {b0 : SubItem} (hb0 : ∀ j, b0 ≠ .ix j) {spec : List SubItem} {T : TT K}
    (e : batchFullSubscript t b0 spec = Except.ok T) : ∀ k ≤ t.ndims, t.rank k = 1 := by
  obtain ⟨hm, hl, -⟩ := batchFull_collapse h e
  have hit := fun k (hk : k < t.ndims) => batchFull_items h hb e hk
  obtain ⟨cores, hmk, hlen, hc⟩ := batchFull_cores h hb hb0 e
  obtain ⟨⟨c0, hc0, h0⟩, hstep, -⟩ := mkTT_axes hmk
  have hsh : ∃ q, ∀ k < t.ndims, ∃ l, (cores.getD k default).shape = q :: (l ++ [t.rank (k + 1)]) := by
    obtain ⟨row, hrow, hrl⟩ := h.rawShape_tensor hm
    cases b0 with
    | ix j => exact absurd rfl (hb0 j)
    | ellipsis =>
      refine ⟨n, fun k hk => ?_⟩
      obtain ⟨i, hi, hi'⟩ := hit k hk
      have hk' := hc k hk
      have hs : (t.core k).shape = [n, t.rank k, row.getD k 0, t.rank (k + 1)] := by
        rw [tensor_core_shape h hrow hk, bpre_some hb]; rfl
      rw [hi] at hk'
      change getItems _ (.ellipsis :: [Ix.all, i, .all].map .ix) = _ at hk'
      rw [getItems_ellipsis_first (by rw [hs]; rfl)] at hk'
      obtain ⟨x, hx⟩ := getItem_slice_shape hs (hi' hb0) hk'
      exact ⟨[t.rank k, x], hx⟩
    | newaxis =>
      refine ⟨1, fun k hk => ?_⟩
      obtain ⟨i, hi, hi'⟩ := hit k hk
      have hk' := hc k hk
      have hs : (t.core k).shape = [n, t.rank k, row.getD k 0, t.rank (k + 1)] := by
        rw [tensor_core_shape h hrow hk, bpre_some hb]; rfl
      rw [hi] at hk'
      change getItems _ (.newaxis :: [Ix.all, i, .all].map .ix) = _ at hk'
      obtain ⟨s, hs', hy⟩ := getItems_newaxis_first hk'
      obtain ⟨x, hx⟩ := getItem_slice_shape' hs (hi' hb0) hs'
      exact ⟨[n, x, row.getD k 0], by rw [hy, hx]⟩
  obtain ⟨q, hq⟩ := hsh
  obtain rfl : q = 1 := by
    rw [pyGet_getD_core hc0] at h0
    obtain ⟨l, hl0⟩ := hq 0 h.pos
    rw [hl0] at h0
    exact pyGet_zero_cons h0
  intro k hk
  rcases Nat.lt_or_ge k t.ndims with hk | hk'
  · rcases Nat.eq_zero_or_pos k with rfl | hk0
    · exact h.rank_first
    · obtain ⟨c, c', x, h1, h2, h3, h4⟩ := hstep k hk0 (by omega)
      obtain ⟨l, hl1⟩ := hq k hk
      obtain ⟨l', hl2⟩ := hq (k - 1) (by omega)
      rw [pyGet_getD_core h1, hl1] at h3
      rw [pyGet_getD_core h2, hl2, ← List.cons_append, pyLast_append, Nat.sub_add_cancel hk0] at h4
      rw [Except.ok.inj h4, pyGet_zero_cons h3]
  · rw [le_antisymm hk hk', h.rank_last]

/-- A single `...` or `None` is accepted only if all TT-ranks are one. -/
theorem batchDim_ranks {t : TT K} (h : t.WF) {n : ℕ} (hb : t.batch = some n) {x : SubItem} (hx : ∀ j, x ≠ .ix j) {T : TT K}
    (e : batchDimSubscript t x = Except.ok T) : ∀ k ≤ t.ndims, t.rank k = 1 := by
  simp only [batchDimSubscript, bind_ok_iff] at e
  obtain ⟨cores, hc, e⟩ := e
  have hcol : x.collapses = true := by
    cases x with
    | ix j => exact absurd rfl (hx j)
    | ellipsis => rfl
    | newaxis => rfl
  rw [if_pos hcol] at e
  obtain ⟨hlen, hc⟩ := mapRange_inv hc
  obtain ⟨-, -, hrk⟩ := mkTT_axes e
  obtain ⟨⟨c0, hc0, h0⟩, -, -⟩ := mkTT_axes e
  have hsh : ∃ q, ∀ k < t.ndims, ∃ l, (cores.getD k default).shape = q :: l := by
    have hsel : ∀ k < t.ndims, ∃ l : List Ix, (∀ i ∈ l, i = .all) ∧ l.length = t.rawShape.length + 2 ∧ getItems (t.core k) (x :: l.map .ix) = Except.ok (cores.getD k default) := by
      intro k hk
      have hk' := hc k hk
      rw [h.pyCore hk, R.ok_bind] at hk'
      split_ifs at hk' with hm
      · exact ⟨[.all, .all, .all, .all], by simp, by rw [show t.rawShape.length = 2 from hm]; rfl, hk'⟩
      · exact ⟨[.all, .all, .all], by simp, by rw [h.rows.resolve_right hm]; rfl, hk'⟩
    cases x with
    | ix j => exact absurd rfl (hx j)
    | ellipsis =>
      refine ⟨n, fun k hk => ?_⟩
      obtain ⟨l, hl, hl', hg⟩ := hsel k hk
      have hs := batch_core_shape h hb hk
      rw [getItems_ellipsis_first (by rw [hs, hl']; simp [TT.modes])] at hg
      refine ⟨_, (getItem_all_shape ?_ hg).trans hs⟩
      intro i hi
      rcases List.mem_cons.1 hi with rfl | hi
      · rfl
      · exact hl i hi
    | newaxis =>
      refine ⟨1, fun k hk => ?_⟩
      obtain ⟨l, hl, hl', hg⟩ := hsel k hk
      obtain ⟨s, -, hy⟩ := getItems_newaxis_first hg
      exact ⟨_, hy⟩
  obtain ⟨q, hq⟩ := hsh
  obtain rfl : q = 1 := by
    rw [pyGet_getD_core hc0] at h0
    obtain ⟨l, hl0⟩ := hq 0 h.pos
    rw [hl0] at h0
    exact pyGet_zero_cons h0
  intro k hk
  rcases Nat.lt_or_ge k t.ndims with hk | hk'
  · obtain ⟨c, y, h1, h2, h3⟩ := hrk _ rfl k (by omega)
    obtain ⟨l, hl1⟩ := hq k hk
    rw [pyGet_getD_core h1, hl1] at h2
    rw [(pyGet_getD h3 0).1.symm.symm] at *
    rw [TT.rank, ← (pyGet_getD h3 0).1, pyGet_zero_cons h2]
  · rw [le_antisymm hk hk', h.rank_last]

end T3f
