import Verif.Proofs.Subscript
import Verif.Props.C20Iff

/-! # Which subscripts with `...` and `None` are accepted -/

namespace T3f

variable {K : Type} [CommRing K]

/-- `...` as `:`. -/
def SubItem.toIx : SubItem → Ix
  | .ix i => i
  | _ => .all

/-! ## TensorTrain -/

theorem tensor_core_axes {t : TT K} (h : t.WF) (hb : t.batch = none) (hm : ¬ t.isMatrix) {k : ℕ} (hk : k < t.ndims) : (t.core k).shape.length = 3 := by
  rw [h.core_shape k hk, TT.bpre, hb]
  have := h.rows.resolve_right hm
  simp [TT.modes, this]

theorem ttSubscriptStep_eq {t : TT K} (h : t.WF) (hb : t.batch = none) {spec : List SubItem} (hl : spec.length = t.ndims) (hn : .newaxis ∉ spec) {k : ℕ} (hk : k < t.ndims)
    (st : List (Tensor K) × Option (Tensor K)) : ttSubscriptStep t spec k st = ttGetItemStep t (spec.map SubItem.toIx) k st := by
  unfold ttSubscriptStep ttGetItemStep
  rw [h.pyCore hk, R.ok_bind, R.ok_bind]
  by_cases hm : t.isMatrix
  · rw [if_pos hm, if_pos hm]
  · rw [if_neg hm, if_neg hm, pyGet_of_lt spec k .newaxis (by omega), R.ok_bind, pyGet_of_lt (spec.map SubItem.toIx) k .all (by simp; omega), R.ok_bind]
    have hx : spec.getD k .newaxis ∈ spec := by
      rw [List.getD_eq_getElem _ _ (by omega)]
      exact List.getElem_mem _
    have he : (spec.map SubItem.toIx).getD k .all = (spec.getD k .newaxis).toIx := by
      rw [List.getD_eq_getElem _ _ (by simp; omega), List.getElem_map, List.getD_eq_getElem _ _ (by omega)]
    rw [he]
    have : getItems (t.core k) [.ix .all, spec.getD k .newaxis, .ix .all] = getItem (t.core k) [.all, (spec.getD k .newaxis).toIx, .all] := by
      generalize spec.getD k .newaxis = x at hx
      cases x with
      | ix i => exact getItems_map _ [.all, i, .all]
      | ellipsis => exact getItems_ellipsis (tensor_core_axes h hb hm hk)
      | newaxis => exact absurd hx hn
    rw [this]
    rfl

theorem ttSubscript_eq {t : TT K} (h : t.WF) (hb : t.batch = none) {spec : List SubItem} (hn : .newaxis ∉ spec) :
    ttSubscript t (.tuple spec) = ttGetItem t (spec.map SubItem.toIx) := by
  unfold ttSubscript ttGetItem
  dsimp only
  rw [List.length_map]
  by_cases hl : spec.length = t.ndims
  · rw [require_pos hl, R.ok_bind, R.ok_bind, forRange_congr (g := ttGetItemStep t (spec.map SubItem.toIx)) fun k _ hk st => ttSubscriptStep_eq h hb hl hn (by omega) st]
    rfl
  · rw [require_neg hl]; rfl

theorem einsum_first_axes {spec : List (List Char) × List Char} {a b y : Tensor K} (h : einsum spec [a, b] = Except.ok y) :
    spec.1.map List.length = [a.shape.length, b.shape.length] := (einsum_axes h).2

theorem ttSubscript_newaxis {t : TT K} (h : t.WF) (hb : t.batch = none) {spec : List SubItem} {T : TT K} (e : ttSubscript t (.tuple spec) = Except.ok T) : .newaxis ∉ spec := by
  intro hn
  simp only [ttSubscript, bind_ok_iff] at e
  obtain ⟨_, hl, st, hf, e⟩ := e
  have hl := require_inv hl
  have hm : ¬ t.isMatrix := by
    intro hm
    obtain ⟨d, hd⟩ : ∃ d, t.ndims = d + 1 := ⟨t.ndims - 1, by have := h.pos; omega⟩
    rw [hd, forRange, bind_ok_iff] at hf
    obtain ⟨s, hs, -⟩ := hf
    rw [ttSubscriptStep, h.pyCore h.pos, R.ok_bind, if_pos hm] at hs
    cases hs
  have key := forRange_returns (fun k st => (∀ i < k, spec.getD i .ellipsis ≠ .newaxis) ∨ ∃ r, st.2 = some r ∧ 3 ≤ r.shape.length) (a := 0) (n := t.ndims)
    (s := ([], none)) (r := st) (f := ttSubscriptStep t spec) ?_ (Or.inl fun i hi => absurd hi (by omega)) hf
  · rcases key with key | ⟨r, hr, h3⟩
    · obtain ⟨i, hi, he⟩ := List.getElem_of_mem hn
      exact key i (by omega) (by rw [List.getD_eq_getElem _ _ hi, he])
    · rw [hr] at e
      simp only [bind_ok_iff] at e
      obtain ⟨last, -, s, hs, -⟩ := e
      have := einsum_first_axes hs
      simp at this
      omega
  · intro k s s' _ hk hP hs
    have hk : k < t.ndims := by omega
    have hax := tensor_core_axes h hb hm hk
    simp only [ttSubscriptStep, h.pyCore hk, R.ok_bind, if_neg hm, pyGet_of_lt spec k .ellipsis (show k < spec.length by omega)] at hs
    rw [bind_ok_iff] at hs
    obtain ⟨sl, hsl, hs⟩ := hs
    have hsa := (getItems_axes hsl).1
    rw [hax] at hsa hs
    generalize hx : spec.getD k .ellipsis = x at *
    by_cases hxn : x = .newaxis
    · right
      rw [hxn] at hsa
      have h4 : sl.shape.length = 4 := hsa
      rw [if_pos (by omega)] at hs
      cases hr : s.2 with
      | none =>
        rw [hr] at hs
        cases hs
        exact ⟨sl, rfl, by omega⟩
      | some r =>
        rw [hr] at hs
        simp only [bind_ok_iff] at hs
        obtain ⟨r', hr', hs⟩ := hs
        cases hs
        exact ⟨r', rfl, by have := matmul_axes_le hr'; omega⟩
    · rcases hP with hP | ⟨r, hr, h3⟩
      · left
        intro i hi
        rcases Nat.lt_or_ge i k with h1 | h1
        · exact hP i h1
        · obtain rfl : i = k := by omega
          rwa [hx]
      · right
        rw [hr] at hs
        split_ifs at hs with hc
        · simp only [bind_ok_iff] at hs
          obtain ⟨r', hr', hs⟩ := hs
          cases hs
          exact ⟨r', rfl, by have := matmul_axes_le hr'; omega⟩
        · simp only [bind_ok_iff] at hs
          obtain ⟨y, hy, -⟩ := hs
          have := einsum_first_axes hy
          simp at this
          omega

/-! ## Batches: integers and slices -/

omit [CommRing K] in
theorem batchDimSubscript_ix (t : TT K) (i : Ix) : batchDimSubscript t (.ix i) = batchDimGetItem t i := by
  unfold batchDimSubscript batchDimGetItem
  have : ∀ core : Tensor K, (if t.isMatrix then getItems core [.ix i, .ix .all, .ix .all, .ix .all, .ix .all] else getItems core [.ix i, .ix .all, .ix .all, .ix .all]) =
      if t.isMatrix then getItem core [i, .all, .all, .all, .all] else getItem core [i, .all, .all, .all] := fun core => by
    congr 1
    · exact getItems_map core [i, .all, .all, .all, .all]
    · exact getItems_map core [i, .all, .all, .all]
  simp only [this, SubItem.collapses]
  rfl

theorem batchFullSubscript_ix (t : TT K) (b0 : Ix) (spec : List Ix) : batchFullSubscript t (.ix b0) (spec.map .ix) = batchFullGetItem t b0 spec := by
  unfold batchFullSubscript batchFullGetItem
  rw [List.length_map]
  have hstep : batchFullSubscriptStep t (.ix b0) (spec.map .ix) = batchFullGetItemStep t b0 spec := by
    funext i st
    unfold batchFullSubscriptStep batchFullGetItemStep
    have hp : pyGet (spec.map SubItem.ix) i = (pyGet spec i).map .ix := by
      unfold pyGet
      rw [List.getElem?_map]
      cases spec[i]? <;> rfl
    rw [hp]
    cases pyGet t.cores i with
    | error e => rfl
    | ok core =>
      rw [R.ok_bind, R.ok_bind]
      by_cases hm : t.isMatrix
      · rw [if_pos hm, if_pos hm]
      · rw [if_neg hm, if_neg hm]
        cases pyGet spec i with
        | error e => rfl
        | ok x =>
          change (getItems core ([b0, .all, x, .all].map .ix) >>= _) = (getItem core [b0, .all, x, .all] >>= _)
          rw [getItems_map]
          rfl
  rw [hstep]
  rfl

theorem batchSubscript_single (t : TT K) (i : Ix) : batchSubscript t (.single (.ix i)) = batchGetItem t i [] := by
  rw [batchSubscript, batchGetItem, if_pos rfl, batchDimSubscript_ix]

theorem batchSubscript_tuple (t : TT K) (b0 : Ix) {spec : List Ix} (h : spec ≠ []) : batchSubscript t (.tuple ((b0 :: spec).map .ix)) = batchGetItem t b0 spec := by
  cases spec with
  | nil => exact absurd rfl h
  | cons x spec =>
    rw [batchGetItem, if_neg h, ← batchFullSubscript_ix]
    simp only [List.map_cons, batchSubscript, List.length_cons, List.length_map]

/-! ## Batches: the constructor -/

theorem eqR_true {α : Type} [DecidableEq α] {a b : R α} (h : eqR a b = Except.ok true) : ∃ x, a = Except.ok x ∧ b = Except.ok x := by
  simp only [eqR, bind_ok_iff] at h
  obtain ⟨x, hx, y, hy, h⟩ := h
  have := Except.ok.inj h
  obtain rfl : x = y := by simpa using this
  exact ⟨x, hx, hy⟩

omit [CommRing K] in
/-- What the constructor of TT-objects checks about first and last axes. -/
theorem mkTT_axes {cores : List (Tensor K)} {shape : ShapeArg} {ranks : Option (List ℕ)} {T : TT K} (h : mkTT cores shape ranks = Except.ok T) :
    (∃ c, pyGet cores 0 = Except.ok c ∧ pyGet c.shape 0 = Except.ok 1) ∧
    (∀ i, 1 ≤ i → i < cores.length → ∃ c c' x, pyGet cores i = Except.ok c ∧ pyGet cores (i - 1) = Except.ok c' ∧ pyGet c.shape 0 = Except.ok x ∧ pyLast c'.shape = Except.ok x) ∧
    ∀ rk ∈ ranks, ∀ i < cores.length, ∃ c x, pyGet cores i = Except.ok c ∧ pyGet c.shape 0 = Except.ok x ∧ pyGet rk i = Except.ok x := by
  simp only [mkTT, bind_ok_iff] at h
  obtain ⟨sh, -, v, hv, h⟩ := h
  cases v with
  | false => cases h
  | true =>
    rw [coresValid, andR_true_iff, andR_true_iff, allRange_true_iff] at hv
    obtain ⟨hv, h0, -⟩ := hv
    have hmap : ∀ {i s}, pyGet (cores.map fun x => x.shape) i = Except.ok s → ∃ c, pyGet cores i = Except.ok c ∧ c.shape = s := by
      intro i s e
      unfold pyGet at e ⊢
      rw [List.getElem?_map] at e
      cases hc : cores[i]? with
      | none => rw [hc] at e; cases e
      | some c =>
        rw [hc] at e
        cases e
        exact ⟨c, rfl, rfl⟩
    refine ⟨?_, fun i h1 hi => ?_, fun rk hrk i hi => ?_⟩
    · obtain ⟨x, hx, h1⟩ := eqR_true h0
      obtain rfl : 1 = x := Except.ok.inj h1
      rw [bind_ok_iff] at hx
      obtain ⟨s, hs, hx⟩ := hx
      obtain ⟨c, hc, rfl⟩ := hmap hs
      exact ⟨c, hc, hx⟩
    · have hi := hv i (Nat.zero_le _) (by simpa using hi)
      simp only [coreCheck, bind_ok_iff] at hi
      obtain ⟨s, hs, f, -, hi⟩ := hi
      simp only [andR_true_iff, if_pos h1] at hi
      obtain ⟨-, -, -, hi, -⟩ := hi
      obtain ⟨x, hx, hi⟩ := eqR_true hi
      rw [bind_ok_iff] at hi
      obtain ⟨s', hs', hi⟩ := hi
      obtain ⟨c, hc, rfl⟩ := hmap hs
      obtain ⟨c', hc', rfl⟩ := hmap hs'
      exact ⟨c, c', x, hc, hc', hx, hi⟩
    · cases hrk
      have hi := hv i (Nat.zero_le _) (by simpa using hi)
      simp only [coreCheck, bind_ok_iff] at hi
      obtain ⟨s, hs, f, -, hi⟩ := hi
      simp only [andR_true_iff] at hi
      obtain ⟨-, -, -, -, hi, -⟩ := hi
      obtain ⟨x, hx, hx'⟩ := eqR_true hi
      obtain ⟨c, hc, rfl⟩ := hmap hs
      exact ⟨c, x, hc, hx, hx'⟩

/-! ## Batches: `...` and `None` -/

theorem batch_core_shape {t : TT K} (h : t.WF) {n : ℕ} (hb : t.batch = some n) {k : ℕ} (hk : k < t.ndims) :
    (t.core k).shape = n :: t.rank k :: (t.modes k ++ [t.rank (k + 1)]) := by
  rw [h.core_shape k hk, TT.bpre, hb]
  rfl

/-- The items for the modes of an accepted subscript that collapse an axis select a matrix in each core. -/
theorem batchFull_collapse {t : TT K} (h : t.WF) {b0 : SubItem} {spec : List SubItem} {T : TT K} (e : batchFullSubscript t b0 spec = Except.ok T) :
    ¬ t.isMatrix ∧ spec.length = t.ndims ∧ ∀ k < t.ndims, (spec.getD k .newaxis).collapses = true →
      ∃ s, getItems (t.core k) [b0, .ix .all, spec.getD k .newaxis, .ix .all] = Except.ok s ∧ s.shape.length = if b0.collapses then 2 else 3 := by
  simp only [batchFullSubscript, bind_ok_iff] at e
  obtain ⟨_, hl, st, hf, hc⟩ := e
  have hl : spec.length = t.ndims := by have := require_inv hl; omega
  have hm : ¬ t.isMatrix := by
    intro hm
    obtain ⟨d, hd⟩ : ∃ d, t.ndims = d + 1 := ⟨t.ndims - 1, by have := h.pos; omega⟩
    rw [hd, forRange, bind_ok_iff] at hf
    obtain ⟨s, hs, -⟩ := hf
    rw [batchFullSubscriptStep, h.pyCore h.pos, R.ok_bind, if_pos hm] at hs
    cases hs
  refine ⟨hm, hl, ?_⟩
  have key := forRange_returns (fun k st => (∀ i < k, (spec.getD i .newaxis).collapses = true →
      ∃ s, getItems (t.core i) [b0, .ix .all, spec.getD i .newaxis, .ix .all] = Except.ok s ∧ s.shape.length = if b0.collapses then 2 else 3) ∨
      ∃ r, st.2 = some r ∧ r.shape.length ≠ if b0.collapses then 2 else 3) (a := 0) (n := t.ndims)
    (s := ([], none)) (r := st) (f := batchFullSubscriptStep t b0 spec) ?_ (Or.inl fun i hi => absurd hi (by omega)) hf
  · rcases key with key | ⟨r, hr, h3⟩
    · exact fun k hk => key k (by omega)
    · rw [hr] at hc
      simp only [bind_ok_iff] at hc
      obtain ⟨last, -, hc⟩ := hc
      split_ifs at hc h3
      all_goals
        rw [bind_ok_iff] at hc
        obtain ⟨s, hs, -⟩ := hc
        have := einsum_first_axes hs
        simp at this
        omega
  · intro k s s' _ hk hP hs
    have hk : k < t.ndims := by omega
    simp only [batchFullSubscriptStep, h.pyCore hk, R.ok_bind, if_neg hm, pyGet_of_lt spec k .newaxis (show k < spec.length by omega)] at hs
    rw [bind_ok_iff] at hs
    obtain ⟨sl, hsl, hs⟩ := hs
    rcases hP with hP | ⟨r, hr, h3⟩
    · by_cases hcol : (spec.getD k .newaxis).collapses = true
      · rw [if_pos hcol] at hs
        by_cases hax : sl.shape.length = if b0.collapses then 2 else 3
        · left
          intro i hi hci
          rcases Nat.lt_or_ge i k with h1 | h1
          · exact hP i h1 hci
          · obtain rfl : i = k := by omega
            exact ⟨sl, hsl, hax⟩
        · right
          cases hr : s.2 with
          | none =>
            rw [hr] at hs
            cases hs
            exact ⟨sl, rfl, hax⟩
          | some r =>
            rw [hr] at hs
            exfalso
            dsimp only at hs
            split_ifs at hs hax
            all_goals
              rw [bind_ok_iff] at hs
              obtain ⟨r', hr', -⟩ := hs
              have := einsum_first_axes hr'
              simp at this
              omega
      · left
        intro i hi hci
        rcases Nat.lt_or_ge i k with h1 | h1
        · exact hP i h1 hci
        · obtain rfl : i = k := by omega
          exact absurd hci hcol
    · exfalso
      rw [hr] at hs
      by_cases hcol : (spec.getD k .newaxis).collapses = true
      · rw [if_pos hcol] at hs
        dsimp only at hs
        split_ifs at hs h3
        all_goals
          rw [bind_ok_iff] at hs
          obtain ⟨r', hr', -⟩ := hs
          have := einsum_first_axes hr'
          simp at this
          omega
      · rw [if_neg hcol] at hs
        dsimp only at hs
        split_ifs at hs h3
        all_goals
          rw [bind_ok_iff] at hs
          obtain ⟨r', hr', -⟩ := hs
          have := einsum_first_axes hr'
          simp at this
          omega

/-- The items for the modes of an accepted subscript are integers and slices, and only slices if the first item is `...` or `None`. -/
theorem batchFull_items {t : TT K} (h : t.WF) {n : ℕ} (hb : t.batch = some n) {b0 : SubItem} {spec : List SubItem} {T : TT K}
    (e : batchFullSubscript t b0 spec = Except.ok T) {k : ℕ} (hk : k < t.ndims) :
    ∃ i, spec.getD k .newaxis = .ix i ∧ ((∀ j, b0 ≠ .ix j) → doCollapseDim i = false) := by
  obtain ⟨hm, hl, hc⟩ := batchFull_collapse h e
  have hax : (t.core k).shape.length = 4 := by
    rw [batch_core_shape h hb hk]
    have := h.rows.resolve_right hm
    simp [TT.modes, this]
  have hc := hc k hk
  generalize spec.getD k .newaxis = x at hc
  have hcontra : ∀ s, getItems (t.core k) [b0, .ix .all, x, .ix .all] = Except.ok s → (s.shape.length = if b0.collapses then 2 else 3) →
      ¬ ((∀ i, x ≠ .ix i) ∨ (∀ j, b0 ≠ .ix j) ∧ x.collapses = true) := by
    intro s hs hsl
    obtain ⟨h1, h2⟩ := getItems_axes hs
    rw [hax] at h1
    rcases b0 with ⟨_ | _ | _⟩ | _ | _ <;> rcases x with ⟨_ | _ | _⟩ | _ | _ <;>
      simp [SubItem.collapses, doCollapseDim, intCount, SubItem.axes, List.filter_cons] at hsl h1 h2 ⊢ <;> omega
  cases x with
  | ix i =>
    refine ⟨i, rfl, fun hb0 => ?_⟩
    by_contra hi
    have hi : doCollapseDim i = true := by simpa using hi
    obtain ⟨s, hs, hsl⟩ := hc hi
    exact hcontra s hs hsl (Or.inr ⟨hb0, hi⟩)
  | ellipsis =>
    obtain ⟨s, hs, hsl⟩ := hc rfl
    exact absurd (Or.inl fun i => by simp) (hcontra s hs hsl)
  | newaxis =>
    obtain ⟨s, hs, hsl⟩ := hc rfl
    exact absurd (Or.inl fun i => by simp) (hcontra s hs hsl)

end T3f
