import Verif.Proofs.Static

/-!
# Static shapes: the operations
-/

namespace T3f

variable {K : Type}

namespace Static

theorem allKnown_eq : ∀ {l : List (Option ℕ)} {l' r : List ℕ}, List.Forall₂ Knows l l' → allKnown l = some r → r = l'
  | _, _, r, .nil, h => by
    have : some [] = some r := h
    cases this; rfl
  | _, _, r, .cons (a := a) (l₁ := l₁) hk t, h => by
    rw [allKnown, List.mapM_cons] at h
    rcases hk with rfl | rfl
    · simp at h
    · cases e : l₁.mapM id with
      | none => rw [e] at h; simp at h
      | some q =>
        rw [e] at h
        have hq := allKnown_eq t e
        have h2 : some (_ :: q) = some r := h
        cases h2; rw [hq]

theorem allKnown_of : ∀ {l : List (Option ℕ)} {l' : List ℕ}, List.Forall₂ Knows l l' → none ∉ l → allKnown l = some l'
  | _, _, .nil, _ => rfl
  | _, _, .cons hk t, h => by
    rcases hk with rfl | rfl
    · simp at h
    · have := allKnown_of t (fun hc => h (List.mem_cons_of_mem _ hc))
      rw [allKnown, List.mapM_cons]
      rw [allKnown] at this
      rw [this]; rfl

theorem eq_map_some : ∀ {l : List (Option ℕ)} {l' : List ℕ}, List.Forall₂ Knows l l' → none ∉ l → l = l'.map some
  | _, _, .nil, _ => rfl
  | _, _, .cons hk t, h => by
    rcases hk with rfl | rfl
    · simp at h
    · rw [List.map_cons, ← eq_map_some t (fun hc => h (List.mem_cons_of_mem _ hc))]

theorem rowsKnown_eq : ∀ {l : List (List (Option ℕ))} {l' r : List (List ℕ)}, List.Forall₂ (List.Forall₂ Knows) l l' →
    l.mapM allKnown = some r → r = l'
  | _, _, r, .nil, h => by
    have : some [] = some r := h
    cases this; rfl
  | _, _, r, .cons (a := a) (l₁ := l₁) hk t, h => by
    rw [List.mapM_cons] at h
    cases e1 : allKnown a with
    | none => rw [e1] at h; simp at h
    | some q1 =>
      cases e : l₁.mapM allKnown with
      | none => rw [e, e1] at h; simp at h
      | some q =>
        rw [e, e1] at h
        have hq := rowsKnown_eq t e
        have hq1 := allKnown_eq hk e1
        have : q1 :: q = r := by simpa using h
        rw [← this, hq, hq1]

theorem foldl_known (l : List ℕ) (a : ℕ) : (l.map some).foldlM mulPy (some a) = Except.ok (some (a * l.prod)) := by
  induction l generalizing a with
  | nil => simp
  | cons x l ih =>
    rw [List.map_cons, List.foldlM_cons]
    show (Except.ok (some (a * x)) >>= _) = _
    rw [R.ok_bind, ih, List.prod_cons, mul_assoc]

theorem foldl_none (l : List (Option ℕ)) (hl : l ≠ []) : l.foldlM mulPy none = Except.error Err.type := by
  cases l with
  | nil => exact absurd rfl hl
  | cons x l => rfl

theorem foldl_unknown (l : List (Option ℕ)) (a : Option ℕ) (h : none ∈ l) : l.foldlM mulPy a = Except.error Err.type := by
  induction l generalizing a with
  | nil => simp at h
  | cons x l ih =>
    rw [List.foldlM_cons]
    cases a with
    | none => rfl
    | some a =>
      cases x with
      | none => rfl
      | some x =>
        show (Except.ok (some (a * x)) >>= _) = _
        rw [R.ok_bind]
        exact ih _ (by simpa using h)

theorem prodPy_known (l : List ℕ) (h : l ≠ []) : prodPy (l.map some) = Except.ok (some l.prod) := by
  cases l with
  | nil => exact absurd rfl h
  | cons x l => rw [List.map_cons, prodPy, foldl_known, List.prod_cons]

theorem prodPy_unknown (l : List (Option ℕ)) (h : none ∈ l) (h2 : 2 ≤ l.length) : prodPy l = Except.error Err.type := by
  cases l with
  | nil => simp at h
  | cons x l =>
    rw [prodPy]
    rcases List.mem_cons.mp h with h | h
    · subst h
      exact foldl_none _ (by intro hc; subst hc; simp at h2)
    · exact foldl_unknown _ _ h

theorem prodPy_single (l : List (Option ℕ)) (h : l.length = 1) : ∃ x, prodPy l = Except.ok x := by
  obtain ⟨x, rfl⟩ := List.length_eq_one_iff.mp h
  exact ⟨x, rfl⟩

section Is

variable [Zero K] {s : Sym K} {t : TT K}

theorem Is.get_val (h : s.Is t) {k : ℕ} (hk : k < t.ndims) : pyGet s.vals k = Except.ok (t.core k) := by
  rw [Sym.vals, h.vals, pyGet_of_lt _ _ default hk]; rfl

theorem Is.dynRanks (h : s.Is t) : s.dynRanks = Except.ok t.ttRanks := by
  have hp := h.wf.pos
  have e0 : s.leftDim = t.bpre.length := by rw [Sym.leftDim, bpre_len, h.batch]
  have e1 : (mapRange s.ndims fun i => do
      let c ← pyGet s.vals i
      pyGet c.shape s.leftDim) = Except.ok ((List.range t.ndims).map t.rank) := by
    rw [Sym.ndims, Is.len h]
    apply mapRange_eq
    intro k hk
    rw [Is.get_val h hk, R.ok_bind, h.wf.core_shape k hk, e0]
    exact pyGet_some (by simp)
  have e2 : pyLast s.vals = Except.ok (t.core (t.ndims - 1)) := by
    have hp' : 0 < t.cores.length := hp
    rw [Sym.vals, h.vals, pyLast, List.getLast?_eq_getElem?, List.getElem?_eq_getElem (by omega)]
    exact congrArg Except.ok (List.getD_eq_getElem t.cores default (n := t.cores.length - 1) (by omega)).symm
  have e3 : pyLast (t.core (t.ndims - 1)).shape = Except.ok (t.rank t.ndims) := by
    rw [h.wf.core_shape _ (by omega), show t.ndims - 1 + 1 = t.ndims by omega,
      show ∀ a b : List ℕ, ∀ x y : ℕ, a ++ x :: (b ++ [y]) = (a ++ x :: b) ++ [y] by intros; simp, pyLast_append]
  unfold Sym.dynRanks
  rw [e1]
  simp only [R.ok_bind, e2, e3, R.pure_eq]
  rw [h.wf.ranks_eq, ranksOf, List.range_succ, List.map_append]; rfl

theorem Is.lazyRanks (h : s.Is t) : s.lazyRanks = Except.ok t.ttRanks := by
  unfold Sym.lazyRanks
  cases e : allKnown s.ttRanks with
  | none => exact Is.dynRanks h
  | some r => simp only [allKnown_eq h.ranks e]; rfl

theorem Is.dynRawShape (h : s.Is t) : s.dynRawShape = Except.ok t.rawShape := by
  have e0 : s.leftDim = t.bpre.length := by rw [Sym.leftDim, bpre_len, h.batch]
  unfold Sym.dynRawShape
  rw [Is.rows_len h, Sym.ndims, Is.len h]
  conv_rhs => rw [h.wf.rows_eq, rowsOf]
  apply mapRange_eq
  intro ax hax
  apply mapRange_eq
  intro k hk
  rw [Is.get_val h hk, R.ok_bind, h.wf.core_shape k hk, e0]
  have hl : ax < (t.modes k).length := by simpa [TT.modes] using hax
  apply pyGet_some
  rw [List.getElem?_append_right (by omega), show ax + 1 + t.bpre.length - t.bpre.length = ax + 1 by omega, List.getElem?_cons_succ,
    List.getElem?_append_left hl, List.getElem?_eq_getElem hl, List.getD_eq_getElem _ _ hl]

theorem Is.isMatrix (h : s.Is t) : s.isMatrix ↔ t.isMatrix := by rw [Sym.isMatrix, TT.isMatrix, Is.rows_len h]

theorem Is.run_of_shape (h : s.Is t) {sh : List (Option ℕ)} (e : s.getShape = Except.ok sh) : s.run = Except.ok t := by
  have e2 : s.lazyRawShape = Except.ok t.rawShape := by
    unfold Sym.lazyRawShape
    rw [e, R.ok_bind]
    split
    · rename_i rows _ hr
      rw [rowsKnown_eq h.rows hr]; rfl
    · exact Is.dynRawShape h
  unfold Sym.run
  rw [Is.lazyRanks h, R.ok_bind, e2, R.ok_bind, Sym.vals, h.vals, h.batch]; rfl

theorem Is.get_row (h : s.Is t) {j : ℕ} (hj : j < s.rawShape.length) : pyGet s.rawShape j = Except.ok (s.rawShape.getD j []) ∧
    s.rawShape.getD j [] ∈ s.rawShape ∧ (s.rawShape.getD j []).length = t.ndims := by
  have : s.rawShape.getD j [] = s.rawShape[j] := List.getD_eq_getElem _ _ hj
  rw [this]
  exact ⟨pyGet_some (List.getElem?_eq_getElem hj), List.getElem_mem hj, Is.row_len h (List.getElem_mem hj)⟩

/-- The sizes that the code uses are right whenever `get_shape` does not raise. -/
theorem Is.run_ok (h : s.Is t) (hm : s.KnownModes ∨ ¬ s.isMatrix ∨ t.ndims = 1) : s.run = Except.ok t := by
  have key : ∃ base, s.baseShape = Except.ok base := by
    unfold Sym.baseShape
    by_cases hM : s.isMatrix
    · rw [if_pos hM]
      obtain ⟨e0, m0, l0⟩ := Is.get_row h (j := 0) (by rw [hM]; omega)
      obtain ⟨e1, m1, l1⟩ := Is.get_row h (j := 1) (by rw [hM]; omega)
      have hrow : ∀ j, s.rawShape.getD j [] ∈ s.rawShape → (s.rawShape.getD j []).length = t.ndims →
          ∃ x, prodPy (s.rawShape.getD j []) = Except.ok x := by
        intro j hj hl
        rcases hm with hm | hm | hm
        · rw [eq_map_some (forall₂_getD_list h.rows j) (hm _ hj)]
          refine ⟨_, prodPy_known _ ?_⟩
          intro hc
          have := (forall₂_getD_list h.rows j).length_eq
          rw [hc, hl] at this
          have := h.wf.pos
          simp at *; omega
        · exact absurd hM hm
        · exact prodPy_single _ (by omega)
      obtain ⟨x, ex⟩ := hrow 0 m0 l0
      obtain ⟨y, ey⟩ := hrow 1 m1 l1
      refine ⟨[x, y], ?_⟩
      simp only [e0, e1, R.ok_bind, ex, ey]; rfl
    · rw [if_neg hM]
      have : 0 < s.rawShape.length := by
        have := h.wf.rows; rw [Is.rows_len h]; omega
      exact ⟨_, (Is.get_row h this).1⟩
  obtain ⟨base, hb⟩ := key
  have : ∃ sh, s.getShape = Except.ok sh := by
    unfold Sym.getShape
    rw [hb, R.ok_bind]
    exact ⟨_, rfl⟩
  obtain ⟨sh, e⟩ := this
  exact Is.run_of_shape h e

/-- For a TT-matrix with at least two cores `get_shape` raises if a mode size is unknown. -/
theorem Is.run_error (h : s.Is t) (hu : ¬ s.KnownModes) (hM : s.isMatrix) (hd : 2 ≤ t.ndims) : s.run = Except.error Err.type := by
  have e : s.getShape = Except.error Err.type := by
    unfold Sym.getShape Sym.baseShape
    rw [if_pos hM]
    obtain ⟨e0, m0, l0⟩ := Is.get_row h (j := 0) (by rw [hM]; omega)
    obtain ⟨e1, m1, l1⟩ := Is.get_row h (j := 1) (by rw [hM]; omega)
    simp only [e0, e1, R.ok_bind]
    by_cases h0 : none ∈ s.rawShape.getD 0 []
    · rw [prodPy_unknown _ h0 (by omega)]; rfl
    · have h1 : none ∈ s.rawShape.getD 1 [] := by
        by_contra hc
        apply hu
        intro row hr
        obtain ⟨j, hj, rfl⟩ := List.getElem_of_mem hr
        have hj2 : j < 2 := by have : s.rawShape.length = 2 := hM; omega
        rw [← List.getD_eq_getElem _ [] hj]
        interval_cases j
        · exact h0
        · exact hc
      have hne : ∃ x, prodPy (s.rawShape.getD 0 []) = Except.ok x := by
        rw [eq_map_some (forall₂_getD_list h.rows 0) h0]
        refine ⟨_, prodPy_known _ ?_⟩
        intro hc
        have := (forall₂_getD_list h.rows 0).length_eq
        rw [hc, l0] at this
        simp at this; omega
      obtain ⟨x, ex⟩ := hne
      rw [ex, R.ok_bind, prodPy_unknown _ h1 (by omega)]; rfl
  unfold Sym.run Sym.lazyRawShape
  rw [Is.lazyRanks h, R.ok_bind, e]; rfl

/-- An object with known sizes. -/
theorem known_is (h : t.WF) : (knownSym t).Is t := by
  have hk : ∀ l : List ℕ, List.Forall₂ Knows (l.map some) l := by
    intro l
    induction l with
    | nil => exact .nil
    | cons a l ih => exact .cons (Or.inr rfl) ih
  have hd : ∀ (l : List ℕ) (k : ℕ), k < l.length → (l.map some).getD k none = some (l.getD k 0) := by
    intro l k hk
    rw [List.getD_eq_getElem _ _ (by simpa using hk), List.getD_eq_getElem _ _ hk, List.getElem_map]
  refine ⟨h, ?_, rfl, hk _, ?_, ?_, ?_, ?_⟩
  · rw [knownSym, List.map_map]; simp [Function.comp_def]
  · show List.Forall₂ _ (t.rawShape.map _) _
    generalize t.rawShape = l
    induction l with
    | nil => exact .nil
    | cons a l ih => exact .cons (hk a) ih
  · intro k hk'
    have hk2 : k < t.ndims := by simpa [knownSym, TT.ndims] using hk'
    refine ⟨t.bpre.map some, hk _, ?_⟩
    show ((t.cores.map _)[k]?).map _ = some (t.bpre.map some ++ (t.ttRanks.map some).getD k none :: (((t.rawShape.map (·.map some)).map (·.getD k none)) ++ [(t.ttRanks.map some).getD (k + 1) none]))
    have hl := h.ranks_len
    rw [hd _ _ (by omega), hd _ _ (by omega), List.getElem?_map, List.getElem?_eq_getElem hk2]
    have hc := h.core_shape k hk2
    have hc' : t.core k = t.cores[k] := List.getD_eq_getElem _ _ hk2
    rw [hc'] at hc
    simp only [Option.map_some, hc, List.map_append, List.map_cons, List.map_nil, TT.modes, List.map_map]
    congr 1; congr 1; congr 1; congr 1
    apply List.map_congr_left
    intro row hr
    exact (hd row k (by rw [h.rows_len _ hr]; exact hk2)).symm
  · show (t.ttRanks.map some).getD 0 none = _
    rw [hd _ _ (by rw [h.ranks_len]; omega)]
    exact congrArg some h.rank_first
  · show (t.ttRanks.map some).getD (t.cores.map _).length none = _
    rw [List.length_map, hd _ _ (by rw [h.ranks_len, TT.ndims]; omega)]
    exact congrArg some h.rank_last

omit [Zero K] in
theorem known_modes (t : TT K) : (knownSym t).KnownModes := by
  intro row hr hc
  simp only [knownSym, List.mem_map] at hr
  obtain ⟨r, -, rfl⟩ := hr
  simp at hc

omit [Zero K] in
theorem known_ranks (t : TT K) : (knownSym t).KnownRanks := by
  intro hc; simp [knownSym] at hc

end Is

end Static

end T3f
