import Verif.Spec.Static
import Verif.Proofs.Variables
import Verif.Proofs.Typed

/-!
# Static shapes: the constructor and the `lazy_*` functions
-/

namespace T3f

variable {K : Type}

namespace Static

theorem andR_ok (x y : Bool) : andR (Except.ok x : R Bool) (Except.ok y) = Except.ok (x && y) := by
  cases x <;> rfl

theorem allRange_ok {f : ℕ → R Bool} {p : ℕ → Bool} {a n : ℕ} (h : ∀ i, a ≤ i → i < a + n → f i = Except.ok (p i)) :
    ∃ v, allRange f a n = Except.ok v ∧ (v = true ↔ ∀ i, a ≤ i → i < a + n → p i = true) := by
  induction n generalizing a with
  | zero => exact ⟨true, rfl, by simp; omega⟩
  | succ n ih =>
    obtain ⟨v, e, hv⟩ := ih (a := a + 1) (fun i h1 h2 => h i (by omega) (by omega))
    refine ⟨p a && v, ?_, ?_⟩
    · rw [allRange, h a le_rfl (by omega), e, andR_ok]
    · rw [Bool.and_eq_true, hv]
      constructor
      · rintro ⟨h1, h2⟩ i hi hi'
        rcases Nat.eq_or_lt_of_le hi with h | h
        · subst h; exact h1
        · exact h2 i h (by omega)
      · intro h
        exact ⟨h a le_rfl (by omega), fun i hi hi' => h i (by omega) (by omega)⟩

theorem pyGet_some {α : Type} {l : List α} {i : ℕ} {a : α} (h : l[i]? = some a) : pyGet l i = Except.ok a := by
  rw [pyGet, h]

theorem pyLast_append {α : Type} (l : List α) (a : α) : pyLast (l ++ [a]) = Except.ok a := by
  rw [pyLast, List.getLast?_append]; rfl

/-- The shape of a core: leading axes, left rank, modes, right rank. -/
abbrev shp (b : List (Option ℕ)) (l : Option ℕ) (m : List (Option ℕ)) (r : Option ℕ) : List (Option ℕ) := b ++ l :: (m ++ [r])

theorem shp_left (b : List (Option ℕ)) (l m r) : pyGet (shp b l m r) b.length = Except.ok l := by
  apply pyGet_some; simp

theorem shp_right (b : List (Option ℕ)) (l m r) : pyLast (shp b l m r) = Except.ok r := by
  have : shp b l m r = (b ++ l :: m) ++ [r] := by simp
  rw [this, pyLast_append]

theorem shp_mode (b : List (Option ℕ)) (l m r) {j : ℕ} (h : j < m.length) :
    pyGet (shp b l m r) (j + 1 + b.length) = Except.ok (m.getD j none) := by
  apply pyGet_some
  rw [List.getElem?_append_right (by omega), show j + 1 + b.length - b.length = j + 1 by omega, List.getElem?_cons_succ,
    List.getElem?_append_left h, List.getElem?_eq_getElem h, List.getD_eq_getElem _ _ h]

theorem shp_length (b : List (Option ℕ)) (l m r) : (shp b l m r).length = b.length + m.length + 2 := by
  simp; omega

theorem knows_iff {o : Option ℕ} {n : ℕ} : Knows o n ↔ ∀ m, o = some m → m = n := by
  cases o <;> simp [Knows]

/-- Cores whose static shapes have the right form. -/
structure Shaped (o nm : ℕ) (shapes : List (List (Option ℕ))) (b : ℕ → List (Option ℕ)) (l : ℕ → Option ℕ)
    (m : ℕ → List (Option ℕ)) (r : ℕ → Option ℕ) : Prop where
  pos : 0 < shapes.length
  eq : ∀ k < shapes.length, shapes[k]? = some (shp (b k) (l k) (m k) (r k))
  blen : ∀ k < shapes.length, (b k).length = o
  mlen : ∀ k < shapes.length, (m k).length = nm

variable {o nm : ℕ} {shapes : List (List (Option ℕ))} {b : ℕ → List (Option ℕ)} {l : ℕ → Option ℕ} {m : ℕ → List (Option ℕ)} {r : ℕ → Option ℕ}

theorem Shaped.get (h : Shaped o nm shapes b l m r) {k : ℕ} (hk : k < shapes.length) :
    pyGet shapes k = Except.ok (shp (b k) (l k) (m k) (r k)) := pyGet_some (h.eq k hk)

theorem Shaped.getLast (h : Shaped o nm shapes b l m r) :
    pyLast shapes = Except.ok (shp (b (shapes.length - 1)) (l (shapes.length - 1)) (m (shapes.length - 1)) (r (shapes.length - 1))) := by
  have hp := h.pos
  rw [pyLast, List.getLast?_eq_getElem?, h.eq _ (by omega)]

/-- The batch sizes are unknown or right. -/
def BatchOk (bs : Option ℕ) (n : ℕ) (b : ℕ → List (Option ℕ)) : Prop :=
  ∀ x ∈ bs, ∀ k < n, ∃ y, (b k)[0]? = some y ∧ (y = none ∨ y = some x)

theorem batchR_ok {n : ℕ} {bs : Option ℕ} (hb : BatchOk bs n b) {i : ℕ} (hi : i < n) :
    batchR bs (shp (b i) (l i) (m i) (r i)) = Except.ok true := by
  cases bs with
  | none => rfl
  | some n =>
    obtain ⟨x, e, hx⟩ := hb n rfl i hi
    have hl : (b i)[0]? = some x := e
    have : (shp (b i) (l i) (m i) (r i))[0]? = some x := by
      rw [List.getElem?_append_left]
      · exact hl
      · by_contra hc
        rw [List.getElem?_eq_none (by omega)] at hl; cases hl
    simp only [batchR, pyGet_some this, laxR, R.ok_bind, R.pure_eq]
    rcases hx with rfl | rfl <;> simp

/-- The loop body, if shape and ranks are omitted or fit. -/
theorem coreCheckS_eq (h : Shaped o nm shapes b l m r) {bs : Option ℕ} (hb : BatchOk bs shapes.length b) {shape ranks}
    {i : ℕ} (hi : i < shapes.length) (hs : shapeR o shape (shp (b i) (l i) (m i) (r i)) i = Except.ok true)
    (hr : ranksR o ranks (shp (b i) (l i) (m i) (r i)) i = Except.ok true) :
    coreCheckS o bs shapes shape ranks i = Except.ok (decide (1 ≤ i → l i = r (i - 1))) := by
  have h0 := h.pos
  unfold coreCheckS
  simp only [h.get hi, h.get h0, R.ok_bind, shp_length, h.blen i hi, h.blen 0 h0, h.mlen i hi, h.mlen 0 h0, R.pure_eq, decide_true,
    batchR_ok hb hi, hs, hr]
  by_cases hi1 : 1 ≤ i
  · have e2 : pyGet (shp (b i) (l i) (m i) (r i)) o = Except.ok (l i) := by rw [← h.blen i hi]; exact shp_left _ _ _ _
    simp only [hi1, if_true, h.get (show i - 1 < shapes.length by omega), R.ok_bind, e2, shp_right, eqR_ok, andR_ok, true_imp_iff,
      Bool.and_true, Bool.true_and]
  · simp only [hi1, if_false, andR_ok, false_imp_iff]; rfl

theorem coresValidS_eq (h : Shaped o nm shapes b l m r) {bs : Option ℕ} (hb : BatchOk bs shapes.length b) {shape ranks}
    (hs : ∀ i < shapes.length, shapeR o shape (shp (b i) (l i) (m i) (r i)) i = Except.ok true)
    (hr : ∀ i < shapes.length, ranksR o ranks (shp (b i) (l i) (m i) (r i)) i = Except.ok true) :
    ∃ v, coresValidS o bs shapes shape ranks = Except.ok v ∧
      (v = true ↔ (∀ k, k + 1 < shapes.length → l (k + 1) = r k) ∧ l 0 = some 1 ∧ r (shapes.length - 1) = some 1) := by
  have h0 := h.pos
  obtain ⟨v, e, hv⟩ := allRange_ok (f := coreCheckS o bs shapes shape ranks) (a := 0) (n := shapes.length)
    (fun i _ hi => coreCheckS_eq h hb (by omega) (hs i (by omega)) (hr i (by omega)))
  have e2 : pyGet (shp (b 0) (l 0) (m 0) (r 0)) o = Except.ok (l 0) := by rw [← h.blen 0 h0]; exact shp_left _ _ _ _
  refine ⟨v && (decide (l 0 = some 1) && decide (r (shapes.length - 1) = some 1)), ?_, ?_⟩
  · unfold coresValidS
    simp only [e, h.get h0, h.getLast, R.ok_bind, e2, shp_right, R.pure_eq, eqR_ok, andR_ok]
  · simp only [Bool.and_eq_true, hv, decide_eq_true_eq]
    refine and_congr_left fun _ => ⟨fun H k hk => ?_, fun H i _ hi h1 => ?_⟩
    · simpa using H (k + 1) (by omega) (by omega) (by omega)
    · have := H (i - 1) (by omega)
      rwa [show i - 1 + 1 = i by omega] at this

theorem forall₂_getD {R : Option ℕ → ℕ → Prop} : ∀ {l : List (Option ℕ)} {l' : List ℕ}, List.Forall₂ R l l' → ∀ k < l'.length, R (l.getD k none) (l'.getD k 0)
  | _, _, .nil, k, h => by simp at h
  | _, _, .cons h _, 0, _ => h
  | _, _, .cons _ t, k + 1, hk => by
    simpa using forall₂_getD t k (by simpa using hk)

theorem forall₂_getD_list : ∀ {l : List (List (Option ℕ))} {l' : List (List ℕ)}, List.Forall₂ (List.Forall₂ Knows) l l' →
    ∀ k, List.Forall₂ Knows (l.getD k []) (l'.getD k [])
  | _, _, .nil, k => by simp
  | _, _, .cons h _, 0 => h
  | _, _, .cons _ t, k + 1 => by simpa using forall₂_getD_list t k

section Is

variable [Zero K] {s : Sym K} {t : TT K}

theorem Is.len (h : s.Is t) : s.cores.length = t.ndims := by
  rw [TT.ndims, ← h.vals, List.length_map]

theorem Is.rows_len (h : s.Is t) : s.rawShape.length = t.rawShape.length := h.rows.length_eq

theorem Is.row_len (h : s.Is t) {row : List (Option ℕ)} (hr : row ∈ s.rawShape) : row.length = t.ndims := by
  obtain ⟨j, hj, rfl⟩ := List.getElem_of_mem hr
  have := (forall₂_getD_list h.rows j).length_eq
  have hj' : j < t.rawShape.length := Is.rows_len h ▸ hj
  rw [List.getD_eq_getElem _ _ hj, List.getD_eq_getElem _ _ hj'] at this
  rw [this]
  exact h.wf.rows_len _ (List.getElem_mem hj')

/-- The position of the left rank. -/
abbrev off (bs : Option ℕ) : ℕ := if bs.isSome then 1 else 0

omit [Zero K] in
theorem bpre_len (t : TT K) : t.bpre.length = off t.batch := by
  rw [TT.bpre]; cases t.batch <;> rfl

/-- The leading axes of the cores. -/
theorem Is.shaped (h : s.Is t) : ∃ b, Shaped (off s.batch) s.rawShape.length (s.cores.map (·.sh)) b (fun k => s.ttRanks.getD k none)
    (fun k => s.rawShape.map (·.getD k none)) (fun k => s.ttRanks.getD (k + 1) none) ∧ BatchOk s.batch (s.cores.map (·.sh)).length b ∧
    ∀ k < s.cores.length, List.Forall₂ Knows (b k) t.bpre := by
  classical
  have H := h.cores
  choose! b hb using H
  refine ⟨b, ⟨?_, ?_, ?_, ?_⟩, ?_, fun k hk => (hb k hk).1⟩
  · rw [List.length_map, Is.len h]; exact h.wf.pos
  · intro k hk
    rw [List.length_map] at hk
    have := (hb k hk).2
    rw [List.getElem?_map]
    exact this
  · intro k hk
    rw [List.length_map] at hk
    rw [(hb k hk).1.length_eq, bpre_len, h.batch]
  · intro k _; simp
  · intro x hx k hk
    rw [List.length_map] at hk
    have h1 := (hb k hk).1
    have hx' : t.batch = some x := by rw [← h.batch]; exact hx
    rw [TT.bpre, hx'] at h1
    generalize hg : b k = bk at h1 ⊢
    obtain ⟨y, ys, hy, hys, rfl⟩ := List.forall₂_cons_right_iff.mp h1
    exact ⟨y, rfl, hy⟩

theorem shapeR_ok {o n i : ℕ} {b : List (Option ℕ)} {l r : Option ℕ} {rows : List (List (Option ℕ))} (hb : b.length = o)
    (hrow : ∀ row ∈ rows, row.length = n) (hi : i < n) :
    shapeR o (some rows) (shp b l (rows.map (·.getD i none)) r) i = Except.ok true := by
  simp only [shapeR]
  rw [allRange_true_iff]
  intro j _ hj
  have hj' : j < rows.length := by omega
  have e1 : pyGet (shp b l (rows.map (·.getD i none)) r) (j + 1 + o) = Except.ok ((rows.map (·.getD i none)).getD j none) := by
    rw [← hb]; exact shp_mode _ _ _ _ (by simpa using hj')
  have e2 : pyGet rows j = Except.ok rows[j] := pyGet_some (List.getElem?_eq_getElem hj')
  have hl : i < rows[j].length := by rw [hrow _ (List.getElem_mem hj')]; exact hi
  have e3 : pyGet rows[j] i = Except.ok (rows[j].getD i none) := pyGet_some (by rw [List.getElem?_eq_getElem hl, List.getD_eq_getElem _ _ hl])
  have e4 : (rows.map (·.getD i none)).getD j none = rows[j].getD i none := by
    rw [List.getD_eq_getElem _ _ (by simpa using hj'), List.getElem_map]
  rw [e1, e2, R.ok_bind, e3, e4, modeR]
  split
  · rw [eqR_ok]; simp
  · simp [laxR]

theorem ranksR_ok {o i : ℕ} {b m : List (Option ℕ)} {rk : List (Option ℕ)} (hb : b.length = o) (hi : i + 1 < rk.length) :
    ranksR o (some rk) (shp b (rk.getD i none) m (rk.getD (i + 1) none)) i = Except.ok true := by
  have e1 : pyGet (shp b (rk.getD i none) m (rk.getD (i + 1) none)) o = Except.ok (rk.getD i none) := by rw [← hb]; exact shp_left _ _ _ _
  have e2 : ∀ k < rk.length, pyGet rk k = Except.ok (rk.getD k none) := fun k hk => pyGet_some (by rw [List.getElem?_eq_getElem hk, List.getD_eq_getElem _ _ hk])
  simp only [ranksR, e1, shp_right, e2 i (by omega), e2 (i + 1) hi, eqR_ok, andR_ok]
  simp

/-- The constructor accepts the attributes of an object. -/
theorem Is.mkSym (h : s.Is t) : mkSym s.batch s.cores (some s.rawShape) (some s.ttRanks) = Except.ok s := by
  obtain ⟨b, sh, hb, -⟩ := Is.shaped h
  have hn : (s.cores.map (·.sh)).length = t.ndims := by rw [List.length_map, Is.len h]
  have hrk : s.ttRanks.length = t.ndims + 1 := by rw [h.ranks.length_eq, h.wf.ranks_len]
  obtain ⟨v, e, hv⟩ := coresValidS_eq sh hb (shape := some s.rawShape) (ranks := some s.ttRanks)
    (fun i hi => shapeR_ok (sh.blen i hi) (fun row hr => Is.row_len h hr) (by omega))
    (fun i hi => ranksR_ok (sh.blen i hi) (by omega))
  have hv' : v = true := by
    rw [hv]
    refine ⟨fun _ _ => rfl, h.first, ?_⟩
    have := h.last
    have hp := sh.pos
    rw [Is.len h] at this
    rwa [hn, show t.ndims - 1 + 1 = t.ndims by omega]
  have hne : (some s.rawShape : Option (List (List (Option ℕ)))) ≠ some [] := by
    have h1 := Is.rows_len h
    have h2 := h.wf.rows
    intro hc
    rw [Option.some.injEq] at hc
    rw [hc] at h1
    simp at h1
    omega
  unfold T3f.mkSym
  simp only [require_pos hne, R.ok_bind, e, hv', if_true, Option.getD_some, R.pure_eq]

end Is

end Static

end T3f
