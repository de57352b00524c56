import Verif.Proofs.Rounding
import Verif.Proofs.Indexing
import Verif.Model.Matmul

/-!
# Running a program in floating point arithmetic, exactly, and on absolute values

The three runs take the same branches and raise the same errors; the tensors of the three runs are compared element by element.
-/

namespace T3f

/-! ## Three runs -/

/-- The three runs raise the same error, or all return, and the results are related by `P`. -/
def Sync {α β γ : Type} (P : α → β → γ → Prop) (x : R α) (y : R β) (z : R γ) : Prop :=
  (∃ a b c, x = Except.ok a ∧ y = Except.ok b ∧ z = Except.ok c ∧ P a b c) ∨
    ∃ e, x = Except.error e ∧ y = Except.error e ∧ z = Except.error e

namespace Sync

variable {α β γ α' β' γ' : Type} {P : α → β → γ → Prop} {Q : α' → β' → γ' → Prop} {x : R α} {y : R β} {z : R γ}

theorem ok {a : α} {b : β} {c : γ} (h : P a b c) : Sync P (Except.ok a) (Except.ok b) (Except.ok c) := Or.inl ⟨a, b, c, rfl, rfl, rfl, h⟩

theorem error (e : Err) : Sync P (Except.error e) (Except.error e) (Except.error e) := Or.inr ⟨e, rfl, rfl, rfl⟩

theorem same (x : R α) : Sync (fun a b c => b = a ∧ c = a) x x x := by
  cases x with
  | error e => exact error e
  | ok a => exact ok ⟨rfl, rfl⟩

theorem mono {P' : α → β → γ → Prop} (h : Sync P x y z) (hP : ∀ a b c, P a b c → P' a b c) : Sync P' x y z := by
  rcases h with ⟨a, b, c, rfl, rfl, rfl, h⟩ | ⟨e, rfl, rfl, rfl⟩
  · exact ok (hP _ _ _ h)
  · exact error e

theorem bind {f : α → R α'} {g : β → R β'} {k : γ → R γ'} (h : Sync P x y z) (hf : ∀ a b c, P a b c → Sync Q (f a) (g b) (k c)) :
    Sync Q (x >>= f) (y >>= g) (z >>= k) := by
  rcases h with ⟨a, b, c, rfl, rfl, rfl, h⟩ | ⟨e, rfl, rfl, rfl⟩
  · exact hf _ _ _ h
  · exact error e

/-- A step that does not look at the elements. -/
theorem bind_same {δ : Type} (w : R δ) {f : δ → R α'} {g : δ → R β'} {k : δ → R γ'} (hf : ∀ a, w = Except.ok a → Sync Q (f a) (g a) (k a)) :
    Sync Q (w >>= f) (w >>= g) (w >>= k) := by
  cases w with
  | error e => exact error e
  | ok a => exact hf a rfl

theorem forRange {P : ℕ → α → β → γ → Prop} {f : ℕ → α → R α} {g : ℕ → β → R β} {h : ℕ → γ → R γ} (s n : ℕ)
    (hf : ∀ k a b c, s ≤ k → k < s + n → P k a b c → Sync (P (k + 1)) (f k a) (g k b) (h k c)) {a : α} {b : β} {c : γ} (h0 : P s a b c) :
    Sync (P (s + n)) (forRange f s n a) (forRange g s n b) (forRange h s n c) := by
  induction n generalizing s a b c with
  | zero => exact ok h0
  | succ n ih =>
    refine bind (hf s a b c le_rfl (by omega) h0) fun a' b' c' h' => ?_
    have := ih (s + 1) (fun k a b c h1 h2 => hf k a b c (by omega) (by omega)) h'
    rwa [show s + 1 + n = s + (n + 1) by omega] at this

theorem forReversed {P : ℕ → α → β → γ → Prop} {f : ℕ → α → R α} {g : ℕ → β → R β} {h : ℕ → γ → R γ} (n : ℕ)
    (hf : ∀ k a b c, k < n → P (k + 1) a b c → Sync (P k) (f k a) (g k b) (h k c)) {a : α} {b : β} {c : γ} (h0 : P n a b c) :
    Sync (P 0) (forReversed f n a) (forReversed g n b) (forReversed h n c) := by
  induction n generalizing a b c with
  | zero => exact ok h0
  | succ n ih => exact bind (hf n a b c (by omega) h0) fun a' b' c' h' => ih (fun k a b c hk => hf k a b c (by omega)) h'

end Sync

/-- Lists of equal length whose items are related. -/
structure Each {α β γ : Type} (Q : ℕ → α → β → γ → Prop) (l : List α) (m : List β) (n : List γ) : Prop where
  len₂ : m.length = l.length
  len₃ : n.length = l.length
  item : ∀ k a b c, l[k]? = some a → m[k]? = some b → n[k]? = some c → Q k a b c

namespace Each

variable {α β γ α' β' γ' : Type} {Q : ℕ → α → β → γ → Prop} {l : List α} {m : List β} {n : List γ}

theorem pyGet (h : Each Q l m n) (k : ℕ) : Sync (Q k) (pyGet l k) (pyGet m k) (pyGet n k) := by
  unfold T3f.pyGet
  by_cases hk : k < l.length
  · have h2 : k < m.length := h.len₂ ▸ hk
    have h3 : k < n.length := h.len₃ ▸ hk
    rw [List.getElem?_eq_getElem hk, List.getElem?_eq_getElem h2, List.getElem?_eq_getElem h3]
    exact Sync.ok (h.item k _ _ _ (List.getElem?_eq_getElem hk) (List.getElem?_eq_getElem h2) (List.getElem?_eq_getElem h3))
  · rw [List.getElem?_eq_none (by omega), List.getElem?_eq_none (by rw [h.len₂]; omega), List.getElem?_eq_none (by rw [h.len₃]; omega)]
    exact Sync.error _

theorem mono {Q' : ℕ → α → β → γ → Prop} (h : Each Q l m n) (hQ : ∀ k a b c, Q k a b c → Q' k a b c) : Each Q' l m n :=
  ⟨h.len₂, h.len₃, fun k a b c h1 h2 h3 => hQ _ _ _ _ (h.item k a b c h1 h2 h3)⟩

theorem nil : Each Q [] [] [] := ⟨rfl, rfl, by simp⟩

theorem append {a : α} {b : β} {c : γ} (h : Each Q l m n) (ha : Q l.length a b c) : Each Q (l ++ [a]) (m ++ [b]) (n ++ [c]) := by
  refine ⟨by simp [h.len₂], by simp [h.len₃], fun k x y z h1 h2 h3 => ?_⟩
  rcases lt_trichotomy k l.length with hk | rfl | hk
  · rw [List.getElem?_append_left hk] at h1
    rw [List.getElem?_append_left (h.len₂ ▸ hk)] at h2
    rw [List.getElem?_append_left (h.len₃ ▸ hk)] at h3
    exact h.item k x y z h1 h2 h3
  · rw [List.getElem?_append_right le_rfl] at h1
    rw [List.getElem?_append_right (by rw [h.len₂]), h.len₂] at h2
    rw [List.getElem?_append_right (by rw [h.len₃]), h.len₃] at h3
    simp only [Nat.sub_self, List.getElem?_cons_zero, Option.some.injEq] at h1 h2 h3
    exact h1 ▸ h2 ▸ h3 ▸ ha
  · rw [List.getElem?_append_right hk.le, List.getElem?_eq_none (by simp; omega)] at h1
    exact absurd h1 (by simp)

theorem append_list {l' : List α} {m' : List β} {n' : List γ} {Q' : ℕ → α → β → γ → Prop} (h : Each Q l m n)
    (h' : Each Q' l' m' n') (hQ : ∀ k a b c, Q' k a b c → Q (l.length + k) a b c) : Each Q (l ++ l') (m ++ m') (n ++ n') := by
  refine ⟨by simp [h.len₂, h'.len₂], by simp [h.len₃, h'.len₃], fun k x y z h1 h2 h3 => ?_⟩
  rcases lt_or_ge k l.length with hk | hk
  · rw [List.getElem?_append_left hk] at h1
    rw [List.getElem?_append_left (h.len₂ ▸ hk)] at h2
    rw [List.getElem?_append_left (h.len₃ ▸ hk)] at h3
    exact h.item k x y z h1 h2 h3
  · rw [List.getElem?_append_right hk] at h1
    rw [List.getElem?_append_right (by rw [h.len₂]; exact hk), h.len₂] at h2
    rw [List.getElem?_append_right (by rw [h.len₃]; exact hk), h.len₃] at h3
    have := hQ _ _ _ _ (h'.item _ _ _ _ h1 h2 h3)
    rwa [show l.length + (k - l.length) = k by omega] at this

end Each

theorem mapRange_succ {α : Type} (n : ℕ) (f : ℕ → R α) : mapRange (n + 1) f = (do let l ← mapRange n f; let x ← f n; pure (l ++ [x])) := by
  unfold mapRange
  rw [List.range_succ, List.mapM_append]
  simp [List.mapM_cons]

theorem Sync.mapRange {α β γ : Type} {Q : ℕ → α → β → γ → Prop} {f : ℕ → R α} {g : ℕ → R β} {h : ℕ → R γ} (n : ℕ)
    (hf : ∀ k < n, Sync (Q k) (f k) (g k) (h k)) : Sync (fun a b c => Each Q a b c ∧ a.length = n) (mapRange n f) (mapRange n g) (mapRange n h) := by
  induction n with
  | zero => exact Sync.ok ⟨Each.nil, rfl⟩
  | succ n ih =>
    rw [mapRange_succ, mapRange_succ, mapRange_succ]
    refine Sync.bind (ih fun k hk => hf k (by omega)) fun a b c h1 => Sync.bind (hf n (by omega)) fun a' b' c' h2 => Sync.ok ?_
    exact ⟨h1.1.append (h1.2 ▸ h2), by simp [h1.2]⟩

/-! ## Tensors -/

theorem valid_insertIdx {s i : List ℕ} {n x : ℕ} (h : Valid s i) (hx : x < n) (k : ℕ) (hk : k ≤ s.length) : Valid (s.insertIdx k n) (i.insertIdx k x) := by
  induction k generalizing s i with
  | zero => exact ⟨hx, h⟩
  | succ k ih => match s, i, h with
    | [], [], _ => simp at hk
    | m :: s, y :: i, h => exact ⟨h.1, ih h.2 (by simpa using hk)⟩

theorem valid_eraseIdx {s i : List ℕ} (h : Valid s i) (k : ℕ) : Valid (s.eraseIdx k) (i.eraseIdx k) := by
  induction k generalizing s i with
  | zero => match s, i, h with
    | [], [], _ => trivial
    | m :: s, y :: i, h => exact h.2
  | succ k ih => match s, i, h with
    | [], [], _ => trivial
    | m :: s, y :: i, h => exact ⟨h.1, ih h.2⟩

theorem valid_unsqueeze {s i : List ℕ} (h : Valid (s.filter (· ≠ 1)) i) : Valid s (unsqueezeIdx s i) := by
  induction s generalizing i with
  | nil => trivial
  | cons n s ih =>
    unfold unsqueezeIdx
    split_ifs with hn
    · subst hn
      exact ⟨by omega, ih (by simpa using h)⟩
    · rw [List.filter_cons_of_pos (by simpa using hn)] at h
      match i, h with
      | x :: i, h => exact ⟨h.1, ih h.2⟩
      | [], h => exact absurd h (by simp)

theorem valid_insert_one {s i : List ℕ} {k : ℕ} (hs : s[k]? = some 1) (h : Valid (s.eraseIdx k) i) : Valid s (i.insertIdx k 0) := by
  have hk : k < s.length := (List.getElem?_eq_some_iff.1 hs).1
  have h1 : s[k] = 1 := (List.getElem?_eq_some_iff.1 hs).2
  have := valid_insertIdx h (n := 1) (x := 0) (by omega) k (by rw [List.length_eraseIdx]; split <;> omega)
  rwa [← h1, List.insertIdx_eraseIdx_getElem hk] at this

theorem valid_transpose {s p i : List ℕ} (hp : p.Perm (List.range s.length)) (h : Valid (p.map (s.getD · 0)) i) :
    Valid s ((List.range s.length).map fun a => i.getD (p.idxOf a) 0) := by
  rw [valid_iff_getD] at h ⊢
  refine ⟨by simp, fun k hk => ?_⟩
  have hm : k ∈ p := hp.mem_iff.2 (List.mem_range.2 hk)
  have hj := List.idxOf_lt_length_of_mem hm
  have := h.2 (p.idxOf k) (by simpa using hj)
  rw [List.getD_eq_getElem (p.map _) _ (by simpa using hj), List.getElem_map, List.getElem_idxOf] at this
  rwa [List.getD_eq_getElem _ _ (by simpa using hk), List.getElem_map, List.getElem_range]

theorem valid_tile {s m i : List ℕ} (h : Valid (s.zipWith (· * ·) m) i) (hm : m.length = s.length) : Valid s (i.zipWith (· % ·) s) := by
  induction s generalizing m i with
  | nil => simp
  | cons n s ih => match m, i, h, hm with
    | x :: m, y :: i, h, hm =>
      refine ⟨Nat.mod_lt _ (Nat.pos_of_ne_zero fun h0 => ?_), ih h.2 (by simpa using hm)⟩
      have := h.1
      simp [h0] at this

theorem valid_set {s i : List ℕ} {k n x : ℕ} (h : Valid s i) (hx : x < n) : Valid (s.set k n) (i.set k x) := by
  induction k generalizing s i with
  | zero => match s, i, h with
    | [], [], _ => trivial
    | m :: s, y :: i, h => exact ⟨hx, h.2⟩
  | succ k ih => match s, i, h with
    | [], [], _ => trivial
    | m :: s, y :: i, h => exact ⟨h.1, ih h.2⟩

theorem valid_set_iff {s i : List ℕ} {k n : ℕ} (hk : k < s.length) (h : Valid (s.set k n) i) : i.getD k 0 < n := by
  have := ((valid_iff_getD _ _).1 h).2 k (by simpa using hk)
  rwa [List.getD_eq_getElem (s.set k n) _ (by simpa using hk), List.getElem_set_self] at this

theorem eq_set_of_eraseIdx {s t : List ℕ} {k : ℕ} (hl : s.length = t.length) (hk : k < s.length) (h : s.eraseIdx k = t.eraseIdx k) (n : ℕ) :
    s.set k n = t.set k n := by
  induction k generalizing s t with
  | zero => match s, t, hl, hk with
    | a :: s, b :: t, hl, hk => simpa using h
  | succ k ih => match s, t, hl, hk with
    | a :: s, b :: t, hl, hk =>
      simp only [List.eraseIdx_cons_succ, List.cons.injEq] at h
      simp only [List.set_cons_succ, List.cons.injEq]
      exact ⟨h.1, ih (by simpa using hl) (by simpa using hk) h.2⟩

/-- Tensors of equal shape whose elements are related. -/
structure Tri (ρ : ℝ → ℝ → ℝ → Prop) (a b c : Tensor ℝ) : Prop where
  shape₂ : b.shape = a.shape
  shape₃ : c.shape = a.shape
  item : ∀ i, Valid a.shape i → ρ (a.get i) (b.get i) (c.get i)

namespace Tri

variable {ρ σ : ℝ → ℝ → ℝ → Prop} {a b c a' b' c' : Tensor ℝ}

theorem mono (h : Tri ρ a b c) (hρ : ∀ x y z, ρ x y z → σ x y z) : Tri σ a b c := ⟨h.shape₂, h.shape₃, fun i hi => hρ _ _ _ (h.item i hi)⟩

/-- Moving elements around. -/
theorem reindex (h : Tri ρ a b c) (s : List ℕ) (φ : List ℕ → List ℕ) (hφ : ∀ i, Valid s i → Valid a.shape (φ i)) :
    Tri ρ ⟨s, fun i => a.get (φ i)⟩ ⟨s, fun i => b.get (φ i)⟩ ⟨s, fun i => c.get (φ i)⟩ := ⟨rfl, rfl, fun i hi => h.item _ (hφ i hi)⟩

theorem reshape (h : Tri ρ a b c) (s : List (Option ℕ)) :
    Sync (Tri ρ) (reshape a s) (reshape b s) (reshape c s) := by
  unfold T3f.reshape
  rw [h.shape₂, h.shape₃]
  refine Sync.bind_same _ fun r hr => Sync.ok (h.reindex r _ fun i hi => unravel_valid ?_)
  have := ravel_lt hi
  rwa [resolveShape_prod hr] at this

theorem transpose (h : Tri ρ a b c) (p : List ℕ) : Sync (Tri ρ) (transpose a p) (transpose b p) (transpose c p) := by
  unfold T3f.transpose
  rw [h.shape₂, h.shape₃]
  split_ifs with hp
  · refine Sync.ok (h.reindex _ _ fun i hi => valid_transpose hp hi)
  · exact Sync.error _

theorem expandDims (h : Tri ρ a b c) (k : ℕ) : Sync (Tri ρ) (expandDims a k) (expandDims b k) (expandDims c k) := by
  unfold T3f.expandDims
  rw [h.shape₂, h.shape₃]
  split_ifs with hp
  · refine Sync.ok (h.reindex _ _ fun i hi => ?_)
    have := valid_eraseIdx hi k
    rwa [List.eraseIdx_insertIdx_self] at this
  · exact Sync.error _

theorem squeezeAxis (h : Tri ρ a b c) (k : ℕ) : Sync (Tri ρ) (squeezeAxis a k) (squeezeAxis b k) (squeezeAxis c k) := by
  unfold T3f.squeezeAxis
  rw [h.shape₂, h.shape₃]
  split_ifs with hp
  · exact Sync.ok (h.reindex _ _ fun i hi => valid_insert_one hp hi)
  · exact Sync.error _

theorem squeezeAll (h : Tri ρ a b c) : Tri ρ (squeezeAll a) (squeezeAll b) (squeezeAll c) := by
  unfold T3f.squeezeAll
  rw [h.shape₂, h.shape₃]
  exact h.reindex _ _ fun i hi => valid_unsqueeze hi

theorem concat2 (h : Tri ρ a b c) (h' : Tri ρ a' b' c') (k : ℕ) : Sync (Tri ρ) (concat2 k a a') (concat2 k b b') (concat2 k c c') := by
  unfold T3f.concat2
  rw [h.shape₂, h.shape₃, h'.shape₂, h'.shape₃]
  split_ifs with hp
  · refine Sync.ok ⟨rfl, rfl, fun i hi => ?_⟩
    obtain ⟨h1, h2, h3⟩ := hp
    simp only at hi ⊢
    split_ifs with hx
    · refine h.item _ ?_
      have := valid_set (k := k) hi hx
      rwa [List.set_set, List.getD_eq_getElem _ _ h2, List.set_getElem_self, List.getD_eq_getElem i, List.set_getElem_self] at this
      rw [hi.length_eq]; simpa using h2
    · refine h'.item _ ?_
      have hlt := valid_set_iff h2 hi
      have := valid_set (k := k) (n := a'.shape.getD k 0) (x := i.getD k 0 - a.shape.getD k 0) hi (by omega)
      rwa [List.set_set, eq_set_of_eraseIdx h1 h2 h3, List.getD_eq_getElem a'.shape _ (h1 ▸ h2), List.set_getElem_self] at this
  · exact Sync.error _

theorem concat_pair (h : Tri ρ a b c) (h' : Tri ρ a' b' c') (k : ℕ) : Sync (Tri ρ) (concat k [a, a']) (concat k [b, b']) (concat k [c, c']) := by
  unfold T3f.concat T3f.concat
  rw [h'.shape₂, h'.shape₃]
  split_ifs with hp
  · exact h.concat2 h' k
  · exact Sync.error _

theorem tile (h : Tri ρ a b c) (m : List ℕ) : Sync (Tri ρ) (tile a m) (tile b m) (tile c m) := by
  unfold T3f.tile
  rw [h.shape₂, h.shape₃]
  split_ifs with hp
  · exact Sync.ok (h.reindex _ _ fun i hi => valid_tile hi hp)
  · exact Sync.error _

theorem getItem (h : Tri ρ a b c) (s : List Ix) : Sync (Tri ρ) (getItem a s) (getItem b s) (getItem c s) := by
  unfold T3f.getItem
  rw [h.shape₂, h.shape₃]
  exact Sync.bind_same _ fun l hl => Sync.ok (h.reindex _ _ fun i hi => selIdx_valid hl hi)

theorem zeros (h : ρ 0 0 0) (s : List ℕ) : Tri ρ (zeros s) (zeros s) (zeros s) := ⟨rfl, rfl, fun _ _ => h⟩

end Tri

end T3f
