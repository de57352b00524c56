import Verif.Proofs.Prim
import Verif.Proofs.Sums

/-!
# Subscripting dense tensors
-/

namespace T3f

variable {K : Type}

/-- Resolution of one subscript item. -/
def resolve1 (n : ℕ) : Ix → R Sel
  | .all => Except.ok (Sel.many (List.range n))
  | .int i => do pure (Sel.one (← intPosition n i))
  | .slice a b c => if c = 0 then Except.error Err.tf else Except.ok (Sel.many (slicePositions n a b c))

/-- `:` on every axis. -/
def allSel (s : List ℕ) : List Sel := s.map fun n => Sel.many (List.range n)

theorem resolveIx_nil (s : List ℕ) : resolveIx s [] = Except.ok (allSel s) := by
  cases s <;> rfl

theorem resolveIx_cons (n : ℕ) (s : List ℕ) (ix : Ix) (sp : List Ix) :
    resolveIx (n :: s) (ix :: sp) = (do
      let x ← resolve1 n ix
      let l ← resolveIx s sp
      pure (x :: l)) := by
  cases ix with
  | all => rfl
  | int i => simp only [resolveIx, resolve1]; cases intPosition n i <;> rfl
  | slice a b c => simp only [resolveIx, resolve1]; split_ifs <;> rfl

theorem resolveIx_all (s : List ℕ) : resolveIx s (List.replicate s.length .all) = Except.ok (allSel s) := by
  induction s with
  | nil => rfl
  | cons n s ih => rw [List.length_cons, List.replicate_succ, resolveIx_cons, ih]; rfl

theorem selShape_allSel (s : List ℕ) : selShape (allSel s) = s := by
  induction s with
  | nil => rfl
  | cons n s ih =>
    simp only [allSel, List.map_cons, selShape, List.length_range]
    exact congrArg _ ih

theorem selIdx_allSel {s idx : List ℕ} (h : Valid s idx) : selIdx (allSel s) idx = idx := by
  induction s generalizing idx with
  | nil => rw [valid_nil_iff] at h; subst h; rfl
  | cons n s ih =>
    obtain ⟨x, j, rfl, hx, hj⟩ := (valid_cons_iff n s idx).1 h
    simp only [allSel, List.map_cons, selIdx, List.headD_cons, List.tail_cons]
    rw [show selIdx (List.map _ s) j = j from ih hj, List.getD_eq_getElem _ _ (by simpa using hx)]
    simp

/-- All entries of a selection are resolved within bounds. -/
def Sel.InBounds (n : ℕ) : Sel → Prop
  | .one p => p < n
  | .many ps => ∀ p ∈ ps, p < n

theorem intPosition_lt {n : ℕ} {i : ℤ} {p : ℕ} (h : intPosition n i = Except.ok p) : p < n := by
  unfold intPosition at h
  split_ifs at h <;> simp at h <;> omega

theorem slicePositions_lt {n : ℕ} {a b : Option ℤ} {c : ℤ} (hc : c ≠ 0) :
    ∀ p ∈ slicePositions n a b c, p < n := by
  intro p hp
  unfold slicePositions at hp
  split_ifs at hp with h
  · simp only [List.mem_map, List.mem_range] at hp
    obtain ⟨k, hk, rfl⟩ := hp
    set A := clipBound n 0 n 0 a with hA
    set B := clipBound n 0 n n b with hB
    have hA0 : 0 ≤ A := by rw [hA]; unfold clipBound; split <;> (try split_ifs) <;> omega
    have hBn : B ≤ n := by rw [hB]; unfold clipBound; split <;> (try split_ifs) <;> omega
    have hk' : (k : ℤ) < (B - A + c - 1) / c := by omega
    have h1 : (k : ℤ) + 1 ≤ (B - A + c - 1) / c := by omega
    have h2 := (Int.le_ediv_iff_mul_le h).1 h1
    have h3 : ((k : ℤ) + 1) * c = k * c + c := by ring
    have h4 : 0 ≤ (k : ℤ) * c := mul_nonneg (by omega) h.le
    omega
  · have hneg : 0 < -c := by omega
    simp only [List.mem_map, List.mem_range] at hp
    obtain ⟨k, hk, rfl⟩ := hp
    set A := clipBound n (-1) (n - 1) (n - 1) a with hA
    set B := clipBound n (-1) (n - 1) (-1) b with hB
    have hAn : A ≤ n - 1 := by rw [hA]; unfold clipBound; split <;> (try split_ifs) <;> omega
    have hB0 : -1 ≤ B := by rw [hB]; unfold clipBound; split <;> (try split_ifs) <;> omega
    have h1 : (k : ℤ) + 1 ≤ (A - B - c - 1) / (-c) := by omega
    have h2 := (Int.le_ediv_iff_mul_le hneg).1 h1
    have h3 : ((k : ℤ) + 1) * (-c) = -(k * c) - c := by ring
    have h4 : 0 ≤ (k : ℤ) * (-c) := mul_nonneg (by omega) hneg.le
    have h5 : (k : ℤ) * (-c) = - (k * c) := by ring
    omega

theorem resolve1_inBounds {n : ℕ} {ix : Ix} {x : Sel} (h : resolve1 n ix = Except.ok x) : x.InBounds n := by
  cases ix with
  | all => simp [resolve1] at h; subst h; simp [Sel.InBounds]
  | int i =>
    simp only [resolve1] at h
    cases hi : intPosition n i with
    | error e => simp [hi] at h
    | ok p =>
      simp [hi] at h; subst h
      exact intPosition_lt hi
  | slice a b c =>
    simp only [resolve1] at h
    split_ifs at h with hc
    simp at h; subst h
    exact slicePositions_lt hc

/-- Subscripting only the first axis with an item that keeps or drops it. -/
theorem getItem_first (t : Tensor K) (n : ℕ) (s : List ℕ) (hs : t.shape = n :: s) (ix : Ix) (x : Sel)
    (hx : resolve1 n ix = Except.ok x) (k : ℕ) (hk : k = s.length) :
    ∃ T, getItem t (ix :: List.replicate k .all) = Except.ok T ∧ T.shape = selShape [x] ++ s ∧
      ∀ q idx, Valid (selShape [x]) q → Valid s idx → T.get (q ++ idx) = t.get (selIdx [x] q ++ idx) := by
  subst hk
  refine ⟨⟨selShape (x :: allSel s), fun idx => t.get (selIdx (x :: allSel s) idx)⟩, ?_, ?_, ?_⟩
  · simp only [getItem, hs, resolveIx_cons, hx, resolveIx_all]; rfl
  · cases x <;> simp [selShape, selShape_allSel]
  · intro q idx hq hi
    cases x with
    | one p =>
      simp only [selShape, valid_nil_iff] at hq
      subst hq
      simp [selIdx, selIdx_allSel hi]
    | many ps =>
      obtain ⟨o, rfl, ho⟩ := (valid_singleton _ _).1 hq
      simp [selIdx, selIdx_allSel hi]

end T3f
