import Verif.Proofs.Constructor
import Verif.Spec.Cores

/-! # Exactly what the constructors accept -/

namespace T3f

variable {K : Type}

/-- The check `x` returns (without raising) whether `p` holds. -/
def Decides (x : R Bool) (p : Prop) : Prop := (p → x = Except.ok true) ∧ (¬ p → x = Except.ok false)

theorem Decides.true' : Decides (Except.ok true) True := by simp [Decides]

theorem Decides.congr {x : R Bool} {p q : Prop} (h : Decides x p) (e : p ↔ q) : Decides x q := by
  rwa [propext e] at h

theorem Decides.and {a x : R Bool} {p q : Prop} (ha : Decides a p) (hx : p → Decides x q) : Decides (andR a x) (p ∧ q) := by
  by_cases hp : p
  · obtain ⟨h1, h2⟩ := hx hp
    by_cases hq : q <;> simp [Decides, andR, hp, hq, ha.1 hp, h1, h2]
  · simp [Decides, andR, hp, ha.2 hp]

theorem Decides.eq {α : Type} [DecidableEq α] {a b : R α} {x y : α} (ha : a = Except.ok x) (hb : b = Except.ok y) :
    Decides (eqR a b) (x = y) := by
  subst ha hb
  by_cases h : x = y <;> simp [Decides, eqR, h]

theorem Decides.allRange {f : ℕ → R Bool} {P : ℕ → Prop} (a n : ℕ)
    (h : ∀ i, a ≤ i → i < a + n → (∀ j, a ≤ j → j < i → P j) → Decides (f i) (P i)) :
    Decides (allRange f a n) (∀ i, a ≤ i → i < a + n → P i) := by
  induction n generalizing a with
  | zero =>
    refine Decides.true'.congr ⟨fun _ i h1 h2 => by omega, fun _ => trivial⟩
  | succ n ih =>
    refine ((h a le_rfl (by omega) (fun j _ _ => by omega)).and fun hp => ih (a + 1) fun i h1 h2 h3 =>
      h i (by omega) (by omega) fun j h4 h5 => ?_).congr ⟨?_, ?_⟩
    · rcases Nat.eq_or_lt_of_le h4 with rfl | h6
      · exact hp
      · exact h3 j h6 h5
    · rintro ⟨h1, h2⟩ i hi hi'
      rcases Nat.eq_or_lt_of_le hi with rfl | h6
      · exact h1
      · exact h2 i h6 (by omega)
    · exact fun h => ⟨h a le_rfl (by omega), fun i h1 h2 => h i (by omega) (by omega)⟩

theorem pyLast_ok {α : Type} (l : List α) (d : α) (h : 0 < l.length) : pyLast l = Except.ok (l.getLastD d) := by
  unfold pyLast
  rw [List.getLastD_eq_getLast?]
  cases hl : l.getLast? with
  | none => rw [List.getLast?_eq_none_iff] at hl; simp [hl] at h
  | some a => rfl

/-- The conditions checked for core `i`. -/
def CoreOk (o : ℕ) (bs : Option ℕ) (shapes : List (List ℕ)) (rows : Option (List (List ℕ))) (rk : Option (List ℕ))
    (i : ℕ) : Prop :=
  (shapes.getD i []).length = (shapes.getD 0 []).length ∧ (∀ n ∈ bs, (shapes.getD i []).getD 0 0 = n) ∧
  (∀ rw ∈ rows, ∀ j < rw.length, (shapes.getD i []).getD (j + 1 + o) 0 = (rw.getD j []).getD i 0) ∧
  (1 ≤ i → (shapes.getD i []).getD o 0 = (shapes.getD (i - 1) []).getLastD 0) ∧
  (∀ r ∈ rk, (shapes.getD i []).getD o 0 = r.getD i 0 ∧ (shapes.getD i []).getLastD 0 = r.getD (i + 1) 0)

theorem coreCheck_decides {o : ℕ} {bs : Option ℕ} {shapes : List (List ℕ)} {rows : Option (List (List ℕ))}
    {rk : Option (List ℕ)} (h0 : o < (shapes.getD 0 []).length)
    (hrows : ∀ rw ∈ rows, rw.length + o < (shapes.getD 0 []).length ∧ ∀ j < rw.length, shapes.length ≤ (rw.getD j []).length)
    (hrk : ∀ r ∈ rk, shapes.length < r.length) {i : ℕ} (hi : i < shapes.length)
    (hprev : ∀ j < i, (shapes.getD j []).length = (shapes.getD 0 []).length) :
    Decides (coreCheck o bs shapes rows rk i) (CoreOk o bs shapes rows rk i) := by
  unfold coreCheck
  rw [pyGet_of_lt shapes i [] hi, pyGet_of_lt shapes 0 [] (by omega)]
  simp only [R.ok_bind, R.pure_eq]
  unfold CoreOk
  refine Decides.and (Decides.eq (a := Except.ok (shapes.getD i []).length) rfl rfl) fun hl => ?_
  have hne : o < (shapes.getD i []).length := by omega
  refine Decides.and ?_ fun _ => Decides.and ?_ fun _ => Decides.and ?_ fun _ => ?_
  · cases bs with
    | none => exact Decides.true'.congr (by simp)
    | some n => exact (Decides.eq (y := n) (pyGet_of_lt _ 0 0 (by omega)) rfl).congr (by simp)
  · cases rows with
    | none => exact Decides.true'.congr (by simp)
    | some rows =>
      obtain ⟨q1, q2⟩ := hrows rows rfl
      refine (Decides.allRange (P := fun j => (shapes.getD i []).getD (j + 1 + o) 0 = (rows.getD j []).getD i 0) 0 _
        ?_).congr (by simp)
      intro j _ hj _
      have hj' : j < rows.length := by omega
      refine Decides.eq (pyGet_of_lt _ _ 0 (by omega)) ?_
      rw [pyGet_of_lt rows j [] hj', R.ok_bind, pyGet_of_lt _ _ 0 (by have := q2 j hj'; omega)]
  · by_cases h1 : 1 ≤ i
    · rw [if_pos h1]
      refine (Decides.eq (x := (shapes.getD i []).getD o 0) (y := (shapes.getD (i - 1) []).getLastD 0)
        (pyGet_of_lt _ _ 0 (by omega)) ?_).congr (by simp [h1])
      rw [pyGet_of_lt shapes (i - 1) [] (by omega), R.ok_bind, pyLast_ok _ 0 (by rw [hprev (i - 1) (by omega)]; omega)]
    · rw [if_neg h1]
      exact Decides.true'.congr (by simp [h1])
  · cases rk with
    | none => exact Decides.true'.congr (by simp)
    | some r =>
      have := hrk r rfl
      refine (Decides.and (Decides.eq (pyGet_of_lt _ _ 0 hne) (pyGet_of_lt r i 0 (by omega))) fun _ =>
        Decides.eq (pyLast_ok _ 0 (by omega)) (pyGet_of_lt r (i + 1) 0 (by omega))).congr (by simp)

theorem coresValid_decides {o : ℕ} {bs : Option ℕ} {shapes : List (List ℕ)} {rows : Option (List (List ℕ))}
    {rk : Option (List ℕ)} (hne : shapes ≠ []) (h0 : o < (shapes.getD 0 []).length)
    (hrows : ∀ rw ∈ rows, rw.length + o < (shapes.getD 0 []).length ∧ ∀ j < rw.length, shapes.length ≤ (rw.getD j []).length)
    (hrk : ∀ r ∈ rk, shapes.length < r.length) :
    Decides (coresValid o bs shapes rows rk)
      (Consistent o shapes ∧ (∀ n ∈ bs, ∀ i < shapes.length, (shapes.getD i []).getD 0 0 = n) ∧
      (∀ rw ∈ rows, ∀ j < rw.length, ∀ i < shapes.length, (shapes.getD i []).getD (j + 1 + o) 0 = (rw.getD j []).getD i 0) ∧
      (∀ r ∈ rk, (∀ i < shapes.length, (shapes.getD i []).getD o 0 = r.getD i 0) ∧
        (shapes.getD (shapes.length - 1) []).getLastD 0 = r.getD shapes.length 0)) := by
  have hpos := List.length_pos_iff.2 hne
  have main : Decides (coresValid o bs shapes rows rk) ((∀ i, 0 ≤ i → i < 0 + shapes.length → CoreOk o bs shapes rows rk i) ∧
      (shapes.getD 0 []).getD o 0 = 1 ∧ (shapes.getD (shapes.length - 1) []).getLastD 0 = 1) := by
    unfold coresValid
    refine Decides.and (Decides.allRange 0 _ ?_) fun hall => Decides.and (Decides.eq ?_ rfl) fun _ => Decides.eq ?_ rfl
    · intro i _ hi hp
      exact coreCheck_decides h0 hrows hrk (by omega) fun j hj => (hp j (by omega) hj).1
    · rw [pyGet_of_lt shapes 0 [] hpos, R.ok_bind, pyGet_of_lt _ _ 0 h0]
    · have hlast : pyLast shapes = Except.ok (shapes.getD (shapes.length - 1) []) := by
        unfold pyLast
        rw [List.getLast?_eq_getElem?, List.getElem?_eq_getElem (by omega), List.getD_eq_getElem _ _ (by omega)]
      rw [hlast, R.ok_bind, pyLast_ok _ 0 (by rw [(hall (shapes.length - 1) (by omega) (by omega)).1]; omega)]
  refine main.congr ⟨?_, ?_⟩
  · rintro ⟨h, h1, h2⟩
    simp only [zero_add, zero_le, true_imp_iff] at h
    refine ⟨⟨fun i hi => (h i hi).1, fun i hi => ?_, h1, h2⟩, fun n hn i hi => (h i hi).2.1 n hn,
      fun rw hrw j hj i hi => (h i hi).2.2.1 rw hrw j hj, fun r hr => ⟨fun i hi => ((h i hi).2.2.2.2 r hr).1, ?_⟩⟩
    · exact (h (i + 1) hi).2.2.2.1 (by omega)
    · have := ((h (shapes.length - 1) (by omega)).2.2.2.2 r hr).2
      rwa [show shapes.length - 1 + 1 = shapes.length by omega] at this
  · rintro ⟨⟨c1, c2, c3, c4⟩, h1, h2, h3⟩
    simp only [zero_add, zero_le, true_imp_iff]
    refine ⟨fun i hi => ⟨c1 i hi, fun n hn => h1 n hn i hi, fun rw hrw j hj => h2 rw hrw j hj i hi, fun h => ?_,
      fun r hr => ⟨(h3 r hr).1 i hi, ?_⟩⟩, c3, c4⟩
    · have := c2 (i - 1) (by omega)
      rwa [show i - 1 + 1 = i by omega] at this
    · by_cases hl : i + 1 < shapes.length
      · rw [← c2 i hl]; exact (h3 r hr).1 (i + 1) hl
      · have : i = shapes.length - 1 := by omega
        subst this
        rw [(h3 r hr).2, show shapes.length - 1 + 1 = shapes.length by omega]

end T3f
