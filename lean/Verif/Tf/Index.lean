import Mathlib.Algebra.BigOperators.Group.List.Basic
import Mathlib.Algebra.Order.BigOperators.Group.List
import Mathlib.Tactic.Ring

/-!
# Row-major multi-index arithmetic

Used by the model of `tf.reshape` and by the specification of `full` for TT-matrices.
-/

namespace T3f

/-- `Valid s i`: `i` is a multi-index into an array of shape `s`. -/
def Valid : List ℕ → List ℕ → Prop
  | [], [] => True
  | n :: s, x :: i => x < n ∧ Valid s i
  | _, _ => False

instance Valid.dec : (s i : List ℕ) → Decidable (Valid s i)
  | [], [] => isTrue trivial
  | [], _ :: _ => isFalse id
  | _ :: _, [] => isFalse id
  | n :: s, x :: i => by
      have := Valid.dec s i
      unfold Valid
      infer_instance

/-- Row-major position of a multi-index. -/
def ravel : List ℕ → List ℕ → ℕ
  | _ :: s, x :: i => x * s.prod + ravel s i
  | _, _ => 0

/-- Multi-index at a row-major position. -/
def unravel : List ℕ → ℕ → List ℕ
  | [], _ => []
  | _ :: s, p => p / s.prod :: unravel s (p % s.prod)

@[simp] theorem valid_nil_nil : Valid [] [] := trivial
@[simp] theorem valid_cons (n : ℕ) (s : List ℕ) (x : ℕ) (i : List ℕ) :
    Valid (n :: s) (x :: i) ↔ x < n ∧ Valid s i := Iff.rfl
@[simp] theorem not_valid_nil_cons (x : ℕ) (i : List ℕ) : ¬ Valid [] (x :: i) := id
@[simp] theorem not_valid_cons_nil (n : ℕ) (s : List ℕ) : ¬ Valid (n :: s) [] := id

@[simp] theorem ravel_nil (i : List ℕ) : ravel [] i = 0 := by cases i <;> rfl
@[simp] theorem ravel_nil_right (s : List ℕ) : ravel s [] = 0 := by cases s <;> rfl
@[simp] theorem ravel_cons (n : ℕ) (s : List ℕ) (x : ℕ) (i : List ℕ) :
    ravel (n :: s) (x :: i) = x * s.prod + ravel s i := rfl
@[simp] theorem unravel_nil (p : ℕ) : unravel [] p = [] := rfl
@[simp] theorem unravel_cons (n : ℕ) (s : List ℕ) (p : ℕ) :
    unravel (n :: s) p = p / s.prod :: unravel s (p % s.prod) := rfl

theorem valid_nil_iff (i : List ℕ) : Valid [] i ↔ i = [] := by
  cases i <;> simp

theorem valid_cons_iff (n : ℕ) (s i : List ℕ) :
    Valid (n :: s) i ↔ ∃ x j, i = x :: j ∧ x < n ∧ Valid s j := by
  cases i with
  | nil => simp
  | cons x j => simp

theorem Valid.length_eq : ∀ {s i : List ℕ}, Valid s i → i.length = s.length
  | [], [], _ => rfl
  | _ :: _, _ :: _, h => by simp [h.2.length_eq]

theorem Valid.prod_pos : ∀ {s i : List ℕ}, Valid s i → 0 < s.prod
  | [], [], _ => by simp
  | n :: s, x :: i, h => by
      have h1 := h.2.prod_pos
      have h2 : 0 < n := Nat.lt_of_le_of_lt (Nat.zero_le _) h.1
      simpa using Nat.mul_pos h2 h1

theorem ravel_lt : ∀ {s i : List ℕ}, Valid s i → ravel s i < s.prod
  | [], [], _ => by simp
  | n :: s, x :: i, h => by
      have h1 := ravel_lt h.2
      have h2 : x + 1 ≤ n := h.1
      calc ravel (n :: s) (x :: i) < x * s.prod + s.prod := by simpa using h1
        _ = (x + 1) * s.prod := by ring
        _ ≤ n * s.prod := Nat.mul_le_mul_right _ h2
        _ = (n :: s).prod := by simp

theorem unravel_valid : ∀ {s : List ℕ} {p : ℕ}, p < s.prod → Valid s (unravel s p)
  | [], p, _ => by simp
  | n :: s, p, h => by
      have h' : p < n * s.prod := by simpa using h
      have hpos : 0 < s.prod := by
        rcases Nat.eq_zero_or_pos s.prod with h0 | h0
        · simp [h0] at h'
        · exact h0
      refine ⟨?_, unravel_valid (Nat.mod_lt _ hpos)⟩
      exact Nat.div_lt_of_lt_mul (by rwa [Nat.mul_comm])

theorem ravel_unravel : ∀ {s : List ℕ} {p : ℕ}, p < s.prod → ravel s (unravel s p) = p
  | [], p, h => by simp at h; simp [h]
  | n :: s, p, h => by
      have h' : p < n * s.prod := by simpa using h
      have hpos : 0 < s.prod := by
        rcases Nat.eq_zero_or_pos s.prod with h0 | h0
        · simp [h0] at h'
        · exact h0
      rw [unravel_cons, ravel_cons, ravel_unravel (Nat.mod_lt _ hpos), Nat.mul_comm]
      exact Nat.div_add_mod p s.prod

theorem unravel_ravel : ∀ {s i : List ℕ}, Valid s i → unravel s (ravel s i) = i
  | [], [], _ => by simp
  | n :: s, x :: i, h => by
      have hpos := h.2.prod_pos
      have hlt := ravel_lt h.2
      rw [ravel_cons, unravel_cons, Nat.add_comm (x * s.prod), Nat.add_mul_div_right _ _ hpos,
        Nat.div_eq_of_lt hlt, Nat.add_mul_mod_self_right, Nat.mod_eq_of_lt hlt,
        unravel_ravel h.2, Nat.zero_add]

theorem ravel_inj {s i j : List ℕ} (hi : Valid s i) (hj : Valid s j)
    (h : ravel s i = ravel s j) : i = j := by
  rw [← unravel_ravel hi, ← unravel_ravel hj, h]

theorem valid_append : ∀ {s t i j : List ℕ}, Valid s i → Valid t j → Valid (s ++ t) (i ++ j)
  | [], _, [], _, _, h => h
  | _ :: _, _, _ :: _, _, h, h' => ⟨h.1, valid_append h.2 h'⟩

theorem valid_append_iff : ∀ {s t i : List ℕ}, Valid (s ++ t) i ↔
    ∃ a b, i = a ++ b ∧ Valid s a ∧ Valid t b
  | [], t, i => by
      constructor
      · intro h; exact ⟨[], i, rfl, trivial, h⟩
      · rintro ⟨a, b, rfl, ha, hb⟩
        rw [valid_nil_iff] at ha; subst ha; simpa using hb
  | n :: s, t, [] => by
      constructor
      · intro h; exact absurd h (by simp)
      · rintro ⟨a, b, h, ha, hb⟩
        rw [valid_cons_iff] at ha
        obtain ⟨x, j, rfl, _⟩ := ha
        simp at h
  | n :: s, t, x :: i => by
      constructor
      · rintro ⟨hx, h⟩
        obtain ⟨a, b, rfl, ha, hb⟩ := valid_append_iff.1 h
        exact ⟨x :: a, b, rfl, ⟨hx, ha⟩, hb⟩
      · rintro ⟨a, b, h, ha, hb⟩
        rw [valid_cons_iff] at ha
        obtain ⟨y, j, rfl, hy, hj⟩ := ha
        simp only [List.cons_append, List.cons.injEq] at h
        obtain ⟨rfl, rfl⟩ := h
        exact ⟨hy, valid_append hj hb⟩

theorem valid_append_of_length {s t i j : List ℕ} (hl : i.length = s.length) :
    Valid (s ++ t) (i ++ j) ↔ Valid s i ∧ Valid t j := by
  constructor
  · intro h
    obtain ⟨a, b, hab, ha, hb⟩ := valid_append_iff.1 h
    have := List.append_inj hab (by rw [hl, ha.length_eq])
    obtain ⟨rfl, rfl⟩ := this
    exact ⟨ha, hb⟩
  · rintro ⟨h1, h2⟩; exact valid_append h1 h2

theorem ravel_append : ∀ {s i : List ℕ} (t j : List ℕ), i.length = s.length →
    ravel (s ++ t) (i ++ j) = ravel s i * t.prod + ravel t j
  | [], [], _, _, _ => by simp
  | n :: s, x :: i, t, j, h => by
      simp only [List.length_cons, Nat.add_right_cancel_iff] at h
      simp only [List.cons_append, ravel_cons, List.prod_append, ravel_append t j h]
      ring

@[simp] theorem ravel_singleton (n x : ℕ) : ravel [n] [x] = x := by simp
theorem ravel_pair (n m x y : ℕ) : ravel [n, m] [x, y] = x * m + y := by simp

theorem valid_singleton (n : ℕ) (i : List ℕ) : Valid [n] i ↔ ∃ x, i = [x] ∧ x < n := by
  rw [valid_cons_iff]
  constructor
  · rintro ⟨x, j, rfl, hx, hj⟩
    rw [valid_nil_iff] at hj; subst hj; exact ⟨x, rfl, hx⟩
  · rintro ⟨x, rfl, hx⟩; exact ⟨x, [], rfl, hx, trivial⟩

theorem valid_pair (n m : ℕ) (i : List ℕ) :
    Valid [n, m] i ↔ ∃ x y, i = [x, y] ∧ x < n ∧ y < m := by
  rw [valid_cons_iff]
  constructor
  · rintro ⟨x, j, rfl, hx, hj⟩
    obtain ⟨y, rfl, hy⟩ := (valid_singleton _ _).1 hj
    exact ⟨x, y, rfl, hx, hy⟩
  · rintro ⟨x, y, rfl, hx, hy⟩
    exact ⟨x, [y], rfl, hx, (valid_singleton _ _).2 ⟨y, rfl, hy⟩⟩

/-- `Valid` in terms of positions. -/
theorem valid_iff_getD (s i : List ℕ) :
    Valid s i ↔ i.length = s.length ∧ ∀ k < s.length, i.getD k 0 < s.getD k 0 := by
  induction s generalizing i with
  | nil => cases i <;> simp
  | cons n s ih =>
    cases i with
    | nil => simp
    | cons x i =>
      rw [valid_cons, ih]
      constructor
      · rintro ⟨hx, hl, h⟩
        refine ⟨by simp [hl], ?_⟩
        intro k hk
        cases k with
        | zero => simpa using hx
        | succ k => simpa using h k (by simpa using hk)
      · rintro ⟨hl, h⟩
        refine ⟨by simpa using h 0 (by simp), by simpa using hl, ?_⟩
        intro k hk
        simpa using h (k + 1) (by simpa using hk)

/-- Valid positions inside a core. -/
theorem valid_core {M m : List ℕ} {r r' x y : ℕ} (hx : x < r) (hm : Valid M m) (hy : y < r') :
    Valid (r :: (M ++ [r'])) (x :: (m ++ [y])) :=
  ⟨hx, valid_append hm ⟨hy, trivial⟩⟩

theorem valid_toList_some {n : ℕ} {p : List ℕ} (h : Valid (some n).toList p) : ∃ o, p = [o] ∧ o < n :=
  (valid_singleton n p).1 h

end T3f
