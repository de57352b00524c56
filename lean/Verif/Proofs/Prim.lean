import Verif.Spec.Entry
import Mathlib.Data.List.GetD

/-!
# Lemmas about the primitives
-/

namespace T3f

variable {K : Type}

/-! ## Loops -/

theorem forRange_inv {σ : Type} (P : ℕ → σ → Prop) (f : ℕ → σ → R σ) (a n : ℕ) (s : σ)
    (h0 : P a s)
    (hs : ∀ i s, a ≤ i → i < a + n → P i s → ∃ s', f i s = Except.ok s' ∧ P (i + 1) s') :
    ∃ s', forRange f a n s = Except.ok s' ∧ P (a + n) s' := by
  induction n generalizing a s with
  | zero => exact ⟨s, rfl, h0⟩
  | succ n ih =>
    obtain ⟨s1, e1, h1⟩ := hs a s le_rfl (by omega) h0
    obtain ⟨s2, e2, h2⟩ := ih (a + 1) s1 h1 (fun i s hi hi' h => hs i s (by omega) (by omega) h)
    refine ⟨s2, ?_, ?_⟩
    · simp [forRange, e1, e2]
    · convert h2 using 1; omega

theorem mapM_ok {α β : Type} (f : α → R β) (g : α → β) (l : List α)
    (h : ∀ a ∈ l, f a = Except.ok (g a)) : l.mapM f = Except.ok (l.map g) := by
  induction l with
  | nil => rfl
  | cons a l ih =>
    rw [List.mapM_cons, h a (by simp), R.ok_bind, ih (fun b hb => h b (by simp [hb])), R.ok_bind]
    rfl

theorem mapRange_ok {α : Type} [Inhabited α] (n : ℕ) (f : ℕ → R α) (P : ℕ → α → Prop)
    (h : ∀ k < n, ∃ t, f k = Except.ok t ∧ P k t) :
    ∃ l, mapRange n f = Except.ok l ∧ l.length = n ∧ ∀ k < n, P k (l.getD k default) := by
  classical
  choose g hg using fun k : {k // k < n} => h k.1 k.2
  refine ⟨(List.range n).map fun k => if hk : k < n then g ⟨k, hk⟩ else default, ?_, by simp, ?_⟩
  · unfold mapRange
    apply mapM_ok
    intro k hk
    have hk' : k < n := by simpa using hk
    simp [hk', (hg ⟨k, hk'⟩).1]
  · intro k hk
    have : ((List.range n).map fun k => if hk : k < n then g ⟨k, hk⟩ else default).getD k default
        = g ⟨k, hk⟩ := by
      rw [List.getD_eq_getElem _ _ (by simpa using hk)]
      simp [hk]
    rw [this]
    exact (hg ⟨k, hk⟩).2

theorem mapRange_eq {α : Type} (n : ℕ) (f : ℕ → R α) (g : ℕ → α)
    (h : ∀ k < n, f k = Except.ok (g k)) : mapRange n f = Except.ok ((List.range n).map g) := by
  unfold mapRange
  exact mapM_ok _ _ _ (fun k hk => h k (by simpa using hk))

theorem pyGet_of_lt {α : Type} (l : List α) (i : ℕ) (d : α) (h : i < l.length) :
    pyGet l i = Except.ok (l.getD i d) := by
  simp [pyGet, h, List.getD]

theorem pyGet_of_ge {α : Type} (l : List α) (i : ℕ) (h : l.length ≤ i) :
    pyGet l i = Except.error Err.index := by
  simp [pyGet, h]

/-! ## Reshape -/

theorem resolveShape_some (s : List ℕ) (n : ℕ) (h : s.prod = n) :
    resolveShape n (s.map some) = Except.ok s := by
  have h1 : (s.map some).count none = 0 := by
    rw [List.count_eq_zero]; simp
  have h2 : knownProd (s.map some) = s.prod := by
    clear h h1
    induction s with
    | nil => rfl
    | cons a s ih => simp [knownProd, ih]
  simp [resolveShape, h1, h2, h, Function.comp_def]

theorem resolveShape_infer (target : List (Option ℕ)) (m n : ℕ) (hc : target.count none = 1)
    (hk : 0 < knownProd target) (hn : n = knownProd target * m) :
    resolveShape n target = Except.ok (target.map (·.getD m)) := by
  subst hn
  simp [resolveShape, hc, hk.ne', Nat.mul_div_cancel_left _ hk]

theorem reshape_spec (t : Tensor K) (target : List (Option ℕ)) (s : List ℕ)
    (h : resolveShape t.shape.prod target = Except.ok s) :
    ∃ T, reshape t target = Except.ok T ∧ T.shape = s ∧
      ∀ idx idx', Valid t.shape idx' → ravel s idx = ravel t.shape idx' → T.get idx = t.get idx' := by
  refine ⟨_, by simp [reshape, h]; rfl, rfl, ?_⟩
  intro idx idx' hv he
  simp only
  rw [he, unravel_ravel hv]

/-- Value at a row-major position. -/
def Tensor.flat (t : Tensor K) (n : ℕ) : K := t.get (unravel t.shape n)

theorem Tensor.flat_ravel (t : Tensor K) {idx : List ℕ} (h : Valid t.shape idx) :
    t.flat (ravel t.shape idx) = t.get idx := by
  rw [Tensor.flat, unravel_ravel h]

theorem resolveShape_prod {n : ℕ} {target : List (Option ℕ)} {s : List ℕ}
    (h : resolveShape n target = Except.ok s) : s.prod = n := by
  unfold resolveShape at h
  simp only at h
  have key : ∀ (l : List (Option ℕ)) (v : ℕ),
      (l.map (·.getD v)).prod = knownProd l * v ^ (l.count none) := by
    intro l v
    induction l with
    | nil => simp [knownProd]
    | cons a l ih =>
      cases a with
      | none => simp [ih, pow_succ, knownProd]; ring
      | some a => simp [ih, knownProd]; ring
  split at h
  · rename_i hc
    split at h
    · rename_i h1
      cases h
      rw [key, hc]; simp [h1]
    · cases h
  · rename_i hc
    split at h
    · cases h
    · split at h
      · rename_i h0 h1
        cases h
        rw [key, hc, pow_one]
        exact Nat.mul_div_cancel' (Nat.dvd_of_mod_eq_zero h1)
      · cases h
  · cases h

/-- Reshaping keeps the row-major sequence of values. -/
theorem reshape_flat (t : Tensor K) (target : List (Option ℕ)) (s : List ℕ)
    (h : resolveShape t.shape.prod target = Except.ok s) :
    ∃ T, reshape t target = Except.ok T ∧ T.shape = s ∧
      ∀ n < t.shape.prod, T.flat n = t.flat n := by
  refine ⟨_, by simp [reshape, h]; rfl, rfl, ?_⟩
  intro n hn
  have hs := resolveShape_prod h
  simp only [Tensor.flat]
  rw [ravel_unravel (by rw [hs]; exact hn)]

/-! ## Matrix product -/

theorem matmul2 [Semiring K] (A B : Tensor K) (m k n : ℕ) (hA : A.shape = [m, k])
    (hB : B.shape = [k, n]) :
    ∃ C, matmul A B = Except.ok C ∧ C.shape = [m, n] ∧
      ∀ x y, C.get [x, y] = ∑ l ∈ Finset.range k, A.get [x, l] * B.get [l, y] := by
  unfold matmul
  split
  · rename_i m' k1 k2 n' h1 h2
    rw [hA] at h1; rw [hB] at h2
    cases h1; cases h2
    exact ⟨_, if_pos rfl, rfl, fun x y => rfl⟩
  · rename_i h1 h2; rw [hA] at h1; cases h1
  · rename_i h1 h2; exact absurd hB (h1 _ _ _ _ hA)

theorem matmul3 [Semiring K] (A B : Tensor K) (p m k n : ℕ) (hA : A.shape = [p, m, k])
    (hB : B.shape = [p, k, n]) :
    ∃ C, matmul A B = Except.ok C ∧ C.shape = [p, m, n] ∧
      ∀ o x y, C.get [o, x, y] = ∑ l ∈ Finset.range k, A.get [o, x, l] * B.get [o, l, y] := by
  unfold matmul
  split
  · rename_i h1 h2; rw [hA] at h1; cases h1
  · rename_i h1 h2
    rw [hA] at h1; rw [hB] at h2
    cases h1; cases h2
    exact ⟨_, if_pos ⟨rfl, rfl⟩, rfl, fun o x y => rfl⟩
  · rename_i h1 h2; exact absurd hB (h2 _ _ _ _ _ _ hA)

/-! ## Einsum -/

/-- Evaluate an einsum call on operands with known shapes. -/
macro "ein_simp" "[" hs:Lean.Parser.Tactic.simpLemma,* "]" : tactic =>
  `(tactic| simp [einsum, einDims, lookupLabel, List.lookup, sumOver, List.eraseDupsBy,
      List.eraseDupsBy.loop, List.filter, $hs,*])

end T3f
