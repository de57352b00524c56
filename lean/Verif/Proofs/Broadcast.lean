import Verif.Tf.Tensor

/-!
# Broadcasting
-/

namespace T3f

theorem getD_reverse {s : List ℕ} {k : ℕ} (h : k < s.length) : s.reverse.getD k 0 = s.getD (s.length - 1 - k) 0 := by
  rw [List.getD_eq_getElem?_getD, List.getD_eq_getElem?_getD, List.getElem?_reverse h]

theorem valid_reverse_iff : ∀ {s i : List ℕ}, Valid s.reverse i.reverse ↔ Valid s i := by
  intro s i
  rw [valid_iff_getD, valid_iff_getD]
  simp only [List.length_reverse]
  constructor
  · rintro ⟨hl, h⟩
    refine ⟨hl, fun k hk => ?_⟩
    have := h (s.length - 1 - k) (by omega)
    rw [getD_reverse (by omega), getD_reverse (by omega)] at this
    rwa [show i.length - 1 - (s.length - 1 - k) = k by omega, show s.length - 1 - (s.length - 1 - k) = k by omega] at this
  · rintro ⟨hl, h⟩
    refine ⟨hl, fun k hk => ?_⟩
    rw [getD_reverse (by omega), getD_reverse (by omega), hl]
    exact h _ (by omega)

/-- `bproj` on reversed lists. -/
def bprojRev (s i : List ℕ) : List ℕ := List.zipWith (fun n i => if n = 1 then 0 else i) s i

theorem bproj_reverse {s i : List ℕ} (h : s.length ≤ i.length) : bproj s.reverse i.reverse = (bprojRev s i).reverse := by
  unfold bproj bprojRev
  rw [List.length_reverse, List.length_reverse, List.drop_reverse, show i.length - (i.length - s.length) = s.length by omega,
    ← List.reverse_zipWith (by simp; omega)]
  congr 1
  conv_rhs => rw [← List.take_append_drop s.length i, ← List.append_nil s, List.zipWith_append (by simp; omega)]
  simp

theorem bshape_valid {x y z q : List ℕ} (h : bshape x y = some z) (hq : Valid z q) :
    (x.length ≤ q.length ∧ Valid x (bprojRev x q)) ∧ (y.length ≤ q.length ∧ Valid y (bprojRev y q)) := by
  have self : ∀ {s i : List ℕ}, Valid s i → s.length ≤ i.length ∧ Valid s (bprojRev s i) := by
    intro s i hv
    refine ⟨hv.length_eq.ge, ?_⟩
    induction s generalizing i with
    | nil => simp [bprojRev]
    | cons n s ih =>
      obtain ⟨j, i', rfl, hj, hi⟩ := (valid_cons_iff _ _ _).1 hv
      refine ⟨?_, ih hi⟩
      show (if n = 1 then 0 else j) < n
      split <;> omega
  have nil : ∀ i : List ℕ, ([] : List ℕ).length ≤ i.length ∧ Valid [] (bprojRev [] i) := fun i => ⟨Nat.zero_le _, by simp [bprojRev]⟩
  induction x generalizing y z q with
  | nil =>
    simp only [bshape, Option.some.injEq] at h
    subst h
    exact ⟨nil _, self hq⟩
  | cons a x ih =>
    cases y with
    | nil =>
      simp only [bshape, Option.some.injEq] at h
      subst h
      exact ⟨self hq, nil _⟩
    | cons b y =>
      simp only [bshape] at h
      have step : ∀ c, (c :: ·) <$> bshape x y = some z → (a = c ∨ a = 1) → (b = c ∨ b = 1) →
          ((a :: x).length ≤ q.length ∧ Valid (a :: x) (bprojRev (a :: x) q)) ∧ ((b :: y).length ≤ q.length ∧ Valid (b :: y) (bprojRev (b :: y) q)) := by
        intro c hc ha hb
        cases hz : bshape x y with
        | none => rw [hz] at hc; cases hc
        | some w =>
          rw [hz] at hc
          obtain rfl : c :: w = z := by simpa using hc
          obtain ⟨j, q', rfl, hj, hq'⟩ := (valid_cons_iff _ _ _).1 hq
          obtain ⟨⟨l1, v1⟩, l2, v2⟩ := ih hz hq'
          refine ⟨⟨by simpa using l1, ?_, v1⟩, by simpa using l2, ?_, v2⟩
          · show (if a = 1 then 0 else j) < a
            split <;> omega
          · show (if b = 1 then 0 else j) < b
            split <;> omega
      split_ifs at h with h1 h2 h3
      · exact step _ h (Or.inl rfl) (Or.inl h1.symm)
      · exact step _ h (Or.inr h2) (Or.inl rfl)
      · exact step _ h (Or.inl rfl) (Or.inr h3)

/-- The operands of a broadcast operation are read at valid positions. -/
theorem bproj_bshape {x y z q : List ℕ} (h : bshape x y = some z) (hq : Valid z.reverse q) :
    Valid x.reverse (bproj x.reverse q) ∧ Valid y.reverse (bproj y.reverse q) := by
  obtain ⟨q, rfl⟩ : ∃ r, q = r.reverse := ⟨q.reverse, by simp⟩
  obtain ⟨⟨l1, v1⟩, l2, v2⟩ := bshape_valid h (valid_reverse_iff.1 hq)
  rw [bproj_reverse l1, bproj_reverse l2]
  exact ⟨valid_reverse_iff.2 v1, valid_reverse_iff.2 v2⟩

theorem bmatmul_eq {K : Type} [Semiring K] {a b : Tensor K} {pa pb p : List ℕ} {m k n : ℕ} (ha : a.shape = pa.reverse ++ [m, k])
    (hb : b.shape = pb.reverse ++ [k, n]) (hp : bshape pa pb = some p) :
    bmatmul a b = Except.ok ⟨p.reverse ++ [m, n], fun idx =>
      ∑ l ∈ Finset.range k, a.get (bproj pa.reverse (idx.take p.length) ++ [idx.getD p.length 0, l]) *
        b.get (bproj pb.reverse (idx.take p.length) ++ [l, idx.getD (p.length + 1) 0])⟩ := by
  unfold bmatmul
  have e1 : a.shape.reverse = k :: m :: pa := by rw [ha]; simp
  have e2 : b.shape.reverse = n :: k :: pb := by rw [hb]; simp
  simp only [e1, e2, hp, if_true]

/-- The special cases of `matmul` agree with the general rule. -/
theorem matmul_bmatmul {K : Type} [Semiring K] {a b C : Tensor K} (h : matmul a b = Except.ok C) :
    ∃ D, bmatmul a b = Except.ok D ∧ D.shape = C.shape ∧ ∀ i, Valid C.shape i → D.get i = C.get i := by
  unfold matmul at h
  split at h
  · rename_i m k k' n ea eb
    split_ifs at h with hk
    subst hk
    obtain rfl := Except.ok.inj h
    refine ⟨_, bmatmul_eq (pa := []) (pb := []) (p := []) ea eb rfl, rfl, fun i hi => ?_⟩
    obtain ⟨x, y, rfl, hx, hy⟩ := (valid_pair _ _ _).1 hi
    simp [bproj]
  · rename_i p m k p' k' n ea eb
    split_ifs at h with hk
    · obtain ⟨rfl, rfl⟩ := hk
      obtain rfl := Except.ok.inj h
      refine ⟨_, bmatmul_eq (pa := [p]) (pb := [p]) (p := [p]) ea eb (by simp [bshape]), rfl, fun i hi => ?_⟩
      obtain ⟨z, i, rfl, hz, hi⟩ := (valid_cons_iff _ _ _).1 hi
      obtain ⟨x, y, rfl, hx, hy⟩ := (valid_pair _ _ _).1 hi
      have : (if p = 1 then 0 else z) = z := by split <;> omega
      simp [bproj, this]
    · exact ⟨C, h, rfl, fun _ _ => rfl⟩
  · exact ⟨C, h, rfl, fun _ _ => rfl⟩

end T3f
