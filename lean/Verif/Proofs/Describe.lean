import Verif.Model.Describe
import Verif.Spec.Describe
import Verif.Proofs.StaticOps
import Mathlib.Data.Nat.Digits.Lemmas

/-!
# Reading printed TT objects
-/

namespace T3f.Describe

variable {K : Type}

/-- The characters of decimal numbers. -/
def Dig (c : Char) : Prop := ∃ k < 10, c = Nat.digitChar k

theorem digit_inj {j k : ℕ} (hj : j < 10) (hk : k < 10) (h : Nat.digitChar j = Nat.digitChar k) : j = k := by
  interval_cases j <;> interval_cases k <;> first | rfl | (exact absurd h (by decide))

theorem decimal_dig (n : ℕ) : ∀ c ∈ decimal n, Dig c := by
  intro c hc
  unfold decimal at hc
  split at hc
  · rw [List.mem_singleton] at hc
    exact ⟨0, by omega, hc⟩
  · obtain ⟨k, hk, rfl⟩ := List.mem_map.1 hc
    exact ⟨k, Nat.digits_lt_base (by omega) (List.mem_reverse.1 hk), rfl⟩

theorem map_digit_inj : ∀ {l l' : List ℕ}, (∀ k ∈ l, k < 10) → (∀ k ∈ l', k < 10) → l.map Nat.digitChar = l'.map Nat.digitChar → l = l'
  | [], [], _, _, _ => rfl
  | [], _ :: _, _, _, h => by cases h
  | _ :: _, [], _, _, h => by cases h
  | a :: l, b :: l', h1, h2, h => by
    simp only [List.map_cons, List.cons.injEq] at h
    rw [digit_inj (h1 a (by simp)) (h2 b (by simp)) h.1, map_digit_inj (fun k hk => h1 k (by simp [hk])) (fun k hk => h2 k (by simp [hk])) h.2]

theorem decimal_inj {m n : ℕ} (h : decimal m = decimal n) : m = n := by
  have key : ∀ k, 0 < k → decimal k ≠ ['0'] := by
    intro k hk hc
    unfold decimal at hc
    rw [if_neg (by omega)] at hc
    have : (Nat.digits 10 k).reverse = [0] := map_digit_inj (fun j hj => Nat.digits_lt_base (by omega) (List.mem_reverse.1 hj)) (by simp) hc
    have h2 : Nat.digits 10 k = [0] := by
      rw [← List.reverse_reverse (Nat.digits 10 k), this]; rfl
    have h3 := Nat.ofDigits_digits 10 k
    rw [h2] at h3
    simp at h3
    omega
  rcases Nat.eq_zero_or_pos m with rfl | hm
  · rcases Nat.eq_zero_or_pos n with rfl | hn
    · rfl
    · exact absurd h.symm (key n hn)
  · rcases Nat.eq_zero_or_pos n with rfl | hn
    · exact absurd h (key m hm)
    · unfold decimal at h
      rw [if_neg (by omega), if_neg (by omega)] at h
      have h' := map_digit_inj (fun j hj => Nat.digits_lt_base (by omega) (List.mem_reverse.1 hj))
        (fun j hj => Nat.digits_lt_base (by omega) (List.mem_reverse.1 hj)) h
      exact Nat.digits_inj_iff.1 (List.reverse_injective h')

theorem decimal_ne (n : ℕ) : decimal n ≠ [] := by
  unfold decimal
  split
  · simp
  · rename_i h
    simpa [Nat.digits_eq_nil_iff_eq_zero] using h

theorem digit_val {k : ℕ} (hk : k < 10) : (Nat.digitChar k).toNat - '0'.toNat = k := by
  interval_cases k <;> rfl

theorem read_digits : ∀ l : List ℕ, (∀ k ∈ l, k < 10) → readNat (l.reverse.map Nat.digitChar) = Nat.ofDigits 10 l
  | [], _ => rfl
  | a :: l, h => by
    have ih := read_digits l fun k hk => h k (by simp [hk])
    unfold readNat at ih ⊢
    rw [List.reverse_cons, List.map_append, List.foldl_append, ih, List.map_cons, List.map_nil, List.foldl_cons, List.foldl_nil,
      digit_val (h a (by simp)), Nat.ofDigits_cons]
    omega

theorem read_decimal (n : ℕ) : readNat (decimal n) = n := by
  unfold decimal
  split
  · rename_i h
    rw [h]; rfl
  · rw [read_digits _ (fun k hk => Nat.digits_lt_base (by omega) hk), Nat.ofDigits_digits]

/-- Words over an alphabet are found in front of a letter that is not in it. -/
theorem split_word {P : Char → Prop} : ∀ {w w' : List Char} {c c' : Char} {r r' : List Char}, (∀ x ∈ w, P x) → (∀ x ∈ w', P x) → ¬ P c → ¬ P c' →
    w ++ c :: r = w' ++ c' :: r' → w = w' ∧ c :: r = c' :: r'
  | [], [], _, _, _, _, _, _, _, _, h => ⟨rfl, h⟩
  | [], x :: w', c, c', r, r', _, h2, hc, _, h => by
    simp only [List.nil_append, List.cons_append, List.cons.injEq] at h
    exact absurd (h.1 ▸ h2 x (by simp)) hc
  | x :: w, [], c, c', r, r', h1, _, _, hc, h => by
    simp only [List.nil_append, List.cons_append, List.cons.injEq] at h
    exact absurd (h.1 ▸ h1 x (by simp)) hc
  | x :: w, y :: w', c, c', r, r', h1, h2, hc, hc', h => by
    simp only [List.cons_append, List.cons.injEq] at h
    obtain ⟨a, b⟩ := split_word (fun z hz => h1 z (by simp [hz])) (fun z hz => h2 z (by simp [hz])) hc hc' h.2
    exact ⟨by rw [h.1, a], b⟩

theorem not_dig {c : Char} (h : ∀ k < 10, c ≠ Nat.digitChar k) : ¬ Dig c := fun ⟨k, hk, e⟩ => h k hk e

theorem decimal_sep {m n : ℕ} {c c' : Char} {r r' : List Char} (hc : ¬ Dig c) (hc' : ¬ Dig c') (h : decimal m ++ c :: r = decimal n ++ c' :: r') :
    m = n ∧ c :: r = c' :: r' := by
  obtain ⟨a, b⟩ := split_word (decimal_dig m) (decimal_dig n) hc hc' h
  exact ⟨decimal_inj a, b⟩

/-- Characters that occur in sizes. -/
def SizeChar (c : Char) : Prop := Dig c ∨ c ∈ chars! "None"

theorem comma_size : ¬ SizeChar ',' := by
  rintro (h | h)
  · exact not_dig (by decide) h
  · revert h; decide

theorem paren_size : ¬ SizeChar ')' := by
  rintro (h | h)
  · exact not_dig (by decide) h
  · revert h; decide

theorem sizeStr_char (a : Option ℕ) : ∀ c ∈ sizeStr a, SizeChar c := by
  cases a with
  | none => exact fun c hc => Or.inr hc
  | some n => exact fun c hc => Or.inl (decimal_dig n c hc)

theorem sizeStr_inj {a b : Option ℕ} (h : sizeStr a = sizeStr b) : a = b := by
  have key : ∀ n, decimal n ≠ chars! "None" := by
    intro n hn
    have : Dig 'N' := decimal_dig n _ (by rw [hn]; simp)
    exact not_dig (by decide) this
  cases a with
  | none =>
    cases b with
    | none => rfl
    | some n => exact absurd h.symm (key n)
  | some m =>
    cases b with
    | none => exact absurd h (key m)
    | some n => exact congrArg some (decimal_inj h)

theorem size_sep {a b : Option ℕ} {c c' : Char} {r r' : List Char} (hc : ¬ SizeChar c) (hc' : ¬ SizeChar c') (h : sizeStr a ++ c :: r = sizeStr b ++ c' :: r') :
    a = b ∧ c :: r = c' :: r' := by
  obtain ⟨x, y⟩ := split_word (sizeStr_char a) (sizeStr_char b) hc hc' h
  exact ⟨sizeStr_inj x, y⟩

/-- What follows a size in the string of a shape. -/
theorem more_head (l : List (Option ℕ)) (r : List Char) : ∃ c t, moreSizes l ++ ')' :: r = c :: t ∧ ¬ SizeChar c := by
  cases l with
  | nil => exact ⟨_, _, rfl, paren_size⟩
  | cons a l => exact ⟨_, _, rfl, comma_size⟩

theorem more_sep : ∀ {l l' : List (Option ℕ)} {r r' : List Char}, moreSizes l ++ ')' :: r = moreSizes l' ++ ')' :: r' → l = l' ∧ r = r'
  | [], [], _, _, h => by simpa [moreSizes] using h
  | [], _ :: _, _, _, h => by simp [moreSizes] at h
  | _ :: _, [], _, _, h => by simp [moreSizes] at h
  | a :: l, b :: l', r, r', h => by
    simp only [moreSizes, List.cons_append, List.nil_append, List.append_assoc, List.cons.injEq, true_and] at h
    obtain ⟨c, t, e, hc⟩ := more_head l r
    obtain ⟨c', t', e', hc'⟩ := more_head l' r'
    rw [e, e'] at h
    obtain ⟨x, y⟩ := size_sep hc hc' h
    rw [← e, ← e'] at y
    obtain ⟨z, w⟩ := more_sep y
    exact ⟨by rw [x, z], w⟩

theorem shape_sep {l l' : List (Option ℕ)} {r r' : List Char} (h : shapeStr l ++ r = shapeStr l' ++ r') : l = l' ∧ r = r' := by
  have h2 : ∀ (a : Option ℕ) (q q' : List Char), ')' :: q ≠ sizeStr a ++ q' := by
    intro a q q' hq
    cases ha : sizeStr a with
    | nil =>
      cases a with
      | none => simp [sizeStr] at ha
      | some n => exact decimal_ne n ha
    | cons c t =>
      have hc := sizeStr_char a c (by rw [ha]; simp)
      rw [ha] at hq
      simp only [List.cons_append, List.cons.injEq] at hq
      rw [← hq.1] at hc
      exact paren_size hc
  match l, l' with
  | [], [] => simpa [shapeStr] using h
  | [], [b] =>
    simp only [shapeStr, List.cons_append, List.nil_append, List.append_assoc, List.cons.injEq, true_and] at h
    exact absurd h (h2 _ _ _)
  | [], b :: b' :: l' =>
    simp only [shapeStr, List.cons_append, List.nil_append, List.append_assoc, List.cons.injEq, true_and] at h
    exact absurd h (h2 _ _ _)
  | [a], [] =>
    simp only [shapeStr, List.cons_append, List.nil_append, List.append_assoc, List.cons.injEq, true_and] at h
    exact absurd h.symm (h2 _ _ _)
  | a :: a' :: l, [] =>
    simp only [shapeStr, List.cons_append, List.nil_append, List.append_assoc, List.cons.injEq, true_and] at h
    exact absurd h.symm (h2 _ _ _)
  | [a], [b] =>
    simp only [shapeStr, List.cons_append, List.nil_append, List.append_assoc, List.cons.injEq, true_and] at h
    obtain ⟨x, y⟩ := size_sep comma_size comma_size h
    simp only [List.cons.injEq, true_and] at y
    exact ⟨by rw [x], y⟩
  | [a], b :: b' :: l' =>
    simp only [shapeStr, moreSizes, List.cons_append, List.nil_append, List.append_assoc, List.cons.injEq, true_and] at h
    obtain ⟨x, y⟩ := size_sep comma_size comma_size h
    simp at y
  | a :: a' :: l, [b] =>
    simp only [shapeStr, moreSizes, List.cons_append, List.nil_append, List.append_assoc, List.cons.injEq, true_and] at h
    obtain ⟨x, y⟩ := size_sep comma_size comma_size h
    simp at y
  | a :: a' :: l, b :: b' :: l' =>
    simp only [shapeStr, List.cons_append, List.nil_append, List.append_assoc, List.cons.injEq, true_and] at h
    obtain ⟨c, t, e, hc⟩ := more_head (a' :: l) r
    obtain ⟨c', t', e', hc'⟩ := more_head (b' :: l') r'
    rw [e, e'] at h
    obtain ⟨x, y⟩ := size_sep hc hc' h
    rw [← e, ← e'] at y
    obtain ⟨z, w⟩ := more_sep y
    exact ⟨by rw [x, z], w⟩

theorem T_not_dig : ¬ Dig 'T' := not_dig (by decide)
theorem space_not_dig : ¬ Dig ' ' := not_dig (by decide)

theorem decimal_ne_T (n : ℕ) (q q' : List Char) : 'T' :: q ≠ decimal n ++ q' := by
  intro h
  cases hd : decimal n with
  | nil => exact decimal_ne n hd
  | cons c t =>
    rw [hd] at h
    simp only [List.cons_append, List.cons.injEq] at h
    exact T_not_dig (h.1 ▸ decimal_dig n c (by rw [hd]; simp))

/-- The beginning of the string says which kind of object it is. -/
theorem kind_sep {b b' : Option ℕ} {v v' m m' : Bool} {r r' : List Char} (h : kindStr b v m ++ r = kindStr b' v' m' ++ r') :
    b = b' ∧ v = v' ∧ m = m' ∧ r = r' := by
  cases b with
  | none =>
    cases b' with
    | none => cases v <;> cases v' <;> cases m <;> cases m' <;> simp [kindStr] at h ⊢ <;> exact h
    | some n =>
      exfalso
      cases v <;> cases m <;> simp only [kindStr, List.cons_append, List.nil_append, List.append_assoc, List.cons.injEq, true_and, if_true,
        Bool.false_eq_true, if_false] at h <;> exact decimal_ne_T _ _ _ h
  | some k =>
    cases b' with
    | none =>
      exfalso
      cases v' <;> cases m' <;> simp only [kindStr, List.cons_append, List.nil_append, List.append_assoc, List.cons.injEq, true_and, if_true,
        Bool.false_eq_true, if_false] at h <;> exact decimal_ne_T _ _ _ h.symm
    | some n =>
      simp only [kindStr, List.cons_append, List.nil_append, List.append_assoc, List.cons.injEq, true_and] at h
      obtain ⟨x, y⟩ := decimal_sep space_not_dig space_not_dig h
      refine ⟨by rw [x], ?_⟩
      cases v <;> cases v' <;> cases m <;> cases m' <;> simp at y ⊢ <;> exact y

variable [Zero K] {s s' : Sym K} {t t' : TT K}

theorem prod_cases {row : List (Option ℕ)} (h : row ≠ []) :
    (∃ l : List ℕ, row = l.map some ∧ prodPy row = Except.ok (some l.prod)) ∨ (none ∈ row ∧ (prodPy row = Except.error Err.type ∨ prodPy row = Except.ok none)) := by
  by_cases hn : none ∈ row
  · refine Or.inr ⟨hn, ?_⟩
    match row, h with
    | [a], _ =>
      rw [List.mem_singleton] at hn
      rw [← hn]
      exact Or.inr rfl
    | a :: b :: l, _ => exact Or.inl (Static.prodPy_unknown _ hn (by simp))
  · refine Or.inl ?_
    have : ∃ l : List ℕ, row = l.map some := by
      clear h
      induction row with
      | nil => exact ⟨[], rfl⟩
      | cons a l ih =>
        obtain ⟨l', rfl⟩ := ih (fun hc => hn (by simp [hc]))
        cases a with
        | none => exact absurd (by simp) hn
        | some n => exact ⟨n :: l', rfl⟩
    obtain ⟨l, rfl⟩ := this
    exact ⟨l, rfl, Static.prodPy_known l (by simpa using h)⟩

theorem matrix_shape (b : Option ℕ) (x y : Option ℕ) : pyGet (b.toList.map some ++ [x, y]) (if b.isSome then 1 else 0) = Except.ok x ∧
    pyGet (b.toList.map some ++ [x, y]) ((if b.isSome then 1 else 0) + 1) = Except.ok y := by cases b <;> exact ⟨rfl, rfl⟩

/-- The string of a TT-matrix. -/
theorem str_matrix (h : s.Is t) (hM : s.isMatrix) (v : Bool) : ∃ r0 r1, s.rawShape = [r0, r1] ∧
    (s.KnownModes → ∃ l0 l1 : List ℕ, r0 = l0.map some ∧ r1 = l1.map some ∧ s.str v = Except.ok (kindStr s.batch v true ++ (decimal l0.prod ++ (chars! " x " ++ (decimal l1.prod ++ (chars! ", underlying tensor shape: " ++ (shapeStr r0 ++
      (chars! " x " ++ (shapeStr r1 ++ (chars! ", TT-ranks: " ++ shapeStr s.ttRanks)))))))))) ∧
    (¬ s.KnownModes → s.str v = Except.error Err.type) := by
  have hM' : s.rawShape.length = 2 := hM
  match hr : s.rawShape with
  | [r0, r1] =>
    have hl : ∀ row ∈ s.rawShape, row ≠ [] := by
      intro row hrow hc
      have h1 := Static.Is.row_len h hrow
      have := h.wf.pos
      rw [hc] at h1; simp at h1; omega
    have hk : s.KnownModes ↔ none ∉ r0 ∧ none ∉ r1 := by simp [Sym.KnownModes, hr]
    have hb : s.baseShape = (prodPy r0 >>= fun a => prodPy r1 >>= fun b => pure [a, b]) := by
      unfold Sym.baseShape
      rw [if_pos hM, hr]; rfl
    have c0 := prod_cases (hl r0 (by simp [hr]))
    have c1 := prod_cases (hl r1 (by simp [hr]))
    refine ⟨r0, r1, rfl, fun hkn => ?_, fun hkn => ?_⟩
    · obtain ⟨k0, k1⟩ := hk.1 hkn
      obtain ⟨m, hm, em⟩ := c0.resolve_right (fun hc => k0 hc.1)
      obtain ⟨n, hn, en⟩ := c1.resolve_right (fun hc => k1 hc.1)
      refine ⟨m, n, hm, hn, ?_⟩
      unfold Sym.str Sym.getShape
      rw [hb, em, R.ok_bind, en]
      simp only [R.ok_bind, R.pure_eq, if_pos hM, (matrix_shape _ _ _).1, (matrix_shape _ _ _).2, percentD, hr]
      rfl
    · unfold Sym.str Sym.getShape
      rw [hb]
      rcases c0 with ⟨m, k0, em⟩ | ⟨k0, em | em⟩
      · rcases c1 with ⟨n, k1, en⟩ | ⟨k1, en | en⟩
        · exact absurd (hk.2 ⟨by simp [k0], by simp [k1]⟩) hkn
        · rw [em, R.ok_bind, en]; rfl
        · rw [em, R.ok_bind, en]
          simp only [R.ok_bind, R.pure_eq, if_pos hM, (matrix_shape _ _ _).1, (matrix_shape _ _ _).2, percentD]
          rfl
      · rw [em]; rfl
      · rcases c1 with ⟨n, k1, en⟩ | ⟨k1, en | en⟩
        · rw [em, R.ok_bind, en]
          simp only [R.ok_bind, R.pure_eq, if_pos hM, (matrix_shape _ _ _).1, (matrix_shape _ _ _).2, percentD]
          rfl
        · rw [em, R.ok_bind, en]; rfl
        · rw [em, R.ok_bind, en]
          simp only [R.ok_bind, R.pure_eq, if_pos hM, (matrix_shape _ _ _).1, (matrix_shape _ _ _).2, percentD]
          rfl
  | [] => rw [hr] at hM'; cases hM'
  | [_] => rw [hr] at hM'; cases hM'
  | _ :: _ :: _ :: _ => rw [hr] at hM'; simp at hM'

/-- The string of a TT-tensor. -/
theorem str_tensor (h : s.Is t) (hM : ¬ s.isMatrix) (v : Bool) : ∃ r, s.rawShape = [r] ∧
    s.str v = Except.ok (kindStr s.batch v false ++ (shapeStr r ++ (chars! ", TT-ranks: " ++ shapeStr s.ttRanks))) := by
  have hM' : s.rawShape.length ≠ 2 := hM
  have h1 : s.rawShape.length = 1 := by
    have := h.wf.rows
    rw [Static.Is.rows_len h] at hM' ⊢
    omega
  match hr : s.rawShape with
  | [r] =>
    refine ⟨r, rfl, ?_⟩
    have hb : s.baseShape = Except.ok r := by
      unfold Sym.baseShape
      rw [if_neg hM, hr]; rfl
    unfold Sym.str Sym.getShape
    rw [hb]
    simp only [R.ok_bind, R.pure_eq, if_neg hM]
    cases s.batch <;> rfl
  | [] => rw [hr] at h1; cases h1
  | _ :: _ :: _ => rw [hr] at h1; simp at h1

theorem str_inj (h : s.Is t) (h' : s'.Is t') {v v' : Bool} {x : List Char} (e : s.str v = Except.ok x) (e' : s'.str v' = Except.ok x) :
    v = v' ∧ s.batch = s'.batch ∧ s.rawShape = s'.rawShape ∧ s.ttRanks = s'.ttRanks := by
  have key : ∀ (s : Sym K) (t : TT K), s.Is t → ∀ v, s.str v = Except.ok x → ∃ (m : Bool) (q : List Char), x = kindStr s.batch v m ++ q ∧
      (m = false → ∃ r, s.rawShape = [r] ∧ q = shapeStr r ++ (chars! ", TT-ranks: " ++ shapeStr s.ttRanks)) ∧
      (m = true → ∃ r0 r1 a b, s.rawShape = [r0, r1] ∧ q = decimal a ++ (chars! " x " ++ (decimal b ++ (chars! ", underlying tensor shape: " ++ (shapeStr r0 ++
        (chars! " x " ++ (shapeStr r1 ++ (chars! ", TT-ranks: " ++ shapeStr s.ttRanks)))))))) := by
    intro s t h v e
    by_cases hM : s.isMatrix
    · obtain ⟨r0, r1, hr, h1, h2⟩ := str_matrix h hM v
      by_cases hk : s.KnownModes
      · obtain ⟨m, n, -, -, e2⟩ := h1 hk
        rw [e] at e2
        exact ⟨true, _, Except.ok.inj e2, fun hc => (by cases hc), fun _ => ⟨r0, r1, _, _, hr, rfl⟩⟩
      · rw [h2 hk] at e; cases e
    · obtain ⟨r, hr, e2⟩ := str_tensor h hM v
      rw [e] at e2
      exact ⟨false, _, Except.ok.inj e2, fun _ => ⟨r, hr, rfl⟩, fun hc => (by cases hc)⟩
  have nil_sep : ∀ {l l' : List (Option ℕ)}, shapeStr l = shapeStr l' → l = l' := fun {l l'} hl => (shape_sep (l := l) (l' := l') (r := []) (r' := [])
    (by simpa using hl)).1
  obtain ⟨m, q, ex, ht, hm⟩ := key s t h v e
  obtain ⟨m', q', ex', ht', hm'⟩ := key s' t' h' v' e'
  obtain ⟨hb, hv, hmm, hq⟩ := kind_sep (ex.symm.trans ex')
  refine ⟨hv, hb, ?_⟩
  subst hmm
  cases m with
  | false =>
    obtain ⟨r, hr, eq⟩ := ht rfl
    obtain ⟨r', hr', eq'⟩ := ht' rfl
    rw [eq, eq'] at hq
    obtain ⟨a, b⟩ := shape_sep hq
    rw [hr, hr', a]
    exact ⟨rfl, nil_sep (List.append_cancel_left b)⟩
  | true =>
    obtain ⟨r0, r1, a, b, hr, eq⟩ := hm rfl
    obtain ⟨r0', r1', a', b', hr', eq'⟩ := hm' rfl
    rw [eq, eq'] at hq
    obtain ⟨-, e1⟩ := decimal_sep space_not_dig space_not_dig hq
    have e2 := List.append_cancel_left (as := chars! " x ") e1
    obtain ⟨-, e3⟩ := decimal_sep (not_dig (by decide)) (not_dig (by decide)) e2
    obtain ⟨i0, e4⟩ := shape_sep (List.append_cancel_left (as := chars! ", underlying tensor shape: ") e3)
    obtain ⟨i1, e5⟩ := shape_sep (List.append_cancel_left (as := chars! " x ") e4)
    rw [hr, hr', i0, i1]
    exact ⟨rfl, nil_sep (List.append_cancel_left (as := chars! ", TT-ranks: ") e5)⟩

end T3f.Describe
