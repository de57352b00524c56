import Verif.Proofs.Cost

/-!
# Orders of contraction and the greedy strategy
-/

namespace T3f

open Counted

variable {K : Type}

theorem validPath_one {p : List (ℕ × ℕ)} : ValidPath 1 p ↔ p = [] := Iff.rfl

theorem validPath_two {p : List (ℕ × ℕ)} (h : ValidPath 2 p) : p = [(0, 1)] := by
  match p, h with
  | [], h => exact absurd h (by simp [ValidPath])
  | (i, j) :: p, h =>
    obtain ⟨h1, h2, h3⟩ := h
    have h2 : j < 2 := h2
    rw [show i = 0 by omega, show j = 1 by omega, validPath_one.1 h3]

/-- The three orders for three operands. -/
theorem validPath_three {p : List (ℕ × ℕ)} (h : ValidPath 3 p) :
    p = [(0, 1), (0, 1)] ∨ p = [(0, 2), (0, 1)] ∨ p = [(1, 2), (0, 1)] := by
  match p, h with
  | [], h => exact absurd h (by simp [ValidPath])
  | (i, j) :: p, h =>
    obtain ⟨h1, h2, h3⟩ := h
    rw [validPath_two h3]
    have h2 : j < 3 := h2
    have : (i = 0 ∧ j = 1) ∨ (i = 0 ∧ j = 2) ∨ (i = 1 ∧ j = 2) := by omega
    rcases this with ⟨rfl, rfl⟩ | ⟨rfl, rfl⟩ | ⟨rfl, rfl⟩ <;> simp

/-- There is a path for every number of operands. -/
theorem validPath_exists (n : ℕ) : ∃ p, ValidPath n p := by
  induction n with
  | zero => exact ⟨[], rfl⟩
  | succ n ih =>
    rcases n with _ | n
    · exact ⟨[], rfl⟩
    · obtain ⟨p, hp⟩ := ih
      exact ⟨(0, 1) :: p, by omega, by omega, hp⟩

/-- There is a strategy that is never beaten. -/
theorem exists_best : ∃ S : Strategy, S.Within 1 := by
  have : ∀ dim ls out, ∃ q, ValidPath (List.length ls) q ∧ ∀ p, ValidPath ls.length p → pathCost dim out q ls ≤ 1 * pathCost dim out p ls := by
    intro dim ls out
    classical
    have hex : ∃ c, ∃ p, ValidPath ls.length p ∧ pathCost dim out p ls = c := by
      obtain ⟨p, hp⟩ := validPath_exists ls.length
      exact ⟨_, p, hp, rfl⟩
    obtain ⟨q, hq, hc⟩ := Nat.find_spec hex
    refine ⟨q, hq, fun p hp => ?_⟩
    rw [hc, Nat.one_mul]
    exact Nat.find_min' hex ⟨p, hp, rfl⟩
  choose f hf using this
  exact ⟨fun dim ls out => f dim ls out, fun dim ls out => hf dim ls out⟩

/-- Two operands are contracted. -/
theorem greedyPair_two (dim : Char → ℕ) (out : List Char) (l m : List Char) : greedyPair dim out [l, m] = (0, 1) := by
  unfold greedyPair sharingPairs
  by_cases h : ∃ c ∈ l, c ∈ m <;> simp [List.range_succ, h, leastBy]

/-- The greedy path for three operands is determined by the first pair. -/
theorem greedy_path_three (dim : Char → ℕ) (out : List Char) (l1 l2 l3 : List Char) {i j : ℕ} (hij : i < j) (hj : j < 3)
    (h : greedyPair dim out [l1, l2, l3] = (i, j)) : greedy dim [l1, l2, l3] out = [(i, j), (0, 1)] := by
  have : greedy dim [l1, l2, l3] out = greedyPath dim out 2 [l1, l2, l3] := rfl
  rw [this, greedyPath, greedyPath, greedyPath, h]
  have hl : ∃ x y, contractPair out [l1, l2, l3] i j = [x, y] := by
    have : (i = 0 ∧ j = 1) ∨ (i = 0 ∧ j = 2) ∨ (i = 1 ∧ j = 2) := by omega
    rcases this with ⟨rfl, rfl⟩ | ⟨rfl, rfl⟩ | ⟨rfl, rfl⟩ <;> exact ⟨_, _, rfl⟩
  obtain ⟨x, y, e⟩ := hl
  simp only [e, greedyPair_two]

/-- The greedy strategy contracts the two cores first if the mode is large. -/
theorem greedy_inner (Q A B : Tensor K) (M : List ℕ) (ax : List Char)
    (hM : (M.length = 1 ∧ ax = chars! "i") ∨ (M.length = 2 ∧ ax = chars! "ij")) (r : ℕ) (hr : 0 < r)
    (hQ : Q.shape = [r, r])
    (hA : A.shape = r :: (M ++ [r])) (hB : B.shape = r :: (M ++ [r])) (h : r ^ 2 + 1 < 2 * M.prod) :
    greedy (lookupLabel (einDims (innerSpec false ax [] [] []).1 [Q, A, B])) (innerSpec false ax [] [] []).1 (innerSpec false ax [] [] []).2 =
      [(1, 2), (0, 1)] := by
  have key : ∀ n : ℤ, (r : ℤ) ^ 2 + 1 < 2 * n → (r : ℤ) * (r * (r * r)) - r * (n * r) - r * (n * r) < - (r * r) := by
    intro n h1
    have h2 : (0 : ℤ) < r ^ 2 := by positivity
    nlinarith [mul_pos h2 (sub_pos.2 h1)]
  rcases hM with ⟨hM, rfl⟩ | ⟨hM, rfl⟩
  · obtain ⟨i, rfl⟩ := List.length_eq_one_iff.1 hM
    have k1 := key i (by simp at h; exact_mod_cast h)
    refine greedy_path_three _ _ _ _ _ (by decide) (by decide) ?_
    simp [greedyPair, sharingPairs, leastBy, greedyScore, labelSize, jointLabels, keptLabels, innerSpec, einDims, hQ, hA, hB,
      List.lookup, lookupLabel, List.range_succ]
    linarith
  · obtain ⟨i, j, rfl⟩ := List.length_eq_two.1 hM
    have k1 := key (i * j) (by simp at h; exact_mod_cast h)
    refine greedy_path_three _ _ _ _ _ (by decide) (by decide) ?_
    simp [greedyPair, sharingPairs, leastBy, greedyScore, labelSize, jointLabels, keptLabels, innerSpec, einDims, hQ, hA, hB,
      List.lookup, lookupLabel, List.range_succ]
    linarith

/-- The least element is one of the list. -/
theorem leastBy_mem {α : Type} (f : α → ℤ) (a : α) (l : List α) : leastBy f a l ∈ a :: l := by
  induction l generalizing a with
  | nil => simp [leastBy]
  | cons b l ih =>
    rw [leastBy]
    have := ih (if f b < f a then b else a)
    split_ifs at this ⊢ <;> simp at this ⊢ <;> tauto

theorem greedyPair_lt (dim : Char → ℕ) (out : List Char) (ls : List (List Char)) (h : 2 ≤ ls.length) :
    (greedyPair dim out ls).1 < (greedyPair dim out ls).2 ∧ (greedyPair dim out ls).2 < ls.length := by
  have hm : ∀ p ∈ sharingPairs ls, p.1 < p.2 ∧ p.2 < ls.length := by
    intro p hp
    simp only [sharingPairs, List.mem_filter, List.mem_flatMap, List.mem_map, List.mem_range] at hp
    obtain ⟨⟨j, hj, i, hi, rfl⟩, -⟩ := hp
    exact ⟨hi, hj⟩
  unfold greedyPair
  rcases e : sharingPairs ls with _ | ⟨p, l⟩
  · exact ⟨by show 0 < 1; omega, by show 1 < _; omega⟩
  · rw [e] at hm
    exact hm _ (leastBy_mem _ p l)

theorem contractPair_length (out : List Char) (ls : List (List Char)) {i j : ℕ} (hij : i < j) (hj : j < ls.length) :
    (contractPair out ls i j).length + 1 = ls.length := by
  simp only [contractPair, List.length_append, List.length_cons, List.length_nil]
  rw [List.length_eraseIdx_of_lt (by rw [List.length_eraseIdx_of_lt hj]; omega), List.length_eraseIdx_of_lt hj]
  omega

/-- The greedy strategy contracts all operands. -/
theorem greedy_valid : greedy.Valid := by
  have : ∀ n dim out ls, List.length ls = n + 1 → ValidPath (n + 1) (greedyPath dim out n ls) := by
    intro n dim out
    induction n with
    | zero => intro ls _; rfl
    | succ n ih =>
      intro ls hl
      obtain ⟨h1, h2⟩ := greedyPair_lt dim out ls (by omega)
      exact ⟨h1, by rw [← hl]; exact h2, ih _ (by have := contractPair_length out ls h1 h2; omega)⟩
  intro dim ls out
  rcases hl : ls.length with _ | n
  · simp [greedy, hl, greedyPath, ValidPath]
  · unfold greedy
    rw [hl]
    exact this n dim out ls hl

/-- `flat_inner` of two `TensorTrain`s with the default strategy, for cores with a large mode. -/
theorem flatInnerC_greedy_ge [CommRing K] {a b : TT K} (ha : a.WF) (hb : b.WF) (hr : a.rawShape = b.rawShape)
    (hab : a.batch = none) (hbb : b.batch = none) {k r : ℕ} (hk : 1 ≤ k) (hk' : k < a.ndims)
    (r1 : a.rank k = r) (r2 : a.rank (k + 1) = r) (r3 : b.rank k = r) (r4 : b.rank (k + 1) = r)
    (h : r ^ 2 + 1 < 2 * (a.modes k).prod) :
    ∃ T c, (flatInnerC greedy a b).run = Except.ok (T, c) ∧ flatInner a b = Except.ok T ∧ (a.modes k).prod * r ^ 4 ≤ c := by
  have hnd := ndims_eq_of_rawShape ha hb hr
  have hc : BCompat a.batch b.batch := by simp [BCompat, hab]
  have hmod : ∀ k, b.modes k = a.modes k := fun k => by simp [TT.modes, hr]
  have bpreA : a.bpre = [] := by simp [TT.bpre, hab]
  have bpreB : b.bpre = [] := by simp [TT.bpre, hbb]
  have hrpos : 0 < r := by rw [← r1]; exact ha.rank_pos k (by omega)
  obtain ⟨T, cs, eT, hcs⟩ := innerLoopC_inv greedy 'o' (Or.inl rfl) ha hb hr (Or.inl hab) (modeLabels a) rfl
    (fun i c => i = k → (a.modes k).prod * r ^ 4 ≤ c) (by omega) (by
      rintro i T hi hi' sT rfl
      have sA := ha.core_shape i hi'
      have sB := hb.core_shape i (by omega)
      rw [bpreA, r1, r2, List.nil_append] at sA
      rw [bpreB, r3, r4, hmod, List.nil_append] at sB
      rw [r1, r3] at sT
      obtain ⟨-, -, c3⟩ := innerCost_step 'o' (Or.inl rfl) none none (Or.inl rfl) T (a.core i) (b.core i) (a.modes i) (modeLabels a)
        (modeLabels_spec ha i) r r r r (by simpa [hab, hbb] using sT) sA sB
      have hg := greedy_inner T (a.core i) (b.core i) (a.modes i) (modeLabels a) (modeLabels_spec ha i) r hrpos
        (by simpa [resBatch, hab, hbb] using sT) sA sB h
      rw [hab, hbb]
      simp only [bLabel, resBatch, Option.isSome_none, Bool.false_eq_true, if_false] at c3 ⊢
      rw [einsumCost, hg, c3]
      simp only [Option.getD_none, Nat.one_mul]
      calc (a.modes i).prod * r ^ 4 = r * r * (a.modes i).prod * r * r := by ring
        _ ≤ _ := Nat.le_add_right _ _)
  have hrun : (flatInnerC greedy a b).run = Except.ok (squeezeAll T, ∑ k ∈ Finset.range a.ndims, cs k) := by
    unfold flatInnerC
    simp only [require_pos (show a.isMatrix ↔ b.isMatrix by simp [TT.isMatrix, hr]),
      require_pos ((isBroadcast_iff a b).2 hc), require_pos hnd.symm, free_bind,
      show squeezeBatchDim a = Except.ok a by simp [squeezeBatchDim, hab],
      show squeezeBatchDim b = Except.ok b by simp [squeezeBatchDim, hbb]]
    exact bind_pure_ok eT
  refine ⟨_, _, hrun, ?_, ?_⟩
  · rw [← value_flatInnerC greedy a b, Counted.value, hrun]; rfl
  · exact (hcs k hk' rfl).trans (Finset.single_le_sum (f := cs) (fun _ _ => Nat.zero_le _) (by simpa using hk'))

end T3f
