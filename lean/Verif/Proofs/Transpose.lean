import Verif.Proofs.WF
import Verif.Model.Full
import Mathlib.Data.List.Nodup
import Mathlib.Data.List.Perm.Basic

/-!
# The even/odd transposition used by `full`
-/

namespace T3f

variable {K : Type}

theorem getD_flatMap_pair (d : ℕ) (f g : ℕ → ℕ) (k : ℕ) (hk : k < d) :
    ((List.range d).flatMap fun k => [f k, g k]).getD (2 * k) 0 = f k ∧
    ((List.range d).flatMap fun k => [f k, g k]).getD (2 * k + 1) 0 = g k := by
  have hlen : ∀ d, ((List.range d).flatMap fun k => [f k, g k]).length = 2 * d := by
    intro d; simp [Nat.mul_comm]
  induction d with
  | zero => omega
  | succ d ih =>
    simp only [List.range_succ, List.flatMap_append, List.flatMap_cons, List.flatMap_nil,
      List.append_nil]
    by_cases h : k < d
    · rw [List.getD_append _ _ _ _ (by rw [hlen]; omega), List.getD_append _ _ _ _ (by rw [hlen]; omega)]
      exact ih h
    · have : k = d := by omega
      subst this
      rw [List.getD_append_right _ _ _ _ (by rw [hlen]), List.getD_append_right _ _ _ _ (by rw [hlen]; omega),
        hlen]
      simp

theorem range_two_mul (d : ℕ) :
    List.range (2 * d) = (List.range d).flatMap fun k => [2 * k, 2 * k + 1] := by
  induction d with
  | zero => rfl
  | succ d ih =>
    rw [show 2 * (d + 1) = 2 * d + 1 + 1 by ring, List.range_succ, List.range_succ, ih, List.range_succ]
    simp

/-- The permutation for a prefix of `l` untouched axes. -/
def eoPerm (l d : ℕ) : List ℕ := List.range l ++ (evenOddPerm d).map (· + l)

theorem eoPerm_zero (d : ℕ) : eoPerm 0 d = evenOddPerm d := by simp [eoPerm]
theorem eoPerm_one (d : ℕ) : eoPerm 1 d = 0 :: (evenOddPerm d).map (· + 1) := by
  simp [eoPerm, List.range_succ]

theorem evenOddPerm_nodup (d : ℕ) : (evenOddPerm d).Nodup := by
  unfold evenOddPerm
  rw [List.nodup_append]
  refine ⟨?_, ?_, ?_⟩
  · exact (List.nodup_range).map (fun a b h => by simpa using h)
  · exact (List.nodup_range).map (fun a b h => by simpa using h)
  · intro a ha b hb
    simp only [List.mem_map, List.mem_range] at ha hb
    obtain ⟨x, _, rfl⟩ := ha
    obtain ⟨y, _, rfl⟩ := hb
    omega

theorem eoPerm_nodup (l d : ℕ) : (eoPerm l d).Nodup := by
  unfold eoPerm
  rw [List.nodup_append]
  refine ⟨List.nodup_range, (evenOddPerm_nodup d).map (fun a b h => by simpa using h), ?_⟩
  intro a ha b hb
  simp only [List.mem_map, List.mem_range] at ha hb
  obtain ⟨y, _, rfl⟩ := hb
  omega

theorem eoPerm_length (l d : ℕ) : (eoPerm l d).length = l + 2 * d := by
  simp [eoPerm, evenOddPerm]; omega

theorem eoPerm_perm (l d : ℕ) : (eoPerm l d).Perm (List.range (l + 2 * d)) := by
  rw [List.perm_ext_iff_of_nodup (eoPerm_nodup l d) List.nodup_range]
  intro a
  simp only [eoPerm, evenOddPerm, List.mem_append, List.mem_range, List.mem_map, List.map_append,
    List.map_map]
  constructor
  · rintro (h | ⟨x, hx, rfl⟩ | ⟨x, hx, rfl⟩)
    · omega
    · simp; omega
    · simp; omega
  · intro h
    by_cases h1 : a < l
    · exact Or.inl h1
    · right
      rcases Nat.even_or_odd' (a - l) with ⟨c, hc | hc⟩
      · left; exact ⟨c, by omega, by simp; omega⟩
      · right; exact ⟨c, by omega, by simp; omega⟩

theorem eoPerm_idxOf_pre (l d a : ℕ) (h : a < l) : (eoPerm l d).idxOf a = a := by
  have h1 : a < (eoPerm l d).length := by rw [eoPerm_length]; omega
  have : (eoPerm l d)[a] = a := by simp [eoPerm, h]
  have h2 := (eoPerm_nodup l d).idxOf_getElem a h1
  rwa [this] at h2

theorem eoPerm_idxOf_even (l d k : ℕ) (h : k < d) : (eoPerm l d).idxOf (l + 2 * k) = l + k := by
  have h1 : l + k < (eoPerm l d).length := by rw [eoPerm_length]; omega
  have : (eoPerm l d)[l + k] = l + 2 * k := by
    simp [eoPerm, evenOddPerm, h]; omega
  have h2 := (eoPerm_nodup l d).idxOf_getElem (l + k) h1
  rwa [this] at h2

theorem eoPerm_idxOf_odd (l d k : ℕ) (h : k < d) :
    (eoPerm l d).idxOf (l + (2 * k + 1)) = l + d + k := by
  have h1 : l + d + k < (eoPerm l d).length := by rw [eoPerm_length]; omega
  have : (eoPerm l d)[l + d + k] = l + (2 * k + 1) := by
    rw [List.getElem_of_eq (show eoPerm l d = (List.range l ++ (List.range d).map (fun k => 2 * k + l))
      ++ (List.range d).map (fun k => 2 * k + 1 + l) by
        simp [eoPerm, evenOddPerm, Function.comp_def])]
    rw [List.getElem_append_right (by simp)]
    simp; omega
  have h2 := (eoPerm_nodup l d).idxOf_getElem (l + d + k) h1
  rwa [this] at h2

theorem transpose_eo (t : Tensor K) (pre row0 row1 : List ℕ) (d : ℕ)
    (h0 : row0.length = d) (h1 : row1.length = d)
    (hs : t.shape = pre ++ (List.range d).flatMap fun k => [row0.getD k 0, row1.getD k 0]) :
    ∃ T, transpose t (eoPerm pre.length d) = Except.ok T ∧ T.shape = pre ++ (row0 ++ row1) ∧
      ∀ p i j, p.length = pre.length → i.length = d → j.length = d →
        T.get (p ++ (i ++ j)) = t.get (p ++ (List.range d).flatMap fun k => [i.getD k 0, j.getD k 0]) := by
  have hlen : t.shape.length = pre.length + 2 * d := by
    rw [hs]; simp [Nat.mul_comm]
  refine ⟨_, by rw [transpose, if_pos (by rw [hlen]; exact eoPerm_perm _ _)], ?_, ?_⟩
  · simp only [eoPerm, evenOddPerm, List.map_append, List.map_map]
    congr 1
    · apply List.ext_getElem
      · simp
      · intro i h2 h3
        rw [List.getElem_map, List.getElem_range, hs, List.getD_append _ _ _ _ h3,
          List.getD_eq_getElem _ _ h3]
    · congr 1
      · apply List.ext_getElem
        · simp [h0]
        · intro i h2 h3
          have hi : i < d := by rw [← h0]; exact h3
          have := (getD_flatMap_pair d (row0.getD · 0) (row1.getD · 0) i hi).1
          rw [List.getElem_map, List.getElem_range, Function.comp, Function.comp, hs,
            List.getD_append_right _ _ _ _ (by omega),
            show 2 * i + pre.length - pre.length = 2 * i by omega, this, List.getD_eq_getElem _ _ h3]
      · apply List.ext_getElem
        · simp [h1]
        · intro i h2 h3
          have hi : i < d := by rw [← h1]; exact h3
          have := (getD_flatMap_pair d (row0.getD · 0) (row1.getD · 0) i hi).2
          rw [List.getElem_map, List.getElem_range, Function.comp, Function.comp, hs,
            List.getD_append_right _ _ _ _ (by omega),
            show 2 * i + 1 + pre.length - pre.length = 2 * i + 1 by omega, this, List.getD_eq_getElem _ _ h3]
  · intro p i j hp hi hj
    simp only
    congr 1
    rw [hlen, List.range_add, List.map_append, List.map_map]
    congr 1
    · apply List.ext_getElem
      · simp [hp]
      · intro a h2 h3
        rw [List.getElem_map, List.getElem_range, eoPerm_idxOf_pre _ _ _ (by omega),
          List.getD_append _ _ _ _ h3, List.getD_eq_getElem _ _ h3]
    · rw [range_two_mul, List.map_flatMap, List.flatMap_def, List.flatMap_def]
      congr 1
      apply List.map_congr_left
      intro k hk
      have hk' : k < d := by simpa using hk
      simp only [List.map_cons, Function.comp, List.map_nil]
      have e1 : (p ++ (i ++ j)).getD (pre.length + k) 0 = i.getD k 0 := by
        rw [List.getD_append_right _ _ _ _ (by omega), List.getD_append _ _ _ _ (by omega)]
        congr 1; omega
      have e2 : (p ++ (i ++ j)).getD (pre.length + d + k) 0 = j.getD k 0 := by
        rw [List.getD_append_right _ _ _ _ (by omega), List.getD_append_right _ _ _ _ (by omega)]
        congr 1; omega
      rw [eoPerm_idxOf_even _ _ _ hk', eoPerm_idxOf_odd _ _ _ hk', e1, e2]

end T3f
