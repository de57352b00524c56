import Verif.Proofs.ReduceSum
import Verif.Spec.ElemDist
import Mathlib.Analysis.InnerProductSpace.PiL2
import Mathlib.Data.Nat.Log
import Mathlib.Tactic.Positivity

/-! # Errors of the summation trees -/

namespace T3f

/-! ## Distances -/

theorem elemDist_eq_dist2 (s : List ℕ) (X Y : List ℕ → ℝ) : elemDist s X Y = √(dist2 s X Y) := rfl

theorem elemNorm_eq_dist2 (s : List ℕ) (X : List ℕ → ℝ) : elemNorm s X = √(dist2 s X 0) := by
  unfold elemNorm dist2; simp

theorem elemDist_eq_dist (s : List ℕ) (X Y : List ℕ → ℝ) :
    elemDist s X Y = dist (WithLp.toLp 2 fun n : Fin s.prod => X (unravel s n)) (WithLp.toLp 2 fun n : Fin s.prod => Y (unravel s n)) := by
  rw [EuclideanSpace.dist_eq, elemDist, Finset.sum_range]
  congr 1
  refine Finset.sum_congr rfl fun n _ => ?_
  rw [Real.dist_eq, sq_abs]

theorem elemDist_triangle (s : List ℕ) (X Y Z : List ℕ → ℝ) : elemDist s X Z ≤ elemDist s X Y + elemDist s Y Z := by
  rw [elemDist_eq_dist, elemDist_eq_dist, elemDist_eq_dist]; exact dist_triangle _ _ _

theorem elemDist_comm (s : List ℕ) (X Y : List ℕ → ℝ) : elemDist s X Y = elemDist s Y X := by
  rw [elemDist_eq_dist, elemDist_eq_dist, dist_comm]

theorem elemDist_nonneg (s : List ℕ) (X Y : List ℕ → ℝ) : 0 ≤ elemDist s X Y := Real.sqrt_nonneg _

theorem elemDist_congr {s : List ℕ} {X X' Y Y' : List ℕ → ℝ} (hX : ∀ i, Valid s i → X i = X' i) (hY : ∀ i, Valid s i → Y i = Y' i) :
    elemDist s X Y = elemDist s X' Y' := by
  unfold elemDist
  congr 1
  refine Finset.sum_congr rfl fun n hn => ?_
  rw [hX _ (unravel_valid (Finset.mem_range.1 hn)), hY _ (unravel_valid (Finset.mem_range.1 hn))]

theorem elemNorm_congr {s : List ℕ} {X X' : List ℕ → ℝ} (hX : ∀ i, Valid s i → X i = X' i) : elemNorm s X = elemNorm s X' := by
  unfold elemNorm
  congr 1
  exact Finset.sum_congr rfl fun n hn => by rw [hX _ (unravel_valid (Finset.mem_range.1 hn))]

theorem elemDist_add_le (s : List ℕ) (A B C D : List ℕ → ℝ) :
    elemDist s (fun i => A i + B i) (fun i => C i + D i) ≤ elemDist s A C + elemDist s B D := by
  rw [elemDist_eq_dist, elemDist_eq_dist, elemDist_eq_dist]
  exact dist_add_add_le (WithLp.toLp 2 fun n : Fin s.prod => A (unravel s n)) (WithLp.toLp 2 fun n : Fin s.prod => B (unravel s n))
    (WithLp.toLp 2 fun n : Fin s.prod => C (unravel s n)) (WithLp.toLp 2 fun n : Fin s.prod => D (unravel s n))

theorem elemNorm_add_le (s : List ℕ) (A B : List ℕ → ℝ) : elemNorm s (fun i => A i + B i) ≤ elemNorm s A + elemNorm s B := by
  have := elemDist_add_le s A B 0 0
  rw [elemNorm_eq_dist2, elemNorm_eq_dist2, elemNorm_eq_dist2]
  refine le_trans (le_of_eq ?_) this
  rw [elemDist_eq_dist2]; simp [dist2]

theorem elemNorm_zero (s : List ℕ) : elemNorm s 0 = 0 := by simp [elemNorm]

theorem RoundsTo.dist_le {rows : List (List ℕ)} {b : ℕ → ℕ} {d : ℕ} {S X F : List ℕ → ℝ} (h : RoundsTo rows b d S X) (hF : RepEntry rows b F) :
    elemDist (restShape rows) S X ≤ √(d - 1 : ℕ) * elemDist (restShape rows) S F := by
  rw [elemDist_eq_dist2, elemDist_eq_dist2, ← Real.sqrt_mul (Nat.cast_nonneg _)]
  exact Real.sqrt_le_sqrt (h.opt F hF)

theorem RoundsTo.norm_le {rows : List (List ℕ)} {b : ℕ → ℕ} {d : ℕ} {S X : List ℕ → ℝ} (h : RoundsTo rows b d S X) :
    elemNorm (restShape rows) X ≤ elemNorm (restShape rows) S := by
  rw [elemNorm_eq_dist2, elemNorm_eq_dist2]
  refine Real.sqrt_le_sqrt ?_
  have := h.pyth
  have := dist2_nonneg (restShape rows) S X
  linarith

/-! ## The bound -/

/-- Bound for the error of node `q` at level `l`, when the nodes `nodes j` of level `j + 1` are rounded and `δ j` are the distances of their exact values from the tensors within the bounds. -/
noncomputable def treeErr (nodes : ℕ → Finset ℕ) (c : ℝ) (δ : ℕ → ℕ → ℝ) (l q : ℕ) : ℝ :=
  ∑ j ∈ Finset.range l, ∑ q' ∈ (nodes j).filter (fun q' => q' / 2 ^ (l - 1 - j) = q), c * (1 + c) ^ (l - 1 - j) * δ j q'

theorem treeErr_zero (nodes : ℕ → Finset ℕ) (c : ℝ) (δ : ℕ → ℕ → ℝ) (q : ℕ) : treeErr nodes c δ 0 q = 0 := rfl

theorem treeErr_nonneg {nodes : ℕ → Finset ℕ} {c : ℝ} (hc : 0 ≤ c) {δ : ℕ → ℕ → ℝ} (hδ : ∀ j q, 0 ≤ δ j q) (l q : ℕ) : 0 ≤ treeErr nodes c δ l q :=
  Finset.sum_nonneg fun j _ => Finset.sum_nonneg fun q' _ => mul_nonneg (mul_nonneg hc (pow_nonneg (by linarith) _)) (hδ j q')

theorem treeErr_succ (nodes : ℕ → Finset ℕ) (c : ℝ) (δ : ℕ → ℕ → ℝ) (l q : ℕ) :
    treeErr nodes c δ (l + 1) q = (1 + c) * (treeErr nodes c δ l (2 * q) + treeErr nodes c δ l (2 * q + 1)) + if q ∈ nodes l then c * δ l q else 0 := by
  rw [treeErr, Finset.sum_range_succ, treeErr, treeErr, ← Finset.sum_add_distrib, Finset.mul_sum]
  congr 1
  · refine Finset.sum_congr rfl fun j hj => ?_
    rw [Finset.mem_range] at hj
    have e : (nodes j).filter (fun q' => q' / 2 ^ (l + 1 - 1 - j) = q) =
        (nodes j).filter (fun q' => q' / 2 ^ (l - 1 - j) = 2 * q) ∪ (nodes j).filter (fun q' => q' / 2 ^ (l - 1 - j) = 2 * q + 1) := by
      ext q'
      simp only [Finset.mem_filter, Finset.mem_union, ← and_or_left]
      refine and_congr_right fun _ => ?_
      rw [show l + 1 - 1 - j = l - 1 - j + 1 by omega, pow_succ, ← Nat.div_div_eq_div_mul]
      omega
    rw [e, Finset.sum_union (by
      rw [Finset.disjoint_left]
      intro a ha hb
      simp only [Finset.mem_filter] at ha hb
      omega), mul_add, Finset.mul_sum, Finset.mul_sum]
    congr 1 <;> refine Finset.sum_congr rfl fun q' _ => ?_ <;> rw [show l + 1 - 1 - j = l - 1 - j + 1 by omega, pow_succ] <;> ring
  · simp only [show l + 1 - 1 - l = 0 by omega, pow_zero, Nat.div_one, mul_one, Finset.filter_eq']
    split_ifs with h <;> simp

theorem treeErr_top {nodes : ℕ → Finset ℕ} {n L : ℕ} (hn : ∀ j, ∀ q ∈ nodes j, q * 2 ^ (j + 1) < n) (hL : n ≤ 2 ^ L) (c : ℝ) (δ : ℕ → ℕ → ℝ) :
    treeErr nodes c δ L 0 = ∑ j ∈ Finset.range L, ∑ q ∈ nodes j, c * (1 + c) ^ (L - 1 - j) * δ j q := by
  refine Finset.sum_congr rfl fun j hj => ?_
  rw [Finset.mem_range] at hj
  rw [Finset.filter_true_of_mem]
  intro q hq
  have h1 := hn j q hq
  refine Nat.div_eq_of_lt ?_
  have : q * 2 ^ (j + 1) < 2 ^ (L - 1 - j) * 2 ^ (j + 1) := by
    rw [← pow_add, show L - 1 - j + (j + 1) = L by omega]; omega
  exact lt_of_mul_lt_mul_right this (Nat.zero_le _)

/-- The number of levels. -/
theorem Lvl.clog {n l : ℕ} (h : Lvl n l 1) (h2 : 0 < l → 2 ^ (l - 1) < n) : l = Nat.clog 2 n := by
  have h1 : n ≤ 2 ^ l := by
    by_contra hh
    have := (h 1).2 (by omega)
    omega
  refine le_antisymm ?_ (Nat.clog_le_of_le_pow h1)
  rcases Nat.eq_zero_or_pos l with rfl | h0
  · exact Nat.zero_le _
  · by_contra hh
    have := Nat.le_pow_clog (b := 2) (by norm_num) n
    have h3 : 2 ^ Nat.clog 2 n ≤ 2 ^ (l - 1) := Nat.pow_le_pow_right (by norm_num) (by omega)
    have := h2 h0
    omega

/-- One rounding. -/
theorem round_error {rows : List (List ℕ)} {b : ℕ → ℕ} {d : ℕ} {A B S X T U V G : List ℕ → ℝ} {eA eB : ℝ}
    (hA : elemDist (restShape rows) A U ≤ eA) (hB : elemDist (restShape rows) B V ≤ eB)
    (hS : ∀ i, Valid (restShape rows) i → S i = A i + B i) (hT : ∀ i, Valid (restShape rows) i → T i = U i + V i)
    (hX : RoundsTo rows b d S X) (hG : RepEntry rows b G) :
    elemDist (restShape rows) X T ≤ (1 + √(d - 1 : ℕ)) * (eA + eB) + √(d - 1 : ℕ) * elemDist (restShape rows) T G := by
  have h1 : elemDist (restShape rows) S T ≤ eA + eB := by
    rw [elemDist_congr hS hT]
    exact (elemDist_add_le _ _ _ _ _).trans (add_le_add hA hB)
  have h2 := hX.dist_le hG
  have h3 := elemDist_triangle (restShape rows) S T G
  have h4 := elemDist_triangle (restShape rows) X S T
  rw [elemDist_comm _ X S] at h4
  have hc : 0 ≤ √(d - 1 : ℕ) := Real.sqrt_nonneg _
  nlinarith [mul_le_mul_of_nonneg_left (h3.trans (add_le_add_left h1 _)) hc]

/-- The nodes of level `j + 1` with two children. -/
def pairNodes (n j : ℕ) : Finset ℕ := (Finset.range n).filter fun q => (2 * q + 1) * 2 ^ j < n

theorem mem_pairNodes {n j q : ℕ} : q ∈ pairNodes n j ↔ (2 * q + 1) * 2 ^ j < n := by
  rw [pairNodes, Finset.mem_filter, Finset.mem_range, and_iff_right_iff_imp]
  intro h
  have := Nat.one_le_two_pow (n := j)
  nlinarith

/-- All nodes of level `j + 1`. -/
def allNodes (n j : ℕ) : Finset ℕ := (Finset.range n).filter fun q => q * 2 ^ (j + 1) < n

theorem mem_allNodes {n j q : ℕ} : q ∈ allNodes n j ↔ q * 2 ^ (j + 1) < n := by
  rw [allNodes, Finset.mem_filter, Finset.mem_range, and_iff_right_iff_imp]
  intro h
  have := Nat.one_le_two_pow (n := j + 1)
  nlinarith

theorem TreeStep.error {rows : List (List ℕ)} {bs : Option ℕ} {b : ℕ → ℕ} {d n : ℕ} (f : ℕ → List ℕ → List ℕ → ℝ) (p₀ : List ℕ) (G : ℕ → ℕ → List ℕ → ℝ)
    (hG : ∀ l q, (2 * q + 1) * 2 ^ l < n → RepEntry rows b (G l q)) :
    TreeStep rows bs b d n fun l q p A => p = p₀ → elemDist (restShape rows) A (fun i => ∑ k ∈ block n l q, f k p i) ≤
      treeErr (pairNodes n) √(d - 1 : ℕ) (fun l q => elemDist (restShape rows) (fun i => ∑ k ∈ block n (l + 1) q, f k p₀ i) (G l q)) l q := by
  refine ⟨?_, ?_⟩
  · rintro l q p h hp A B S X hA hB hS hX rfl
    rw [treeErr_succ, if_pos (mem_pairNodes.2 h)]
    exact round_error (hA rfl) (hB rfl) hS (fun i _ => sum_block_succ _ _ _ _) hX (hG l q h)
  · rintro l q p A h hA rfl
    rw [treeErr_succ, if_neg (fun hh => by rw [mem_pairNodes] at hh; omega), add_zero]
    have h0 : ∀ l q, 0 ≤ treeErr (pairNodes n) √(d - 1 : ℕ) (fun l q => elemDist (restShape rows) (fun i => ∑ k ∈ block n (l + 1) q, f k p i) (G l q)) l q :=
      treeErr_nonneg (Real.sqrt_nonneg _) fun _ _ => elemDist_nonneg _ _ _
    have hA := hA rfl
    rw [show (fun i => ∑ k ∈ block n (l + 1) q, f k p i) = fun i => ∑ k ∈ block n l (2 * q), f k p i by
      funext i; rw [sum_block_succ, block_empty h, Finset.sum_empty, add_zero]]
    have hc : 0 ≤ √(d - 1 : ℕ) := Real.sqrt_nonneg _
    nlinarith [h0 l (2 * q), h0 l (2 * q + 1), mul_nonneg hc (h0 l (2 * q)), mul_nonneg hc (h0 l (2 * q + 1))]

theorem TreeStep.norm {rows : List (List ℕ)} {bs : Option ℕ} {b : ℕ → ℕ} {d n : ℕ} (f : ℕ → List ℕ → List ℕ → ℝ) :
    TreeStep rows bs b d n fun l q p A => elemNorm (restShape rows) A ≤ ∑ k ∈ block n l q, elemNorm (restShape rows) (f k p) := by
  refine ⟨fun l q p h hp A B S X hA hB hS hX => ?_, fun l q p A h hA => ?_⟩
  · rw [sum_block_succ]
    refine hX.norm_le.trans ?_
    rw [elemNorm_congr hS]
    exact (elemNorm_add_le _ _ _).trans (add_le_add hA hB)
  · rwa [sum_block_succ, block_empty h, Finset.sum_empty, add_zero]

theorem ReduceStep.error {rows : List (List ℕ)} {b : ℕ → ℕ} {d n N : ℕ} (f : ℕ → ℕ → List ℕ → ℝ) (j₀ : ℕ) (G : ℕ → ℕ → List ℕ → ℝ)
    (hG : ∀ l q, 2 ^ l < n → q * 2 ^ (l + 1) < n → RepEntry rows b (G l q)) :
    ReduceStep rows b d n N fun l q j A => j = j₀ → elemDist (restShape rows) A (fun i => ∑ k ∈ block n l q, f k j i) ≤
      treeErr (allNodes n) √(d - 1 : ℕ) (fun l q => elemDist (restShape rows) (fun i => ∑ k ∈ block n (l + 1) q, f k j₀ i) (G l q)) l q := by
  rintro l q j h1 h2 hj A B S X hA hB hB0 hS hX rfl
  rw [treeErr_succ, if_pos (mem_allNodes.2 h2)]
  refine round_error (hA rfl) (V := fun i => ∑ k ∈ block n l (2 * q + 1), f k j i) ?_ hS (fun i _ => sum_block_succ _ _ _ _) hX (hG l q h1 h2)
  by_cases h : (2 * q + 1) * 2 ^ l < n
  · exact hB h rfl
  · rw [hB0 (by omega), block_empty (by omega)]
    refine le_trans (le_of_eq ?_) (treeErr_nonneg (Real.sqrt_nonneg _) (fun _ _ => elemDist_nonneg _ _ _) l (2 * q + 1))
    simp [elemDist]

theorem ReduceStep.norm {rows : List (List ℕ)} {b : ℕ → ℕ} {d n N : ℕ} (f : ℕ → ℕ → List ℕ → ℝ) :
    ReduceStep rows b d n N fun l q j A => elemNorm (restShape rows) A ≤ ∑ k ∈ block n l q, elemNorm (restShape rows) (f k j) := by
  intro l q j h1 h2 hj A B S X hA hB hB0 hS hX
  rw [sum_block_succ]
  refine hX.norm_le.trans ?_
  rw [elemNorm_congr hS]
  refine (elemNorm_add_le _ _ _).trans (add_le_add hA ?_)
  by_cases h : (2 * q + 1) * 2 ^ l < n
  · exact hB h
  · rw [hB0 (by omega), block_empty (by omega), elemNorm_zero, Finset.sum_empty]

end T3f
