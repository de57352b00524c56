import Verif.Proofs.RoundAbs
import Mathlib.Analysis.InnerProductSpace.PiL2

/-! # Frobenius norms of matrices and blocks given by functions of numbers -/

namespace T3f

/-- Frobenius norm of the `m × n` matrix `A`. -/
noncomputable def fn (m n : ℕ) (A : ℕ → ℕ → ℝ) : ℝ := √(∑ i ∈ Finset.range m, ∑ j ∈ Finset.range n, A i j ^ 2)

/-- Frobenius norm of a block. -/
noncomputable def bn (a N b : ℕ) (D : ℕ → ℕ → ℕ → ℝ) : ℝ := √(fro3 a N b D)

theorem fn_nonneg (m n : ℕ) (A : ℕ → ℕ → ℝ) : 0 ≤ fn m n A := Real.sqrt_nonneg _

theorem bn_nonneg (a N b : ℕ) (D : ℕ → ℕ → ℕ → ℝ) : 0 ≤ bn a N b D := Real.sqrt_nonneg _

theorem fn_sq (m n : ℕ) (A : ℕ → ℕ → ℝ) : fn m n A ^ 2 = ∑ i ∈ Finset.range m, ∑ j ∈ Finset.range n, A i j ^ 2 :=
  Real.sq_sqrt (Finset.sum_nonneg fun _ _ => Finset.sum_nonneg fun _ _ => sq_nonneg _)

theorem fro3_nonneg (a N b : ℕ) (D : ℕ → ℕ → ℕ → ℝ) : 0 ≤ fro3 a N b D :=
  Finset.sum_nonneg fun _ _ => Finset.sum_nonneg fun _ _ => Finset.sum_nonneg fun _ _ => sq_nonneg _

theorem bn_sq (a N b : ℕ) (D : ℕ → ℕ → ℕ → ℝ) : bn a N b D ^ 2 = fro3 a N b D := Real.sq_sqrt (fro3_nonneg a N b D)

theorem fn_congr {m n : ℕ} {A B : ℕ → ℕ → ℝ} (h : ∀ i < m, ∀ j < n, A i j = B i j) : fn m n A = fn m n B := by
  unfold fn
  congr 1
  exact Finset.sum_congr rfl fun i hi => Finset.sum_congr rfl fun j hj => by rw [h i (Finset.mem_range.1 hi) j (Finset.mem_range.1 hj)]

theorem bn_congr {a N b : ℕ} {D E : ℕ → ℕ → ℕ → ℝ} (h : ∀ n < N, ∀ α < a, ∀ β < b, D n α β = E n α β) : bn a N b D = bn a N b E := by
  unfold bn
  rw [fro3_congr h]

theorem fn_eq_norm (m n : ℕ) (A : ℕ → ℕ → ℝ) :
    fn m n A = ‖(WithLp.toLp 2 fun p : Fin m × Fin n => A p.1 p.2 : EuclideanSpace ℝ (Fin m × Fin n))‖ := by
  rw [EuclideanSpace.norm_eq, fn]
  congr 1
  rw [Fintype.sum_prod_type, Finset.sum_range]
  refine Finset.sum_congr rfl fun i _ => ?_
  rw [Finset.sum_range]
  exact Finset.sum_congr rfl fun j _ => by simp

theorem fn_add_le (m n : ℕ) (A B : ℕ → ℕ → ℝ) : fn m n (fun i j => A i j + B i j) ≤ fn m n A + fn m n B := by
  simp only [fn_eq_norm]
  exact norm_add_le (WithLp.toLp 2 fun p : Fin m × Fin n => A p.1 p.2 : EuclideanSpace ℝ (Fin m × Fin n)) (WithLp.toLp 2 fun p => B p.1 p.2)

theorem fn_neg (m n : ℕ) (A : ℕ → ℕ → ℝ) : fn m n (fun i j => -A i j) = fn m n A := by
  unfold fn
  simp

theorem fn_smul (m n : ℕ) {c : ℝ} (hc : 0 ≤ c) (A : ℕ → ℕ → ℝ) : fn m n (fun i j => c * A i j) = c * fn m n A := by
  unfold fn
  simp only [mul_pow, ← Finset.mul_sum]
  rw [Real.sqrt_mul (sq_nonneg c), Real.sqrt_sq hc]

theorem fn_mono {m n : ℕ} {A B : ℕ → ℕ → ℝ} (h : ∀ i < m, ∀ j < n, |A i j| ≤ B i j) : fn m n A ≤ fn m n B := by
  refine Real.sqrt_le_sqrt (Finset.sum_le_sum fun i hi => Finset.sum_le_sum fun j hj => ?_)
  have := h i (Finset.mem_range.1 hi) j (Finset.mem_range.1 hj)
  rw [← sq_abs]
  exact pow_le_pow_left₀ (abs_nonneg _) this 2

theorem fn_abs (m n : ℕ) (A : ℕ → ℕ → ℝ) : fn m n (fun i j => |A i j|) = fn m n A := by
  unfold fn
  simp only [sq_abs]

/-- The norm of a product. -/
theorem fn_mul_le (m k n : ℕ) (A B : ℕ → ℕ → ℝ) :
    fn m n (fun i j => ∑ l ∈ Finset.range k, A i l * B l j) ≤ fn m k A * fn k n B := by
  unfold fn
  rw [← Real.sqrt_mul (Finset.sum_nonneg fun _ _ => Finset.sum_nonneg fun _ _ => sq_nonneg _)]
  refine Real.sqrt_le_sqrt ?_
  rw [Finset.sum_mul]
  refine Finset.sum_le_sum fun i _ => ?_
  rw [Finset.sum_comm (s := Finset.range k), Finset.mul_sum]
  exact Finset.sum_le_sum fun j _ => Finset.sum_mul_sq_le_sq_mul_sq _ _ _

/-! ## Blocks as matrices -/

/-- A block as a matrix with rows `(a, n)`. -/
def tallM (N : ℕ) (D : ℕ → ℕ → ℕ → ℝ) : ℕ → ℕ → ℝ := fun y b => D (y % N) (y / N) b

/-- A block as a matrix with columns `(n, b)`. -/
def wideM (c : ℕ) (D : ℕ → ℕ → ℕ → ℝ) : ℕ → ℕ → ℝ := fun a y => D (y / c) a (y % c)

theorem bn_tall (a N b : ℕ) (D : ℕ → ℕ → ℕ → ℝ) : bn a N b D = fn (a * N) b (tallM N D) := by
  unfold bn fro3 fn tallM
  congr 1
  rw [sum_range_mul]
  refine Finset.sum_congr rfl fun x _ => Finset.sum_congr rfl fun n hn => ?_
  rw [Finset.mem_range] at hn
  rw [Nat.add_comm, Nat.add_mul_mod_self_right, Nat.mod_eq_of_lt hn, Nat.add_mul_div_right _ _ (by omega), Nat.div_eq_of_lt hn, Nat.zero_add]

theorem bn_wide (a N b : ℕ) (D : ℕ → ℕ → ℕ → ℝ) : bn a N b D = fn a (N * b) (wideM b D) := by
  unfold bn fro3 fn wideM
  congr 1
  refine Finset.sum_congr rfl fun x _ => ?_
  rw [sum_range_mul]
  refine Finset.sum_congr rfl fun n _ => Finset.sum_congr rfl fun β hβ => ?_
  rw [Finset.mem_range] at hβ
  rw [Nat.add_comm, Nat.add_mul_mod_self_right, Nat.mod_eq_of_lt hβ, Nat.add_mul_div_right _ _ (by omega), Nat.div_eq_of_lt hβ, Nat.zero_add]

theorem bn_add_le (a N b : ℕ) (D E : ℕ → ℕ → ℕ → ℝ) : bn a N b (fun n α β => D n α β + E n α β) ≤ bn a N b D + bn a N b E := by
  simp only [bn_tall]
  exact fn_add_le _ _ _ _

theorem bn_neg (a N b : ℕ) (D : ℕ → ℕ → ℕ → ℝ) : bn a N b (fun n α β => -D n α β) = bn a N b D := by
  simp only [bn_tall]
  exact fn_neg _ _ _

theorem bn_sub_comm (a N b : ℕ) (D E : ℕ → ℕ → ℕ → ℝ) : bn a N b (fun n α β => D n α β - E n α β) = bn a N b (fun n α β => E n α β - D n α β) := by
  rw [← bn_neg]
  exact bn_congr fun _ _ _ _ _ _ => by ring

/-- A block multiplied by a matrix from the right. -/
theorem bn_mul_right_le (a N b c : ℕ) (D : ℕ → ℕ → ℕ → ℝ) (R : ℕ → ℕ → ℝ) :
    bn a N c (fun n α γ => ∑ β ∈ Finset.range b, D n α β * R β γ) ≤ bn a N b D * fn b c R := by
  simp only [bn_tall]
  exact fn_mul_le _ _ _ _ _

/-- A block multiplied by a matrix from the left. -/
theorem bn_mul_left_le (a N b c : ℕ) (D : ℕ → ℕ → ℕ → ℝ) (R : ℕ → ℕ → ℝ) :
    bn c N b (fun n γ β => ∑ α ∈ Finset.range a, R γ α * D n α β) ≤ fn c a R * bn a N b D := by
  simp only [bn_wide]
  exact fn_mul_le _ _ _ _ _

/-! ## Matrices that do not increase norms much -/

/-- Multiplication by the `m × k` matrix `A` increases Frobenius norms at most by the factor `κ`. -/
def OpLe (m k : ℕ) (A : ℕ → ℕ → ℝ) (κ : ℝ) : Prop :=
  ∀ (n : ℕ) (B : ℕ → ℕ → ℝ), fn m n (fun i j => ∑ l ∈ Finset.range k, A i l * B l j) ≤ κ * fn k n B

/-- The same for the left unfolding of a block. -/
def BOpLe (a N b : ℕ) (D : ℕ → ℕ → ℕ → ℝ) (κ : ℝ) : Prop :=
  ∀ (c : ℕ) (R : ℕ → ℕ → ℝ), bn a N c (fun n α γ => ∑ β ∈ Finset.range b, D n α β * R β γ) ≤ κ * fn b c R

/-- A block with orthonormal columns keeps norms. -/
theorem bn_isometry {a N b : ℕ} {D : ℕ → ℕ → ℕ → ℝ}
    (h : ∀ β < b, ∀ β' < b, ∑ α ∈ Finset.range a, ∑ n ∈ Finset.range N, D n α β * D n α β' = δ β β') (c : ℕ) (R : ℕ → ℕ → ℝ) :
    bn a N c (fun n α γ => ∑ β ∈ Finset.range b, D n α β * R β γ) = fn b c R := by
  unfold bn fn
  rw [fro3_isometry h]

theorem BOpLe.near {a N b : ℕ} {D E : ℕ → ℕ → ℕ → ℝ} {α : ℝ}
    (h : ∀ β < b, ∀ β' < b, ∑ x ∈ Finset.range a, ∑ n ∈ Finset.range N, D n x β * D n x β' = δ β β')
    (hE : bn a N b (fun n x β => E n x β - D n x β) ≤ α) : BOpLe a N b E (1 + α) := by
  intro c R
  calc bn a N c (fun n x γ => ∑ β ∈ Finset.range b, E n x β * R β γ)
      = bn a N c (fun n x γ => (∑ β ∈ Finset.range b, D n x β * R β γ) + ∑ β ∈ Finset.range b, (E n x β - D n x β) * R β γ) :=
        bn_congr fun n _ x _ γ _ => by rw [← Finset.sum_add_distrib]; exact Finset.sum_congr rfl fun _ _ => by ring
    _ ≤ fn b c R + bn a N b (fun n x β => E n x β - D n x β) * fn b c R := by
        refine (bn_add_le _ _ _ _ _).trans (add_le_add (bn_isometry h c R).le ?_)
        exact bn_mul_right_le a N b c (fun n x β => E n x β - D n x β) R
    _ ≤ fn b c R + α * fn b c R := by
        have := mul_le_mul_of_nonneg_right hE (fn_nonneg b c R)
        linarith
    _ = _ := by ring

end T3f
