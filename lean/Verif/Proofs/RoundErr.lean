import Verif.Proofs.OrthoErrLR

/-! # Error of a truncation sweep with inexact factorizations -/

namespace T3f

/-! ## Matrices with orthonormal rows -/

section Rows

variable {U M r : ℕ} {V : ℕ → ℕ → ℝ}

/-- The theorem of Pythagoras: `A` is orthogonal to the rows of `V`. -/
theorem sum_pyth (hV : ∀ x < r, ∀ y < r, ∑ j ∈ Finset.range M, V x j * V y j = δ x y) {A G : ℕ → ℕ → ℝ}
    (hA : ∀ i < U, ∀ x < r, ∑ j ∈ Finset.range M, A i j * V x j = 0) :
    ∑ i ∈ Finset.range U, ∑ j ∈ Finset.range M, (A i j + ∑ x ∈ Finset.range r, G i x * V x j) ^ 2 =
      ∑ i ∈ Finset.range U, ∑ j ∈ Finset.range M, A i j ^ 2 + ∑ i ∈ Finset.range U, ∑ x ∈ Finset.range r, G i x ^ 2 := by
  rw [← Finset.sum_add_distrib]
  refine Finset.sum_congr rfl fun i hi => ?_
  rw [Finset.mem_range] at hi
  have e1 : ∑ j ∈ Finset.range M, A i j * ∑ x ∈ Finset.range r, G i x * V x j = 0 := by
    simp only [Finset.mul_sum]
    rw [Finset.sum_comm]
    refine Finset.sum_eq_zero fun x hx => ?_
    rw [Finset.mem_range] at hx
    calc _ = G i x * ∑ j ∈ Finset.range M, A i j * V x j := by
          rw [Finset.mul_sum]; exact Finset.sum_congr rfl fun _ _ => by ring
      _ = 0 := by rw [hA i hi x hx, mul_zero]
  have e2 : ∑ j ∈ Finset.range M, (∑ x ∈ Finset.range r, G i x * V x j) ^ 2 = ∑ x ∈ Finset.range r, G i x ^ 2 := by
    calc _ = ∑ j ∈ Finset.range M, ∑ x ∈ Finset.range r, ∑ y ∈ Finset.range r, G i x * V x j * (G i y * V y j) :=
          Finset.sum_congr rfl fun j _ => by rw [sq, Finset.sum_mul_sum]
      _ = ∑ x ∈ Finset.range r, ∑ y ∈ Finset.range r, ∑ j ∈ Finset.range M, G i x * V x j * (G i y * V y j) := by
          rw [Finset.sum_comm]
          exact Finset.sum_congr rfl fun x _ => Finset.sum_comm
      _ = _ := by
          refine Finset.sum_congr rfl fun x hx => ?_
          rw [Finset.mem_range] at hx
          rw [sq, ← sum_δ_left hx fun y => G i x * G i y]
          refine Finset.sum_congr rfl fun y hy => ?_
          rw [← hV x hx y (Finset.mem_range.1 hy), Finset.sum_mul]
          exact Finset.sum_congr rfl fun _ _ => by ring
  calc _ = ∑ j ∈ Finset.range M, (A i j ^ 2 + 2 * (A i j * ∑ x ∈ Finset.range r, G i x * V x j) + (∑ x ∈ Finset.range r, G i x * V x j) ^ 2) :=
        Finset.sum_congr rfl fun _ _ => by ring
    _ = _ := by rw [Finset.sum_add_distrib, Finset.sum_add_distrib, ← Finset.mul_sum, e1, e2]; ring

theorem fn_mul_rows (hV : ∀ x < r, ∀ y < r, ∑ j ∈ Finset.range M, V x j * V y j = δ x y) (G : ℕ → ℕ → ℝ) :
    fn U M (fun i j => ∑ x ∈ Finset.range r, G i x * V x j) = fn U r G := by
  have := sum_pyth (U := U) hV (A := fun _ _ => 0) (G := G) (fun _ _ _ _ => by simp)
  simp only [zero_add] at this
  unfold fn
  rw [this]
  simp

/-- What remains of `X` outside of the span of the rows. -/
theorem rest_orth (hV : ∀ x < r, ∀ y < r, ∑ j ∈ Finset.range M, V x j * V y j = δ x y) (X : ℕ → ℕ → ℝ) (i : ℕ) {x : ℕ} (hx : x < r) :
    ∑ j ∈ Finset.range M, (X i j - ∑ y ∈ Finset.range r, (∑ l ∈ Finset.range M, X i l * V y l) * V y j) * V x j = 0 := by
  simp only [sub_mul, Finset.sum_sub_distrib]
  rw [sub_eq_zero]
  symm
  calc _ = ∑ y ∈ Finset.range r, ∑ j ∈ Finset.range M, (∑ l ∈ Finset.range M, X i l * V y l) * (V y j * V x j) := by
        simp only [Finset.sum_mul]
        rw [Finset.sum_comm]
        refine Finset.sum_congr rfl fun y _ => Finset.sum_congr rfl fun j _ => Finset.sum_congr rfl fun l _ => by ring
    _ = ∑ y ∈ Finset.range r, δ x y * ∑ l ∈ Finset.range M, X i l * V y l := by
        refine Finset.sum_congr rfl fun y hy => ?_
        rw [← Finset.mul_sum, hV y (Finset.mem_range.1 hy) x hx, mul_comm]
        congr 1
        unfold δ
        by_cases h : x = y
        · rw [if_pos h, if_pos h.symm]
        · rw [if_neg h, if_neg (Ne.symm h)]
    _ = _ := sum_δ_left hx _

theorem rest_norm (hV : ∀ x < r, ∀ y < r, ∑ j ∈ Finset.range M, V x j * V y j = δ x y) (X : ℕ → ℕ → ℝ) :
    fn U M X ^ 2 = fn U M (fun i j => X i j - ∑ y ∈ Finset.range r, (∑ l ∈ Finset.range M, X i l * V y l) * V y j) ^ 2 +
      fn U r (fun i x => ∑ l ∈ Finset.range M, X i l * V x l) ^ 2 := by
  rw [fn_sq, fn_sq, fn_sq, ← sum_pyth hV fun i _ x hx => rest_orth hV X i hx]
  exact Finset.sum_congr rfl fun i _ => Finset.sum_congr rfl fun j _ => by rw [sub_add_cancel]

theorem fn_mulT_le (hV : ∀ x < r, ∀ y < r, ∑ j ∈ Finset.range M, V x j * V y j = δ x y) (X : ℕ → ℕ → ℝ) :
    fn U r (fun i x => ∑ l ∈ Finset.range M, X i l * V x l) ≤ fn U M X := by
  have := rest_norm (U := U) hV X
  nlinarith [fn_nonneg U M X, fn_nonneg U r (fun i x => ∑ l ∈ Finset.range M, X i l * V x l),
    sq_nonneg (fn U M (fun i j => X i j - ∑ y ∈ Finset.range r, (∑ l ∈ Finset.range M, X i l * V y l) * V y j))]

theorem sqrt_add_sq_le {a S c : ℝ} (ha : 0 ≤ a) (hS : 0 ≤ S) (hc : 0 ≤ c) : √(a + (√S + c) ^ 2) ≤ √(S + a) + c := by
  rw [Real.sqrt_le_left (by positivity)]
  have h1 := Real.sq_sqrt hS
  have h2 := Real.sq_sqrt (add_nonneg hS ha)
  have h3 : √S ≤ √(S + a) := Real.sqrt_le_sqrt (by linarith)
  nlinarith [mul_le_mul_of_nonneg_right h3 hc]

/-- One more truncation: `L C` was to be represented, `B V` is, where `V` comes from the decomposition of `X` close to `C`. -/
theorem trunc_bound {s : ℕ} {L C X B : ℕ → ℕ → ℝ} {tail e g : ℝ} (hL : ∀ a < s, ∀ b < s, ∑ x ∈ Finset.range U, L x a * L x b = δ a b)
    (hV : ∀ x < r, ∀ y < r, ∑ j ∈ Finset.range M, V x j * V y j = δ x y)
    (hn : fn s M X ^ 2 = fn s r (fun i x => ∑ l ∈ Finset.range M, X i l * V x l) ^ 2 + tail)
    (hX : fn s M (fun i j => X i j - C i j) ≤ e)
    (hG : fn U r (fun i x => (∑ a ∈ Finset.range s, L i a * ∑ l ∈ Finset.range M, X a l * V x l) - B i x) ≤ g) :
    fn U M (fun i j => (∑ a ∈ Finset.range s, L i a * C a j) - ∑ x ∈ Finset.range r, B i x * V x j) ≤ √(tail + g ^ 2) + e := by
  set A : ℕ → ℕ → ℝ := fun i j => X i j - ∑ y ∈ Finset.range r, (∑ l ∈ Finset.range M, X i l * V y l) * V y j with hA
  set G : ℕ → ℕ → ℝ := fun i x => (∑ a ∈ Finset.range s, L i a * ∑ l ∈ Finset.range M, X a l * V x l) - B i x with hGd
  have htail : fn s M A ^ 2 = tail := by have := rest_norm (U := s) hV X; linarith
  have hLA : ∀ i < U, ∀ x < r, ∑ j ∈ Finset.range M, (∑ a ∈ Finset.range s, L i a * A a j) * V x j = 0 := by
    intro i _ x hx
    calc _ = ∑ a ∈ Finset.range s, L i a * ∑ j ∈ Finset.range M, A a j * V x j := by
          simp only [Finset.sum_mul, Finset.mul_sum]
          rw [Finset.sum_comm]
          exact Finset.sum_congr rfl fun _ _ => Finset.sum_congr rfl fun _ _ => by ring
      _ = 0 := Finset.sum_eq_zero fun a _ => by rw [hA, rest_orth hV X a hx, mul_zero]
  have key : fn U M (fun i j => (∑ a ∈ Finset.range s, L i a * A a j) + ∑ x ∈ Finset.range r, G i x * V x j) ≤ √(tail + g ^ 2) := by
    have h1 := sum_pyth hV hLA (G := G)
    rw [← fn_sq, ← fn_sq, ← fn_sq, fn_isometry hL, htail] at h1
    refine Real.le_sqrt_of_sq_le ?_
    rw [h1]
    have := pow_le_pow_left₀ (fn_nonneg _ _ _) hG 2
    linarith
  calc _ = fn U M (fun i j => ((∑ a ∈ Finset.range s, L i a * A a j) + ∑ x ∈ Finset.range r, G i x * V x j) +
          -∑ a ∈ Finset.range s, L i a * (X a j - C a j)) := fn_congr fun i _ j _ => by
        simp only [hA, hGd, mul_sub, sub_mul, Finset.sum_sub_distrib]
        have : ∑ a ∈ Finset.range s, L i a * ∑ y ∈ Finset.range r, (∑ l ∈ Finset.range M, X a l * V y l) * V y j =
            ∑ y ∈ Finset.range r, (∑ a ∈ Finset.range s, L i a * ∑ l ∈ Finset.range M, X a l * V y l) * V y j := by
          simp only [Finset.mul_sum (s := Finset.range r), Finset.sum_mul (s := Finset.range s)]
          rw [Finset.sum_comm]
          exact Finset.sum_congr rfl fun _ _ => Finset.sum_congr rfl fun _ _ => by ring
        rw [this]
        ring
    _ ≤ _ := by
        refine (fn_add_le _ _ _ _).trans (add_le_add key ?_)
        rw [fn_neg, fn_isometry hL]
        exact hX

end Rows

/-! ## The sweep -/

/-- A block times the transpose of core `k`. -/
def wv (N rV : ℕ → ℕ) (V : ℕ → ℕ → ℕ → ℕ → ℝ) (k : ℕ) (D : ℕ → ℕ → ℕ → ℝ) (a x : ℕ) : ℝ :=
  ∑ m ∈ Finset.range (N k), ∑ b ∈ Finset.range (rV (k + 1)), D m a b * V k m x b

variable {N rL rV : ℕ → ℕ} {Q V C X : ℕ → ℕ → ℕ → ℕ → ℝ}

theorem wv_wide (k : ℕ) (D : ℕ → ℕ → ℕ → ℝ) (a x : ℕ) :
    wv N rV V k D a x = ∑ y ∈ Finset.range (N k * rV (k + 1)), wideM (rV (k + 1)) D a y * wideM (rV (k + 1)) (V k) x y :=
  (sum_divmod (N k) (rV (k + 1)) fun m b => D m a b * V k m x b).symm

theorem ROrth.wide {k : ℕ} (h : ROrth N rV V k) : ∀ x < rV k, ∀ y < rV k,
    ∑ j ∈ Finset.range (N k * rV (k + 1)), wideM (rV (k + 1)) (V k) x j * wideM (rV (k + 1)) (V k) y j = δ x y := fun x hx y hy => by
  rw [← h x hx y hy]
  exact sum_divmod (N k) (rV (k + 1)) fun m b => V k m x b * V k m y b

theorem wv_le {k : ℕ} (h : ROrth N rV V k) (U : ℕ) (D : ℕ → ℕ → ℕ → ℝ) : fn U (rV k) (wv N rV V k D) ≤ bn U (N k) (rV (k + 1)) D := by
  rw [bn_wide, fn_congr fun a _ x _ => wv_wide k D a x]
  exact fn_mulT_le h.wide _

/-- Truncation of core `k` in the sweep from right to left: `C` are the blocks before truncation, `X` the blocks near them whose decomposition is used, `V`
the new cores and `Q` the frames. -/
structure RStepE (N rL rV : ℕ → ℕ) (Q V C X : ℕ → ℕ → ℕ → ℕ → ℝ) (k : ℕ) (tail : ℝ) (bd : ℕ) (h : ℝ) : Prop where
  orth : ROrth N rV V k
  norm : bn (rL k) (N k) (rV (k + 1)) (X k) ^ 2 = fn (rL k) (rV k) (wv N rV V k (X k)) ^ 2 + tail
  best : ∀ (ρ : ℕ) (P : ℕ → ℕ → ℝ) (R : ℕ → ℕ → ℕ → ℝ), ρ ≤ bd →
    tail ≤ bn (rL k) (N k) (rV (k + 1)) (fun n a b => X k n a b - ∑ x ∈ Finset.range ρ, P a x * R x n b) ^ 2
  err : bn (rL k) (N k) (rV (k + 1)) (fun n a b => X k n a b - C k n a b) +
      bn (rL (k - 1)) (N (k - 1)) (rV k) (fun n a x => C (k - 1) n a x - ∑ l ∈ Finset.range (rL k), Q (k - 1) n a l * wv N rV V k (X k) l x) ≤
    (h - 1) * bn (rL k) (N k) (rV (k + 1)) (C k)

structure RSweepE (N rL rV : ℕ → ℕ) (Q V C X : ℕ → ℕ → ℕ → ℕ → ℝ) (d : ℕ) (tail : ℕ → ℝ) (bd : ℕ → ℕ) (h : ℕ → ℝ) : Prop where
  pos : 0 < d
  rL0 : rL 0 = 1
  rV0 : rV 0 = 1
  rLd : rL d = 1
  rVd : rV d = 1
  lorth : ∀ k, k + 1 < d → LOrth N rL Q k
  last : ∀ n < N (d - 1), ∀ a < rL (d - 1), C (d - 1) n a 0 = Q (d - 1) n a 0
  one : ∀ k, 1 ≤ h k
  step : ∀ k, 0 < k → k < d → RStepE N rL rV Q V C X k (tail k) (bd k) (h k)

/-- Growth of the errors in the steps for the cores from `k` on. -/
def growth (h : ℕ → ℝ) (d k : ℕ) : ℝ := ∏ j ∈ Finset.Ico k d, h j

theorem growth_step (h : ℕ → ℝ) {d k : ℕ} (hk : k < d) : growth h d k = h k * growth h d (k + 1) := Finset.prod_eq_prod_Ico_succ_bot hk h

theorem growth_last (h : ℕ → ℝ) (d : ℕ) : growth h d d = 1 := by simp [growth]

theorem growth_ge {h : ℕ → ℝ} (h1 : ∀ k, 1 ≤ h k) (d k : ℕ) : 1 ≤ growth h d k := by
  unfold growth
  generalize Finset.Ico k d = s
  induction s using Finset.induction_on with
  | empty => simp
  | insert a s ha ih => rw [Finset.prod_insert ha]; nlinarith [h1 a]

theorem growth_anti {h : ℕ → ℝ} (h1 : ∀ k, 1 ≤ h k) {d k j : ℕ} (hkj : k ≤ j) (hj : j ≤ d) : growth h d j ≤ growth h d k := by
  induction hm : j - k generalizing k with
  | zero => obtain rfl : j = k := by omega
            exact le_rfl
  | succ m ih =>
    refine (ih (k := k + 1) (by omega) (by omega)).trans ?_
    rw [growth_step h (show k < d by omega)]
    nlinarith [h1 k, growth_ge h1 d (k + 1)]

section

variable {d : ℕ} {tail : ℕ → ℝ} {bd : ℕ → ℕ} {h : ℕ → ℝ}

theorem RStepE.tail_nonneg {k b : ℕ} {τ η : ℝ} (s : RStepE N rL rV Q V C X k τ b η) : 0 ≤ τ := by
  have h1 := s.norm
  have h2 := pow_le_pow_left₀ (fn_nonneg _ _ _) (wv_le s.orth (rL k) (X k)) 2
  linarith

/-- The norm of the last block. -/
noncomputable def lastNorm (N rL rV : ℕ → ℕ) (C : ℕ → ℕ → ℕ → ℕ → ℝ) (d : ℕ) : ℝ := bn (rL (d - 1)) (N (d - 1)) (rV d) (C (d - 1))

theorem RSweepE.norm_le (s : RSweepE N rL rV Q V C X d tail bd h) {k : ℕ} (hk : k < d) :
    bn (rL k) (N k) (rV (k + 1)) (C k) ≤ growth h d (k + 1) * lastNorm N rL rV C d := by
  induction hm : d - 1 - k generalizing k with
  | zero =>
    obtain rfl : k = d - 1 := by omega
    rw [lastNorm, show d - 1 + 1 = d by omega, growth_last, one_mul]
  | succ m ih =>
    have h1 := ih (k := k + 1) (by omega) (by omega)
    have st := s.step (k + 1) (by omega) (by omega)
    have h2 := st.err
    simp only [Nat.add_sub_cancel] at h2
    set e1 := bn (rL (k + 1)) (N (k + 1)) (rV (k + 1 + 1)) (fun n a b => X (k + 1) n a b - C (k + 1) n a b) with he1
    have hW : bn (rL k) (N k) (rV (k + 1)) (fun n a x => ∑ l ∈ Finset.range (rL (k + 1)), Q k n a l * wv N rV V (k + 1) (X (k + 1)) l x) ≤
        e1 + bn (rL (k + 1)) (N (k + 1)) (rV (k + 1 + 1)) (C (k + 1)) := by
      rw [bn_isometry (s.lorth k (by omega))]
      refine (wv_le st.orth _ _).trans ?_
      refine le_trans (le_of_eq (bn_congr fun n _ a _ b _ => ?_)) (bn_add_le _ _ _ (fun n a b => X (k + 1) n a b - C (k + 1) n a b) (C (k + 1)))
      ring
    have h3 : bn (rL k) (N k) (rV (k + 1)) (C k) ≤ h (k + 1) * bn (rL (k + 1)) (N (k + 1)) (rV (k + 1 + 1)) (C (k + 1)) := by
      have h4 := bn_add_le (rL k) (N k) (rV (k + 1)) (fun n a x => C k n a x - ∑ l ∈ Finset.range (rL (k + 1)), Q k n a l * wv N rV V (k + 1) (X (k + 1)) l x)
        (fun n a x => ∑ l ∈ Finset.range (rL (k + 1)), Q k n a l * wv N rV V (k + 1) (X (k + 1)) l x)
      simp only [sub_add_cancel] at h4
      linarith
    rw [growth_step h (show k + 1 < d by omega), mul_assoc]
    exact h3.trans (mul_le_mul_of_nonneg_left h1 (by linarith [s.one (k + 1)]))

theorem RSweepE.step_le (s : RSweepE N rL rV Q V C X d tail bd h) {k : ℕ} (hk : k < d) :
    (h k - 1) * bn (rL k) (N k) (rV (k + 1)) (C k) ≤ (growth h d k - growth h d (k + 1)) * lastNorm N rL rV C d := by
  rw [growth_step h hk]
  have := mul_le_mul_of_nonneg_left (s.norm_le hk) (show 0 ≤ h k - 1 by linarith [s.one k])
  linarith

theorem fn_divmod (U N s : ℕ) (f : ℕ → ℕ → ℝ) : fn (U * N) s f = fn U (N * s) fun x y => f (x * N + y / s) (y % s) := by
  unfold fn
  congr 1
  rw [sum_range_mul]
  refine Finset.sum_congr rfl fun x _ => ?_
  rw [sum_divmod N s fun n j => f (x * N + n) j ^ 2]

theorem ext_wide {N r s : ℕ} {L : ℕ → ℕ → ℝ} {D : ℕ → ℕ → ℕ → ℝ} {x y : ℕ} (hy : y < N * s) :
    ext N r L D (x * N + y / s) (y % s) = ∑ a ∈ Finset.range r, L x a * wideM s D a y := by
  have hs : 0 < s := Nat.pos_of_ne_zero fun e => by rw [e] at hy; omega
  have h1 : y / s < N := (Nat.div_lt_iff_lt_mul hs).2 hy
  unfold ext wideM
  rw [Nat.add_comm, Nat.add_mul_mod_self_right, Nat.mod_eq_of_lt h1, Nat.add_mul_div_right _ _ (lt_of_le_of_lt (Nat.zero_le _) h1),
    Nat.div_eq_of_lt h1, Nat.zero_add]

/-- The frames are an orthonormal basis. -/
theorem RSweepE.frame (s : RSweepE N rL rV Q V C X d tail bd h) {k : ℕ} (hk : k < d) :
    ∀ a < rL k, ∀ b < rL k, ∑ x ∈ Finset.range (rowsN N k), lmat N rL Q k x a * lmat N rL Q k x b = δ a b := fun a ha b hb => by
  rw [← gram_lmat]
  exact gram_id s.rL0 (fun j hj => s.lorth j (by omega)) ha hb

/-- The truncated chain and the chain before truncation, up to core `k`. -/
theorem RSweepE.upto (s : RSweepE N rL rV Q V C X d tail bd h) {k : ℕ} (hk : k < d) :
    fn (rowsN N (k + 1)) (rV (k + 1)) (fun z b => ext (N k) (rL k) (lmat N rL Q k) (C k) z b - lmat N rV (Function.update V 0 (C 0)) (k + 1) z b) ≤
      √(∑ j ∈ Finset.range k, tail (j + 1)) + (growth h d 1 - growth h d (k + 1)) * lastNorm N rL rV C d := by
  induction k with
  | zero =>
    rw [sub_self, zero_mul, Finset.sum_range_zero, Real.sqrt_zero, add_zero]
    have : fn (rowsN N (0 + 1)) (rV (0 + 1)) (fun z b => ext (N 0) (rL 0) (lmat N rL Q 0) (C 0) z b - lmat N rV (Function.update V 0 (C 0)) (0 + 1) z b) =
        fn (rowsN N (0 + 1)) (rV (0 + 1)) fun _ _ => 0 := by
      refine fn_congr fun z _ b _ => ?_
      simp only [ext, lmat, s.rL0, s.rV0, Function.update_self, sub_self]
    rw [this]
    simp [fn]
  | succ k ih =>
    have ih := ih (by omega)
    have st := s.step (k + 1) (by omega) hk
    have herr := st.err
    simp only [Nat.add_sub_cancel] at herr
    set e1 := bn (rL (k + 1)) (N (k + 1)) (rV (k + 1 + 1)) (fun n a b => X (k + 1) n a b - C (k + 1) n a b) with he1
    set e2 := bn (rL k) (N k) (rV (k + 1)) (fun n a x => C k n a x - ∑ l ∈ Finset.range (rL (k + 1)), Q k n a l * wv N rV V (k + 1) (X (k + 1)) l x) with he2
    set B := lmat N rV (Function.update V 0 (C 0)) (k + 1) with hB
    set E := (growth h d 1 - growth h d (k + 1)) * lastNorm N rL rV C d with hE
    have hE0 : 0 ≤ E := mul_nonneg (by linarith [growth_anti s.one (show 1 ≤ k + 1 by omega) (show k + 1 ≤ d by omega)]) (bn_nonneg _ _ _ _)
    have hS0 : 0 ≤ ∑ j ∈ Finset.range k, tail (j + 1) := Finset.sum_nonneg fun j hj =>
      (s.step (j + 1) (by omega) (by rw [Finset.mem_range] at hj; omega)).tail_nonneg
    have he20 : 0 ≤ e2 := bn_nonneg _ _ _ _
    have hG : fn (rowsN N (k + 1)) (rV (k + 1)) (fun i x => (∑ a ∈ Finset.range (rL (k + 1)), lmat N rL Q (k + 1) i a * wv N rV V (k + 1) (X (k + 1)) a x) - B i x) ≤
        √(∑ j ∈ Finset.range k, tail (j + 1)) + (E + e2) := by
      calc _ = fn (rowsN N (k + 1)) (rV (k + 1)) (fun z b => (ext (N k) (rL k) (lmat N rL Q k) (C k) z b - B z b) +
              -ext (N k) (rL k) (lmat N rL Q k)
                (fun n a x => C k n a x - ∑ l ∈ Finset.range (rL (k + 1)), Q k n a l * wv N rV V (k + 1) (X (k + 1)) l x) z b) := by
            refine fn_congr fun z _ b _ => ?_
            rw [lmat_succ, ext_mul]
            simp only [ext, mul_sub, Finset.sum_sub_distrib]
            ring
        _ ≤ (√(∑ j ∈ Finset.range k, tail (j + 1)) + E) + e2 := by
            refine (fn_add_le _ _ _ _).trans (add_le_add ih ?_)
            rw [fn_neg, rowsN, fn_ext, fn_isometry (s.frame (by omega)), ← bn_wide]
        _ = _ := by ring
    have hV' : Function.update V 0 (C 0) (k + 1) = V (k + 1) := Function.update_of_ne (by omega) _ _
    have key := trunc_bound (U := rowsN N (k + 1)) (M := N (k + 1) * rV (k + 1 + 1)) (r := rV (k + 1)) (V := wideM (rV (k + 1 + 1)) (V (k + 1)))
      (L := lmat N rL Q (k + 1)) (C := wideM (rV (k + 1 + 1)) (C (k + 1))) (X := wideM (rV (k + 1 + 1)) (X (k + 1))) (B := B) (tail := tail (k + 1))
      (e := e1) (s.frame hk) st.orth.wide (by
        have := st.norm
        rw [bn_wide, fn_congr fun a _ x _ => wv_wide (k + 1) (X (k + 1)) a x] at this
        exact this) (by rw [he1, bn_wide]; exact le_rfl) (by simpa only [wv_wide] using hG)
    rw [rowsN, fn_divmod]
    refine le_trans (le_of_eq (fn_congr fun x _ y hy => ?_)) (key.trans ?_)
    · rw [lmat_succ N rV _ (k + 1), ext_wide hy, ext_wide hy, hV', ← hB]
    · have h1 := sqrt_add_sq_le st.tail_nonneg hS0 (add_nonneg hE0 he20)
      have h2 := s.step_le (k := k + 1) hk
      rw [Finset.sum_range_succ]
      have e3 : E + (growth h d (k + 1) - growth h d (k + 1 + 1)) * lastNorm N rL rV C d = (growth h d 1 - growth h d (k + 1 + 1)) * lastNorm N rL rV C d := by
        rw [hE]; ring
      linarith

/-- The projection of the chain to block `k`. -/
def projBlock (N rL rV : ℕ → ℕ) (Q V : ℕ → ℕ → ℕ → ℕ → ℝ) (d k : ℕ) : ℕ → ℕ → ℕ → ℝ := fun n a b =>
  ∑ y ∈ Finset.range (rL (k + 1)), Q k n a y * rgram N rL rV Q V (d - 1 - k) (k + 1) y b

theorem rgram_wv {k : ℕ} (hk : k + 1 < d) (l b : ℕ) :
    rgram N rL rV Q V (d - 1 - k) (k + 1) l b = wv N rV V (k + 1) (projBlock N rL rV Q V d (k + 1)) l b := by
  rw [show d - 1 - k = d - 1 - (k + 1) + 1 by omega, rgram, wv]
  simp only [projBlock, Finset.sum_mul]
  symm
  calc _ = ∑ m' ∈ Finset.range (N (k + 1)), ∑ y ∈ Finset.range (rL (k + 1 + 1)), ∑ b' ∈ Finset.range (rV (k + 1 + 1)),
        Q (k + 1) m' l y * rgram N rL rV Q V (d - 1 - (k + 1)) (k + 1 + 1) y b' * V (k + 1) m' b b' :=
        Finset.sum_congr rfl fun m' _ => Finset.sum_comm
    _ = ∑ y ∈ Finset.range (rL (k + 1 + 1)), ∑ m' ∈ Finset.range (N (k + 1)), ∑ b' ∈ Finset.range (rV (k + 1 + 1)),
        Q (k + 1) m' l y * rgram N rL rV Q V (d - 1 - (k + 1)) (k + 1 + 1) y b' * V (k + 1) m' b b' := Finset.sum_comm
    _ = _ := Finset.sum_congr rfl fun y _ => by
        rw [Finset.sum_comm]
        exact Finset.sum_congr rfl fun b' _ => Finset.sum_congr rfl fun m' _ => by ring

theorem RSweepE.near_proj (s : RSweepE N rL rV Q V C X d tail bd h) {k : ℕ} (hk : k < d) :
    bn (rL k) (N k) (rV (k + 1)) (fun n a b => C k n a b - projBlock N rL rV Q V d k n a b) ≤
      (growth h d (k + 1) - 1) * lastNorm N rL rV C d := by
  have hpos := s.pos
  induction hm : d - 1 - k generalizing k with
  | zero =>
    obtain rfl : k = d - 1 := by omega
    have hd1 : d - 1 + 1 = d := by omega
    rw [hd1, growth_last, sub_self, zero_mul, s.rVd]
    have : bn (rL (d - 1)) (N (d - 1)) 1 (fun n a b => C (d - 1) n a b - projBlock N rL rV Q V d (d - 1) n a b) =
        bn (rL (d - 1)) (N (d - 1)) 1 fun _ _ _ => 0 := by
      refine bn_congr fun n hn a ha b hb => ?_
      obtain rfl : b = 0 := by omega
      rw [projBlock, hd1, s.rLd, Finset.sum_range_one, Nat.sub_self, rgram, mul_one, s.last n hn a ha, sub_self]
    rw [this]
    simp [bn, fro3]
  | succ m ih =>
    have ih := ih (k := k + 1) (by omega) (by omega)
    have st := s.step (k + 1) (by omega) (by omega)
    have herr := st.err
    simp only [Nat.add_sub_cancel] at herr
    have h2 := s.step_le (k := k + 1) (by omega)
    have hL := s.lorth k (by omega)
    set P := projBlock N rL rV Q V d with hP
    have e : ∀ n a b, P k n a b = ∑ l ∈ Finset.range (rL (k + 1)), Q k n a l * wv N rV V (k + 1) (P (k + 1)) l b := fun n a b => by
      rw [hP, projBlock]
      exact Finset.sum_congr rfl fun l _ => by rw [rgram_wv (by omega)]
    have hsub : ∀ D E : ℕ → ℕ → ℕ → ℝ, ∀ l x, wv N rV V (k + 1) D l x - wv N rV V (k + 1) E l x = wv N rV V (k + 1) (fun n a b => D n a b - E n a b) l x := by
      intro D E l x
      simp only [wv, sub_mul, Finset.sum_sub_distrib]
    have hiso : ∀ D : ℕ → ℕ → ℕ → ℝ, bn (rL k) (N k) (rV (k + 1)) (fun n a x => ∑ l ∈ Finset.range (rL (k + 1)), Q k n a l * wv N rV V (k + 1) D l x) ≤
        bn (rL (k + 1)) (N (k + 1)) (rV (k + 1 + 1)) D := fun D => by
      rw [bn_isometry hL]
      exact wv_le st.orth _ _
    calc _ = bn (rL k) (N k) (rV (k + 1)) (fun n a x =>
            (C k n a x - ∑ l ∈ Finset.range (rL (k + 1)), Q k n a l * wv N rV V (k + 1) (X (k + 1)) l x) +
            ((∑ l ∈ Finset.range (rL (k + 1)), Q k n a l * wv N rV V (k + 1) (fun n a b => X (k + 1) n a b - C (k + 1) n a b) l x) +
              ∑ l ∈ Finset.range (rL (k + 1)), Q k n a l * wv N rV V (k + 1) (fun n a b => C (k + 1) n a b - P (k + 1) n a b) l x)) := by
          refine bn_congr fun n _ a _ x _ => ?_
          rw [e]
          simp only [← hsub, mul_sub, Finset.sum_sub_distrib]
          ring
      _ ≤ _ := (bn_add_le _ _ _ _ _).trans (add_le_add le_rfl ((bn_add_le _ _ _ _ _).trans (add_le_add (hiso _) (hiso _))))
      _ ≤ _ := by linarith

theorem RSweepE.proj (s : RSweepE N rL rV Q V C X d tail bd h) {k : ℕ} (hk : k < d) {n a b : ℕ} (ha : a < rL k) :
    blockProj N rL rV rL Q V Q d k n a b = projBlock N rL rV Q V d k n a b := by
  unfold blockProj projBlock
  calc _ = ∑ x ∈ Finset.range (rL k), δ a x * ∑ y ∈ Finset.range (rL (k + 1)), Q k n x y * rgram N rL rV Q V (d - 1 - k) (k + 1) y b := by
        refine Finset.sum_congr rfl fun x hx => ?_
        rw [Finset.mul_sum]
        refine Finset.sum_congr rfl fun y hy => ?_
        rw [gram_id s.rL0 (fun j hj => s.lorth j (by omega)) ha (Finset.mem_range.1 hx), rgram_comm]; ring
    _ = _ := sum_δ_left ha _

/-- What a truncation loses is at most the distance to any chain with small rank at the cut, up to rounding errors. -/
theorem RSweepE.best (s : RSweepE N rL rV Q V C X d tail bd h) {k : ℕ} (hk0 : 0 < k) (hk : k < d) {rS : ℕ → ℕ} (S : ℕ → ℕ → ℕ → ℕ → ℝ) (hS : rS d = 1)
    (hb : rS k ≤ bd k) : √(tail k) ≤ √(chainDist N rL rS Q S d) + (growth h d k - 1) * lastNorm N rL rV C d := by
  have st := s.step k hk0 hk
  set F : ℕ → ℕ → ℕ → ℝ := blockProj N rL rV rS Q V S d k with hF
  have hFe : ∀ n a b, F n a b = ∑ x ∈ Finset.range (rS k), gram N rL rS Q S k a x *
      ∑ y ∈ Finset.range (rS (k + 1)), S k n x y * rgram N rV rS V S (d - 1 - k) (k + 1) b y := by
    intro n a b
    rw [hF, blockProj]
    refine Finset.sum_congr rfl fun x _ => ?_
    rw [Finset.mul_sum]
    exact Finset.sum_congr rfl fun y _ => by ring
  have h1 : √(tail k) ≤ bn (rL k) (N k) (rV (k + 1)) (fun n a b => X k n a b - F n a b) := by
    rw [Real.sqrt_le_left (bn_nonneg _ _ _ _)]
    simp only [hFe]
    exact st.best (rS k) (fun a x => gram N rL rS Q S k a x)
      (fun x n b => ∑ y ∈ Finset.range (rS (k + 1)), S k n x y * rgram N rV rS V S (d - 1 - k) (k + 1) b y) hb
  have h2 : bn (rL k) (N k) (rV (k + 1)) (fun n a b => projBlock N rL rV Q V d k n a b - F n a b) ≤ √(chainDist N rL rS Q S d) := by
    have := bessel (N := N) (L := Q) (V := V) (T := Q) (S := S) (rT := rL) (rS := rS) hk s.rL0 s.rVd s.rLd hS
      (fun j hj => s.lorth j (by omega)) (fun j h1 h2 => (s.step j (by omega) h2).orth)
    refine Real.sqrt_le_sqrt (le_trans (le_of_eq ?_) this)
    refine Finset.sum_congr rfl fun a ha => Finset.sum_congr rfl fun n _ => Finset.sum_congr rfl fun b _ => ?_
    rw [s.proj hk (Finset.mem_range.1 ha)]
  have h3 := s.near_proj hk
  have h4 := s.step_le hk
  have h5 := st.err
  have h6 : 0 ≤ bn (rL (k - 1)) (N (k - 1)) (rV k) (fun n a x => C (k - 1) n a x - ∑ l ∈ Finset.range (rL k), Q (k - 1) n a l * wv N rV V k (X k) l x) :=
    bn_nonneg _ _ _ _
  have h7 : bn (rL k) (N k) (rV (k + 1)) (fun n a b => X k n a b - F n a b) ≤
      bn (rL k) (N k) (rV (k + 1)) (fun n a b => X k n a b - C k n a b) +
      (bn (rL k) (N k) (rV (k + 1)) (fun n a b => C k n a b - projBlock N rL rV Q V d k n a b) +
        bn (rL k) (N k) (rV (k + 1)) (fun n a b => projBlock N rL rV Q V d k n a b - F n a b)) := by
    refine le_trans (le_of_eq (bn_congr fun n _ a _ b _ => ?_)) ((bn_add_le _ _ _ (fun n a b => X k n a b - C k n a b)
      (fun n a b => (C k n a b - projBlock N rL rV Q V d k n a b) + (projBlock N rL rV Q V d k n a b - F n a b))).trans
        (add_le_add le_rfl (bn_add_le _ _ _ _ _)))
    ring
  linarith

/-- Cores near to the truncated ones. -/
theorem RSweepE.computed (s : RSweepE N rL rV Q V C X d tail bd h) {R : ℕ → ℕ → ℕ → ℕ → ℝ} {ε : ℝ} (hε : 0 ≤ ε)
    (h0 : ∀ n < N 0, ∀ a < 1, ∀ b < rV 1, R 0 n a b = C 0 n a b)
    (hR : ∀ k, 0 < k → k < d → bn (rV k) (N k) (rV (k + 1)) (fun n a b => R k n a b - V k n a b) ≤ ε) {k : ℕ} (hk : k < d) :
    fn (rowsN N (k + 1)) (rV (k + 1)) (lmat N rV (Function.update V 0 (C 0)) (k + 1)) = bn (rL 0) (N 0) (rV 1) (C 0) ∧
    fn (rowsN N (k + 1)) (rV (k + 1)) (fun z b => lmat N rV R (k + 1) z b - lmat N rV (Function.update V 0 (C 0)) (k + 1) z b) ≤
      ((1 + ε) ^ k - 1) * bn (rL 0) (N 0) (rV 1) (C 0) := by
  set c := bn (rL 0) (N 0) (rV 1) (C 0) with hc
  have hc0 : 0 ≤ c := bn_nonneg _ _ _ _
  induction k with
  | zero =>
    constructor
    · rw [lmat_succ, Function.update_self, rowsN, fn_ext, hc, bn_wide]
      simp only [rowsN, s.rL0, s.rV0, lmat]
      refine fn_congr fun x hx y _ => ?_
      obtain rfl : x = 0 := by omega
      simp
    · rw [pow_zero, sub_self, zero_mul]
      have : fn (rowsN N (0 + 1)) (rV (0 + 1)) (fun z b => lmat N rV R (0 + 1) z b - lmat N rV (Function.update V 0 (C 0)) (0 + 1) z b) =
          fn (rowsN N (0 + 1)) (rV (0 + 1)) fun _ _ => 0 := by
        refine fn_congr fun z hz b hb => ?_
        have hz' : z < N 0 := by simpa [rowsN] using hz
        simp only [lmat, s.rV0, Function.update_self, Finset.sum_range_one]
        rw [Nat.mod_eq_of_lt hz', h0 z hz' 0 (by omega) b hb, sub_self]
      rw [this]
      simp [fn]
  | succ k ih =>
    obtain ⟨i1, i2⟩ := ih (by omega)
    have st := s.step (k + 1) (by omega) hk
    have hV' : Function.update V 0 (C 0) (k + 1) = V (k + 1) := Function.update_of_ne (by omega) _ _
    set B := lmat N rV (Function.update V 0 (C 0)) (k + 1) with hB
    have hRn : fn (rowsN N (k + 1)) (rV (k + 1)) (lmat N rV R (k + 1)) ≤ (1 + ε) ^ k * c := by
      have := fn_add_le (rowsN N (k + 1)) (rV (k + 1)) (fun z b => lmat N rV R (k + 1) z b - B z b) B
      simp only [sub_add_cancel] at this
      linarith
    constructor
    · rw [lmat_succ N rV _ (k + 1), hV', rowsN, fn_ext, fn_mul_rows st.orth.wide, ← hB, i1]
    · calc _ = fn (rowsN N (k + 1) * N (k + 1)) (rV (k + 1 + 1)) (fun z b =>
            ext (N (k + 1)) (rV (k + 1)) (fun z b => lmat N rV R (k + 1) z b - B z b) (V (k + 1)) z b +
            ext (N (k + 1)) (rV (k + 1)) (lmat N rV R (k + 1)) (fun n a b => R (k + 1) n a b - V (k + 1) n a b) z b) :=
            fn_congr fun z _ b _ => by
              rw [lmat_succ N rV _ (k + 1), lmat_succ N rV _ (k + 1), hV', ← hB]
              simp only [ext, mul_sub, sub_mul, Finset.sum_sub_distrib]
              ring
        _ ≤ ((1 + ε) ^ k - 1) * c + (1 + ε) ^ k * c * ε := by
            refine (fn_add_le _ _ _ _).trans (add_le_add ?_ ?_)
            · rw [fn_ext, fn_mul_rows st.orth.wide]
              exact i2
            · exact (ext_le _ _ _ _ _ _).trans (mul_le_mul hRn (hR _ (by omega) hk) (bn_nonneg _ _ _ _) (by positivity))
        _ = _ := by rw [pow_succ]; ring

/-- The result of the sweep. -/
theorem RSweepE.error (s : RSweepE N rL rV Q V C X d tail bd h) {R : ℕ → ℕ → ℕ → ℕ → ℝ} {ε : ℝ} (hε : 0 ≤ ε)
    (h0 : ∀ n < N 0, ∀ a < 1, ∀ b < rV 1, R 0 n a b = C 0 n a b)
    (hR : ∀ k, 0 < k → k < d → bn (rV k) (N k) (rV (k + 1)) (fun n a b => R k n a b - V k n a b) ≤ ε)
    {rS : ℕ → ℕ} (S : ℕ → ℕ → ℕ → ℕ → ℝ) (hS : rS d = 1) (hb : ∀ k, 0 < k → k < d → rS k ≤ bd k) :
    √(chainDist N rL rV Q R d) ≤ √(d - 1 : ℕ) * (√(chainDist N rL rS Q S d) + (growth h d 1 - 1) * lastNorm N rL rV C d) +
      ((1 + ε) ^ (d - 1) * growth h d 1 - 1) * lastNorm N rL rV C d := by
  have hpos := s.pos
  have hd1 : d - 1 + 1 = d := by omega
  have h1 := s.upto (k := d - 1) (by omega)
  obtain ⟨-, h2⟩ := s.computed hε h0 hR (k := d - 1) (by omega)
  have h3 := s.norm_le (k := 0) hpos
  rw [hd1, s.rVd] at h1 h2
  set c := lastNorm N rL rV C d with hc
  have hc0 : 0 ≤ c := bn_nonneg _ _ _ _
  have hQC : ∀ z < rowsN N d, ∀ b < 1, ext (N (d - 1)) (rL (d - 1)) (lmat N rL Q (d - 1)) (C (d - 1)) z b = lmat N rL Q d z b := by
    intro z hz b hb
    rw [← hd1, rowsN] at hz
    conv_rhs => rw [← hd1, lmat_succ]
    refine ext_congr (s := 1) (fun _ _ _ _ => rfl) (fun n hn a ha b hb => ?_) hz hb
    obtain rfl : b = 0 := by omega
    exact s.last n hn a ha
  rw [fn_congr fun z hz b hb => by rw [hQC z hz b hb]] at h1
  have hdist : √(chainDist N rL rV Q R d) ≤ fn (rowsN N d) 1 (fun z b => lmat N rL Q d z b - lmat N rV (Function.update V 0 (C 0)) d z b) +
      fn (rowsN N d) 1 (fun z b => lmat N rV R d z b - lmat N rV (Function.update V 0 (C 0)) d z b) := by
    rw [chainDist_lmat, Real.sqrt_sq (fn_nonneg _ _ _), ← fn_neg (rowsN N d) 1 (fun z b => lmat N rV R d z b - _)]
    refine le_trans (le_of_eq (fn_congr fun z _ b _ => ?_)) (fn_add_le _ _ _ _)
    ring
  set τ := √(chainDist N rL rS Q S d) + (growth h d 1 - 1) * c with hτ
  have hτ0 : 0 ≤ τ := add_nonneg (Real.sqrt_nonneg _) (mul_nonneg (by linarith [growth_ge s.one d 1]) hc0)
  have htail : √(∑ j ∈ Finset.range (d - 1), tail (j + 1)) ≤ √(d - 1 : ℕ) * τ := by
    rw [Real.sqrt_le_left (by positivity), mul_pow, Real.sq_sqrt (Nat.cast_nonneg _)]
    calc _ ≤ ∑ _j ∈ Finset.range (d - 1), τ ^ 2 := Finset.sum_le_sum fun j hj => by
          rw [Finset.mem_range] at hj
          have st := s.step (j + 1) (by omega) (by omega)
          rw [← Real.sq_sqrt st.tail_nonneg]
          refine pow_le_pow_left₀ (Real.sqrt_nonneg _) ((s.best (by omega) (by omega) S hS (hb _ (by omega) (by omega))).trans ?_) 2
          have := mul_le_mul_of_nonneg_right (growth_anti s.one (show 1 ≤ j + 1 by omega) (show j + 1 ≤ d by omega)) hc0
          rw [hτ]
          linarith
      _ = _ := by rw [Finset.sum_const, Finset.card_range, nsmul_eq_mul]
  have h4 : ((1 + ε) ^ (d - 1) - 1) * bn (rL 0) (N 0) (rV 1) (C 0) ≤ ((1 + ε) ^ (d - 1) - 1) * (growth h d 1 * c) :=
    mul_le_mul_of_nonneg_left h3 (by linarith [one_le_pow₀ (n := d - 1) (show (1 : ℝ) ≤ 1 + ε by linarith)])
  rw [growth_last] at h1
  linarith

end

end T3f
