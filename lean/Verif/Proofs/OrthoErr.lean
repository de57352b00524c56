import Verif.Proofs.FrobNorm

/-! # Error of a sweep with inexact factorizations -/

namespace T3f

/-- Number of multi-indices of the first `k` modes. -/
def rowsN (N : ℕ → ℕ) : ℕ → ℕ
  | 0 => 1
  | k + 1 => rowsN N k * N k

/-- The product of the first `k` cores, with the mode indices as one flat number. -/
def lmat (N r : ℕ → ℕ) (A : ℕ → ℕ → ℕ → ℕ → ℝ) : ℕ → ℕ → ℕ → ℝ
  | 0, _, b => if b = 0 then 1 else 0
  | k + 1, x, b => ∑ a ∈ Finset.range (r k), lmat N r A k (x / N k) a * A k (x % N k) a b

/-- A product of cores followed by a block. -/
def ext (N r : ℕ) (L : ℕ → ℕ → ℝ) (D : ℕ → ℕ → ℕ → ℝ) (x b : ℕ) : ℝ := ∑ a ∈ Finset.range r, L (x / N) a * D (x % N) a b

theorem lmat_succ (N r : ℕ → ℕ) (A : ℕ → ℕ → ℕ → ℕ → ℝ) (k : ℕ) : lmat N r A (k + 1) = ext (N k) (r k) (lmat N r A k) (A k) := rfl

theorem sum_divmod {K : Type} [AddCommMonoid K] (U N : ℕ) (f : ℕ → ℕ → K) :
    ∑ z ∈ Finset.range (U * N), f (z / N) (z % N) = ∑ x ∈ Finset.range U, ∑ n ∈ Finset.range N, f x n := by
  rw [sum_range_mul]
  refine Finset.sum_congr rfl fun x _ => Finset.sum_congr rfl fun n hn => ?_
  rw [Finset.mem_range] at hn
  rw [Nat.add_comm, Nat.add_mul_mod_self_right, Nat.mod_eq_of_lt hn, Nat.add_mul_div_right _ _ (by omega), Nat.div_eq_of_lt hn, Nat.zero_add]

theorem gram_lmat (N ra rb : ℕ → ℕ) (A B : ℕ → ℕ → ℕ → ℕ → ℝ) (k x y : ℕ) :
    gram N ra rb A B k x y = ∑ z ∈ Finset.range (rowsN N k), lmat N ra A k z x * lmat N rb B k z y := by
  induction k generalizing x y with
  | zero => simp [gram, rowsN, lmat]
  | succ k ih =>
    rw [gram, rowsN]
    simp only [lmat]
    rw [sum_divmod (rowsN N k) (N k) fun u n => (∑ a ∈ Finset.range (ra k), lmat N ra A k u a * A k n a x) *
      ∑ c ∈ Finset.range (rb k), lmat N rb B k u c * B k n c y]
    simp only [ih, Finset.sum_mul_sum]
    rw [sum_swap4 (Finset.range (rowsN N k)) (Finset.range (N k)) (Finset.range (ra k)) (Finset.range (rb k))
      fun u n a c => lmat N ra A k u a * A k n a x * (lmat N rb B k u c * B k n c y)]
    refine Finset.sum_congr rfl fun a _ => Finset.sum_congr rfl fun c _ => Finset.sum_congr rfl fun u _ => ?_
    exact Finset.sum_congr rfl fun n _ => by ring

theorem chainDist_lmat (N ra rb : ℕ → ℕ) (A B : ℕ → ℕ → ℕ → ℕ → ℝ) (d : ℕ) :
    chainDist N ra rb A B d = fn (rowsN N d) 1 (fun z b => lmat N ra A d z b - lmat N rb B d z b) ^ 2 := by
  rw [fn_sq, chainDist, gram_lmat, gram_lmat, gram_lmat, Finset.mul_sum, ← Finset.sum_sub_distrib, ← Finset.sum_add_distrib]
  refine Finset.sum_congr rfl fun z _ => ?_
  rw [Finset.sum_range_one]
  ring

theorem gram_self_lmat (N r : ℕ → ℕ) (A : ℕ → ℕ → ℕ → ℕ → ℝ) (d : ℕ) : gram N r r A A d 0 0 = fn (rowsN N d) 1 (lmat N r A d) ^ 2 := by
  rw [fn_sq, gram_lmat]
  refine Finset.sum_congr rfl fun z _ => ?_
  rw [Finset.sum_range_one]
  ring

/-! ## Products followed by a block -/

theorem fn_ext (U N r s : ℕ) (L : ℕ → ℕ → ℝ) (D : ℕ → ℕ → ℕ → ℝ) :
    fn (U * N) s (ext N r L D) = fn U (N * s) fun x y => ∑ a ∈ Finset.range r, L x a * wideM s D a y := by
  unfold fn ext wideM
  congr 1
  rw [sum_divmod U N fun x n => ∑ j ∈ Finset.range s, (∑ a ∈ Finset.range r, L x a * D n a j) ^ 2]
  refine Finset.sum_congr rfl fun x _ => ?_
  rw [sum_divmod N s fun n j => (∑ a ∈ Finset.range r, L x a * D n a j) ^ 2]

theorem ext_le (U N r s : ℕ) (L : ℕ → ℕ → ℝ) (D : ℕ → ℕ → ℕ → ℝ) : fn (U * N) s (ext N r L D) ≤ fn U r L * bn r N s D := by
  rw [fn_ext, bn_wide]
  exact fn_mul_le _ _ _ _ _

theorem OpLe.ext_le {U r : ℕ} {L : ℕ → ℕ → ℝ} {κ : ℝ} (h : OpLe U r L κ) (N s : ℕ) (D : ℕ → ℕ → ℕ → ℝ) :
    fn (U * N) s (T3f.ext N r L D) ≤ κ * bn r N s D := by
  rw [fn_ext, bn_wide]
  exact h _ _

theorem ext_mul (N r s : ℕ) (L : ℕ → ℕ → ℝ) (D : ℕ → ℕ → ℕ → ℝ) (R : ℕ → ℕ → ℝ) (x c : ℕ) :
    ∑ b ∈ Finset.range s, ext N r L D x b * R b c = ext N r L (fun n a c => ∑ b ∈ Finset.range s, D n a b * R b c) x c := by
  unfold ext
  simp only [Finset.sum_mul, Finset.mul_sum]
  rw [Finset.sum_comm]
  exact Finset.sum_congr rfl fun _ _ => Finset.sum_congr rfl fun _ _ => by ring

theorem OpLe.ext {U r : ℕ} {L : ℕ → ℕ → ℝ} {κ μ : ℝ} (h : OpLe U r L κ) (hκ : 0 ≤ κ) {N s : ℕ} {D : ℕ → ℕ → ℕ → ℝ} (hD : BOpLe r N s D μ) :
    OpLe (U * N) s (T3f.ext N r L D) (κ * μ) := by
  intro n B
  calc _ = fn (U * N) n (T3f.ext N r L fun m a c => ∑ b ∈ Finset.range s, D m a b * B b c) :=
        fn_congr fun x _ c _ => ext_mul N r s L D B x c
    _ ≤ κ * bn r N n (fun m a c => ∑ b ∈ Finset.range s, D m a b * B b c) := h.ext_le _ _ _
    _ ≤ κ * (μ * fn s n B) := mul_le_mul_of_nonneg_left (hD n B) hκ
    _ = _ := by ring

/-! ## The sweep -/

/-- State of the sweep at core `k`: `X` are the new cores, `c` is the current one, `G` the original chain. -/
structure OrthErr (N r r' : ℕ → ℕ) (G X : ℕ → ℕ → ℕ → ℕ → ℝ) (c : ℕ → ℕ → ℕ → ℝ) (α β P : ℝ) (k : ℕ) : Prop where
  op : OpLe (rowsN N k) (r' k) (lmat N r' X k) ((1 + α) ^ k)
  cur : bn (r' k) (N k) (r (k + 1)) c ≤ β * P
  err : fn (rowsN N (k + 1)) (r (k + 1)) (fun x b => ext (N k) (r' k) (lmat N r' X k) c x b - lmat N r G (k + 1) x b) ≤
    ((1 + α) ^ k * β - 1) * P

theorem fn_one_op : OpLe 1 1 (fun _ b => if b = 0 then 1 else 0) 1 := by
  intro n B
  rw [one_mul]
  refine le_of_eq (fn_congr fun i hi j _ => ?_)
  obtain rfl : i = 0 := by omega
  simp

theorem OrthErr.init {N r r' : ℕ → ℕ} {G X : ℕ → ℕ → ℕ → ℕ → ℝ} {c : ℕ → ℕ → ℕ → ℝ} {α : ℝ} (h0 : r 0 = 1) (h0' : r' 0 = 1)
    (hc : ∀ n < N 0, ∀ b < r 1, c n 0 b = G 0 n 0 b) : OrthErr N r r' G X c α 1 (bn (r 0) (N 0) (r 1) (G 0)) 0 where
  op := by rw [h0', pow_zero]; exact fn_one_op
  cur := by
    rw [one_mul, h0, h0']
    refine le_of_eq (bn_congr fun n hn a ha b hb => ?_)
    obtain rfl : a = 0 := by omega
    exact hc n hn b hb
  err := by
    rw [pow_zero, one_mul, sub_self, zero_mul]
    refine le_of_eq ?_
    have : fn (rowsN N (0 + 1)) (r (0 + 1)) (fun x b => ext (N 0) (r' 0) (lmat N r' X 0) c x b - lmat N r G (0 + 1) x b) =
        fn (rowsN N (0 + 1)) (r (0 + 1)) fun _ _ => 0 := by
      refine fn_congr fun x hx b hb => ?_
      have hx' : x < N 0 := by simpa [rowsN] using hx
      simp only [ext, lmat, h0, h0', Finset.sum_range_one]
      rw [Nat.mod_eq_of_lt hx', hc x hx' b hb]
      simp
    rw [this]
    simp [fn]

theorem OrthErr.step {N r r' : ℕ → ℕ} {G X : ℕ → ℕ → ℕ → ℕ → ℝ} {c c' : ℕ → ℕ → ℕ → ℝ} {α β P ε γ : ℝ} {k : ℕ}
    (h : OrthErr N r r' G X c α β P k) (hα : 0 ≤ α) (hε : 0 ≤ ε) (hγ : 0 ≤ γ) {q : ℕ → ℕ → ℕ → ℝ} {R : ℕ → ℕ → ℝ}
    (hq : ∀ b < r' (k + 1), ∀ b' < r' (k + 1), ∑ a ∈ Finset.range (r' k), ∑ n ∈ Finset.range (N k), q n a b * q n a b' = δ b b')
    (hX : bn (r' k) (N k) (r' (k + 1)) (fun n a b => X k n a b - q n a b) ≤ α)
    (hR : bn (r' k) (N k) (r (k + 1)) (fun n a b => (∑ l ∈ Finset.range (r' (k + 1)), q n a l * R l b) - c n a b) ≤
      ε * bn (r' k) (N k) (r (k + 1)) c)
    (hc' : bn (r' (k + 1)) (N (k + 1)) (r (k + 2)) (fun n a b => c' n a b - ∑ l ∈ Finset.range (r (k + 1)), R a l * G (k + 1) n l b) ≤
      γ * (fn (r' (k + 1)) (r (k + 1)) R * bn (r (k + 1)) (N (k + 1)) (r (k + 2)) (G (k + 1)))) :
    OrthErr N r r' G X c' α (β * ((1 + ε) * (1 + γ))) (P * bn (r (k + 1)) (N (k + 1)) (r (k + 2)) (G (k + 1))) (k + 1) := by
  set g := bn (r (k + 1)) (N (k + 1)) (r (k + 2)) (G (k + 1)) with hg
  set C := bn (r' k) (N k) (r (k + 1)) c with hC
  set ρ := fn (r' (k + 1)) (r (k + 1)) R with hρ
  have hg0 : 0 ≤ g := bn_nonneg _ _ _ _
  have hC0 : 0 ≤ C := bn_nonneg _ _ _ _
  have hρ0 : 0 ≤ ρ := fn_nonneg _ _ _
  have hp0 : 0 ≤ (1 + α) ^ k := pow_nonneg (by linarith) k
  have hp1 : 0 ≤ (1 + α) ^ (k + 1) := pow_nonneg (by linarith) _
  have hρC : ρ ≤ (1 + ε) * C := by
    rw [hρ, ← bn_isometry hq]
    calc bn (r' k) (N k) (r (k + 1)) (fun n a b => ∑ l ∈ Finset.range (r' (k + 1)), q n a l * R l b)
        = bn (r' k) (N k) (r (k + 1)) (fun n a b => ((∑ l ∈ Finset.range (r' (k + 1)), q n a l * R l b) - c n a b) + c n a b) :=
          bn_congr fun _ _ _ _ _ _ => by ring
      _ ≤ ε * C + C := (bn_add_le _ _ _ _ _).trans (add_le_add hR le_rfl)
      _ = _ := by ring
  have hop : OpLe (rowsN N (k + 1)) (r' (k + 1)) (lmat N r' X (k + 1)) ((1 + α) ^ (k + 1)) := by
    rw [pow_succ]
    exact h.op.ext hp0 (BOpLe.near hq hX)
  have hXR : bn (r' k) (N k) (r (k + 1)) (fun n a b => (∑ l ∈ Finset.range (r' (k + 1)), X k n a l * R l b) - c n a b) ≤ α * ρ + ε * C := by
    calc _ = bn (r' k) (N k) (r (k + 1)) (fun n a b => (∑ l ∈ Finset.range (r' (k + 1)), (X k n a l - q n a l) * R l b) +
            ((∑ l ∈ Finset.range (r' (k + 1)), q n a l * R l b) - c n a b)) := bn_congr fun n _ a _ b _ => by
          simp only [sub_mul, Finset.sum_sub_distrib]; ring
      _ ≤ _ := by
          refine (bn_add_le _ _ _ _ _).trans (add_le_add ?_ hR)
          exact (bn_mul_right_le (r' k) (N k) (r' (k + 1)) (r (k + 1)) (fun n a b => X k n a b - q n a b) R).trans
            (mul_le_mul_of_nonneg_right hX hρ0)
  have hLR : fn (rowsN N (k + 1)) (r (k + 1)) (fun x b => (∑ l ∈ Finset.range (r' (k + 1)), lmat N r' X (k + 1) x l * R l b) -
      lmat N r G (k + 1) x b) ≤ ((1 + α) ^ k * β - 1) * P + (1 + α) ^ k * (α * ρ + ε * C) := by
    calc _ = fn (rowsN N (k + 1)) (r (k + 1)) (fun x b => (ext (N k) (r' k) (lmat N r' X k) c x b - lmat N r G (k + 1) x b) +
            ext (N k) (r' k) (lmat N r' X k) (fun n a b => (∑ l ∈ Finset.range (r' (k + 1)), X k n a l * R l b) - c n a b) x b) :=
          fn_congr fun x _ b _ => by
            rw [lmat_succ, ext_mul]
            simp only [ext, mul_sub, Finset.sum_sub_distrib]
            ring
      _ ≤ _ := by
          refine (fn_add_le _ _ _ _).trans (add_le_add h.err ?_)
          exact (h.op.ext_le _ _ _).trans (mul_le_mul_of_nonneg_left hXR hp0)
  have hCP : C ≤ β * P := h.cur
  have hkey : ((1 + α) ^ k * β - 1) * P + (1 + α) ^ k * (α * ρ + ε * C) + (1 + α) ^ (k + 1) * (γ * ρ) ≤
      ((1 + α) ^ (k + 1) * (β * ((1 + ε) * (1 + γ))) - 1) * P := by
    have h1 : (α + (1 + α) * γ) * ρ + ε * C ≤ ((1 + α) * ((1 + ε) * (1 + γ)) - 1) * C := by
      have := mul_le_mul_of_nonneg_left hρC (show 0 ≤ α + (1 + α) * γ by positivity)
      linarith
    have h2 : ((1 + α) * ((1 + ε) * (1 + γ)) - 1) * C ≤ ((1 + α) * ((1 + ε) * (1 + γ)) - 1) * (β * P) := by
      refine mul_le_mul_of_nonneg_left hCP ?_
      have e : (1 + α) * ((1 + ε) * (1 + γ)) - 1 = α + ε + γ + α * ε + α * γ + ε * γ + α * ε * γ := by ring
      rw [e]; positivity
    have h3 := mul_le_mul_of_nonneg_left (h1.trans h2) hp0
    rw [pow_succ]
    linarith
  refine ⟨hop, ?_, ?_⟩
  · calc bn (r' (k + 1)) (N (k + 1)) (r (k + 1 + 1)) c'
        = bn (r' (k + 1)) (N (k + 1)) (r (k + 2)) (fun n a b => (c' n a b - ∑ l ∈ Finset.range (r (k + 1)), R a l * G (k + 1) n l b) +
            ∑ l ∈ Finset.range (r (k + 1)), R a l * G (k + 1) n l b) := bn_congr fun _ _ _ _ _ _ => by ring
      _ ≤ γ * (ρ * g) + ρ * g := (bn_add_le _ _ _ _ _).trans (add_le_add hc' (bn_mul_left_le _ _ _ _ _ _))
      _ = (1 + γ) * (ρ * g) := by ring
      _ ≤ (1 + γ) * ((1 + ε) * (β * P) * g) := by
          refine mul_le_mul_of_nonneg_left (mul_le_mul_of_nonneg_right ?_ hg0) (by positivity)
          exact hρC.trans (mul_le_mul_of_nonneg_left hCP (by positivity))
      _ = _ := by ring
  · calc _ = fn (rowsN N (k + 1) * N (k + 1)) (r (k + 2)) (fun x b =>
            ext (N (k + 1)) (r (k + 1)) (fun x b => (∑ l ∈ Finset.range (r' (k + 1)), lmat N r' X (k + 1) x l * R l b) - lmat N r G (k + 1) x b)
              (G (k + 1)) x b +
            ext (N (k + 1)) (r' (k + 1)) (lmat N r' X (k + 1)) (fun n a b => c' n a b - ∑ l ∈ Finset.range (r (k + 1)), R a l * G (k + 1) n l b) x b) :=
          fn_congr fun x _ b _ => by
            rw [lmat_succ (k := k + 1)]
            simp only [ext, mul_sub, sub_mul, Finset.sum_sub_distrib, Finset.mul_sum, Finset.sum_mul]
            rw [Finset.sum_comm (s := Finset.range (r (k + 1)))]
            simp only [mul_assoc]
            ring
      _ ≤ (((1 + α) ^ k * β - 1) * P + (1 + α) ^ k * (α * ρ + ε * C)) * g + (1 + α) ^ (k + 1) * (γ * (ρ * g)) := by
          refine (fn_add_le _ _ _ _).trans (add_le_add ?_ ?_)
          · exact (ext_le _ _ _ _ _ _).trans (mul_le_mul_of_nonneg_right hLR hg0)
          · exact (hop.ext_le _ _ _).trans (mul_le_mul_of_nonneg_left hc' hp1)
      _ = (((1 + α) ^ k * β - 1) * P + (1 + α) ^ k * (α * ρ + ε * C) + (1 + α) ^ (k + 1) * (γ * ρ)) * g := by ring
      _ ≤ _ := (mul_le_mul_of_nonneg_right hkey hg0).trans (le_of_eq (by ring))

end T3f
