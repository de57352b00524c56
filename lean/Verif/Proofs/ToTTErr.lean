import Verif.Proofs.RoundErrTT
import Verif.Proofs.ToTT
import Verif.Model.RoundedToTT

/-! # Error of a truncation sweep from left to right with inexact decompositions -/

namespace T3f

/-- A block times the transpose of core `k` of the new chain. -/
def uw (N rU : ℕ → ℕ) (U : ℕ → ℕ → ℕ → ℕ → ℝ) (k : ℕ) (D : ℕ → ℕ → ℕ → ℝ) (l x : ℕ) : ℝ :=
  ∑ m ∈ Finset.range (N k), ∑ a ∈ Finset.range (rU k), D m a l * U k m a x

/-- Truncation of core `k` in the sweep from left to right: `D` are the blocks before truncation, `X` the blocks near them whose decomposition is used, `U`
the new cores and `V` the cores of the original chain. -/
structure LStepE (N rU rV : ℕ → ℕ) (U V D X : ℕ → ℕ → ℕ → ℕ → ℝ) (k : ℕ) (tail : ℝ) (bd : ℕ) (h : ℝ) : Prop where
  orth : LOrth N rU U k
  norm : bn (rU k) (N k) (rV (k + 1)) (X k) ^ 2 = fn (rV (k + 1)) (rU (k + 1)) (uw N rU U k (X k)) ^ 2 + tail
  best : ∀ (ρ : ℕ) (P : ℕ → ℕ → ℝ) (R : ℕ → ℕ → ℕ → ℝ), ρ ≤ bd →
    tail ≤ bn (rU k) (N k) (rV (k + 1)) (fun n a b => X k n a b - ∑ x ∈ Finset.range ρ, P b x * R x n a) ^ 2
  err : bn (rU k) (N k) (rV (k + 1)) (fun n a b => X k n a b - D k n a b) +
      bn (rU (k + 1)) (N (k + 1)) (rV (k + 2)) (fun n x b => D (k + 1) n x b - ∑ l ∈ Finset.range (rV (k + 1)), V (k + 1) n l b * uw N rU U k (X k) l x) ≤
    (h - 1) * bn (rU k) (N k) (rV (k + 1)) (D k)

theorem LStepE.congr {N rU rV : ℕ → ℕ} {U U' V D D' X X' : ℕ → ℕ → ℕ → ℕ → ℝ} {k bd : ℕ} {tail h : ℝ}
    (s : LStepE N rU rV U V D X k tail bd h) (hU : U' k = U k) (hX : X' k = X k) (hD : D' k = D k) (hD1 : D' (k + 1) = D (k + 1)) :
    LStepE N rU rV U' V D' X' k tail bd h := by
  obtain ⟨h1, h2, h3, h4⟩ := s
  have hw : ∀ D, uw N rU U' k D = uw N rU U k D := fun D => by funext a x; simp only [uw, hU]
  refine ⟨?_, ?_, ?_, ?_⟩
  · unfold LOrth at h1 ⊢; rw [hU]; exact h1
  · rw [hX, hw]; exact h2
  · rw [hX]; exact h3
  · rw [hX, hD, hD1, hw]; exact h4

theorem LStepE.mir {N rU rV : ℕ → ℕ} {U V D X : ℕ → ℕ → ℕ → ℕ → ℝ} {d k bd : ℕ} {tail h : ℝ} (hk : k + 1 < d)
    (s : LStepE N rU rV U V D X k tail bd h) :
    RStepE (mirN d N) (mirR d rV) (mirR d rU) (mirA d V) (mirA d U) (mirA d D) (mirA d X) (d - 1 - k) tail bd h := by
  have e1 : d - 1 - (d - 1 - k) = k := by omega
  have e2 : d - (d - 1 - k) = k + 1 := by omega
  have e3 : d - (d - 1 - k + 1) = k := by omega
  have e4 : d - 1 - (d - 1 - k - 1) = k + 1 := by omega
  have e5 : d - (d - 1 - k - 1) = k + 2 := by omega
  have hA : ∀ E : ℕ → ℕ → ℕ → ℕ → ℝ, mirA d E (d - 1 - k) = fun n a b => E k n b a := fun E => by
    funext n a b
    simp only [mirA, e1]
  have hw : wv (mirN d N) (mirR d rU) (mirA d U) (d - 1 - k) (mirA d X (d - 1 - k)) = uw N rU U k (X k) := by
    funext a x
    simp only [wv, uw, mirN, mirR, mirA, e1, e3]
  refine ⟨?_, ?_, ?_, ?_⟩
  · intro a ha a' ha'
    simp only [mirR, e2] at ha ha'
    simp only [mirN, mirR, mirA, e1, e3]
    rw [Finset.sum_comm]
    exact s.orth a ha a' ha'
  · rw [hw, hA X]
    simp only [mirN, mirR, e1, e2, e3]
    rw [← bn_flip]
    exact s.norm
  · intro ρ P R hρ
    simp only [mirN, mirR, mirA, e1, e2, e3]
    rw [← bn_flip (rU k) (N k) (rV (k + 1)) fun n a b => X k n a b - ∑ x ∈ Finset.range ρ, P b x * R x n a]
    exact s.best ρ P R hρ
  · rw [hw, hA D]
    simp only [mirN, mirR, mirA, e1, e2, e3, e4, e5]
    rw [← bn_flip (rU k) (N k) (rV (k + 1)) fun n a b => X k n a b - D k n a b, ← bn_flip (rU k) (N k) (rV (k + 1)) (D k),
      ← bn_flip (rU (k + 1)) (N (k + 1)) (rV (k + 2)) fun n x b => D (k + 1) n x b - ∑ l ∈ Finset.range (rV (k + 1)), V (k + 1) n l b * uw N rU U k (X k) l x]
    exact s.err

/-! ## One decomposition -/

/-- The factor for the growth of the errors in one decomposition that keeps `r` singular values. -/
noncomputable def svdGrowth (A : Arith) (ε : ℝ) (r : ℕ) : ℝ := (1 + ε) ^ 2 * (1 + A.u) ^ r

theorem svdGrowth_ge (A : Arith) {ε : ℝ} (hε : 0 ≤ ε) (r : ℕ) : 1 ≤ svdGrowth A ε r :=
  one_le_mul_of_one_le_of_one_le (one_le_pow₀ (by linarith)) (one_le_pow₀ (by linarith [A.nonneg]))

theorem fn_scale {r m : ℕ} (s : ℕ → ℝ) (w : ℕ → ℕ → ℝ) : fn r m (fun y j => s y * w j y) ≤ √(∑ γ ∈ Finset.range r, s γ ^ 2) * fn m r w := by
  rw [← fn_diag, fn_transpose m r w]
  refine le_trans (le_of_eq (fn_congr fun y hy j _ => ?_)) (fn_mul_le r r m (fun x y => if x = y then s x else 0) fun y j => w j y)
  rw [Finset.sum_eq_single y]
  · simp
  · intro b _ hb; simp [Ne.symm hb]
  · intro h; exact absurd (Finset.mem_range.2 hy) h

theorem fn_scale_orth {r m : ℕ} (s : ℕ → ℝ) {v : ℕ → ℕ → ℝ} (hv : ∀ γ < r, ∀ γ' < r, ∑ j ∈ Finset.range m, v j γ * v j γ' = if γ = γ' then 1 else 0) :
    fn r m (fun y j => s y * v j y) = √(∑ γ ∈ Finset.range r, s γ ^ 2) := by
  unfold fn
  congr 1
  refine Finset.sum_congr rfl fun y hy => ?_
  rw [Finset.mem_range] at hy
  have := hv y hy y hy
  rw [if_pos rfl] at this
  calc _ = s y ^ 2 * ∑ j ∈ Finset.range m, v j y * v j y := by
        rw [Finset.mul_sum]; exact Finset.sum_congr rfl fun _ _ => by ring
    _ = _ := by rw [this, mul_one]

/-- The product of the singular values and the computed right singular vectors. -/
theorem scale_err {A : Arith} {ε : ℝ} {r m : ℕ} {s : ℕ → ℝ} {v w Z : ℕ → ℕ → ℝ}
    (hv : ∀ γ < r, ∀ γ' < r, ∑ j ∈ Finset.range m, v j γ * v j γ' = if γ = γ' then 1 else 0) (hw : fn m r (fun j γ => w j γ - v j γ) ≤ ε)
    (hZ : ∀ y < r, ∀ j < m, |Z y j - s y * w j y| ≤ ((1 + A.u) ^ r - 1) * |s y * w j y|) :
    fn r m (fun y j => Z y j - s y * v j y) ≤ ((1 + A.u) ^ r * (1 + ε) - 1) * √(∑ γ ∈ Finset.range r, s γ ^ 2) := by
  set σ := √(∑ γ ∈ Finset.range r, s γ ^ 2) with hσ
  have hσ0 : 0 ≤ σ := Real.sqrt_nonneg _
  have hγ : 0 ≤ (1 + A.u) ^ r - 1 := by
    have := one_le_pow₀ (n := r) (show (1 : ℝ) ≤ 1 + A.u by linarith [A.nonneg])
    linarith
  have h1 : fn r m (fun y j => s y * (w j y - v j y)) ≤ σ * ε := (fn_scale s fun j y => w j y - v j y).trans (mul_le_mul_of_nonneg_left hw hσ0)
  have h2 : fn r m (fun y j => s y * w j y) ≤ σ * ε + σ := by
    have := fn_add_le r m (fun y j => s y * (w j y - v j y)) fun y j => s y * v j y
    rw [fn_scale_orth s hv] at this
    refine le_trans (le_of_eq (fn_congr fun y _ j _ => ?_)) (this.trans (add_le_add h1 le_rfl))
    ring
  have h3 : fn r m (fun y j => Z y j - s y * w j y) ≤ ((1 + A.u) ^ r - 1) * (σ * ε + σ) := by
    refine (fn_mono (B := fun y j => ((1 + A.u) ^ r - 1) * |s y * w j y|) fun y hy j hj => hZ y hy j hj).trans ?_
    rw [fn_smul _ _ hγ, fn_abs]
    exact mul_le_mul_of_nonneg_left h2 hγ
  have h4 := fn_add_le r m (fun y j => Z y j - s y * w j y) fun y j => s y * (w j y - v j y)
  refine le_trans (le_of_eq (fn_congr fun y _ j _ => ?_)) (h4.trans ((add_le_add h3 h1).trans (le_of_eq ?_)))
  · ring
  · ring

theorem LStepE.of_svd {N rU rV : ℕ → ℕ} {U V D X : ℕ → ℕ → ℕ → ℕ → ℝ} {k bd : ℕ} {tail : ℝ} {x u : ℕ → ℕ → ℝ} {s : ℕ → ℝ} {v : ℕ → ℕ → ℝ}
    {A : Arith} {ε : ℝ} (hε : 0 ≤ ε)
    (h : TruncSvd (rU k * N k) (rV (k + 1)) (rU (k + 1)) x u s v tail)
    (hx : ∀ a < rU k, ∀ n < N k, ∀ b < rV (k + 1), x (a * N k + n) b = X k n a b)
    (hU : ∀ n < N k, ∀ a < rU k, ∀ b < rU (k + 1), U k n a b = u (a * N k + n) b)
    (hX : bn (rU k) (N k) (rV (k + 1)) (fun n a b => X k n a b - D k n a b) ≤ ε * bn (rU k) (N k) (rV (k + 1)) (D k))
    (hD : bn (rU (k + 1)) (N (k + 1)) (rV (k + 2)) (fun n y b => D (k + 1) n y b - ∑ l ∈ Finset.range (rV (k + 1)), V (k + 1) n l b * (s y * v l y)) ≤
      ((1 + A.u) ^ rU (k + 1) * (1 + ε) - 1) * √(∑ γ ∈ Finset.range (rU (k + 1)), s γ ^ 2))
    (hb : ∀ ρ ≤ bd, ρ ≤ rU (k + 1) ∨ rU (k + 1) = min (rU k * N k) (rV (k + 1))) :
    LStepE N rU rV U V D X k tail bd (svdGrowth A ε (rU (k + 1))) := by
  have hE : ∀ l < rV (k + 1), ∀ y < rU (k + 1), uw N rU U k (X k) l y = s y * v l y := by
    intro l hl y hy
    rw [← h.mulU l hl y hy, sum_range_mul, uw, Finset.sum_comm]
    refine Finset.sum_congr rfl fun a ha => Finset.sum_congr rfl fun n hn => ?_
    rw [Finset.mem_range] at hn ha
    rw [hx a ha n hn l hl, hU n hn a ha y hy, mul_comm]
  have hfro : ∀ f : ℕ → ℕ → ℝ, ∑ i ∈ Finset.range (rU k * N k), ∑ j ∈ Finset.range (rV (k + 1)), f i j ^ 2 =
      bn (rU k) (N k) (rV (k + 1)) (fun n a b => f (a * N k + n) b) ^ 2 := fun f => by
    rw [bn_flat, fn_sq]
  have hxX : bn (rU k) (N k) (rV (k + 1)) (X k) = bn (rU k) (N k) (rV (k + 1)) fun n a b => x (a * N k + n) b :=
    bn_congr fun n hn a ha b hb => (hx a ha n hn b hb).symm
  have hWn : fn (rV (k + 1)) (rU (k + 1)) (uw N rU U k (X k)) = √(∑ γ ∈ Finset.range (rU (k + 1)), s γ ^ 2) := by
    rw [← fn_scale_orth s h.orthV, fn_transpose]
    exact fn_congr fun y hy l hl => hE l hl y hy
  have hs0 : 0 ≤ ∑ γ ∈ Finset.range (rU (k + 1)), s γ ^ 2 := Finset.sum_nonneg fun _ _ => sq_nonneg _
  have hnorm : bn (rU k) (N k) (rV (k + 1)) (X k) ^ 2 = fn (rV (k + 1)) (rU (k + 1)) (uw N rU U k (X k)) ^ 2 + tail := by
    rw [hxX, ← hfro, h.norm, hWn, Real.sq_sqrt hs0]
  have horth : LOrth N rU U k := by
    intro b hb b' hb'
    have := h.orthU b hb b' hb'
    rw [sum_range_mul] at this
    rw [δ, ← this]
    refine Finset.sum_congr rfl fun a ha => Finset.sum_congr rfl fun n hn => ?_
    rw [Finset.mem_range] at hn ha
    rw [hU n hn a ha b hb, hU n hn a ha b' hb']
  have htail : 0 ≤ tail := by
    have h1 := h.best (rU (k + 1)) u (fun l j => s l * v j l) (Or.inl le_rfl)
    have h2 := h.norm
    have h3 : ∑ i ∈ Finset.range (rU k * N k), ∑ j ∈ Finset.range (rV (k + 1)), x i j ^ 2 ≥ ∑ γ ∈ Finset.range (rU (k + 1)), s γ ^ 2 := by
      have := fn_mulT_le (U := rV (k + 1)) (M := rU k * N k) (r := rU (k + 1)) (V := fun y i => u i y) (fun a ha b hb => h.orthU a ha b hb) fun j i => x i j
      have e : fn (rV (k + 1)) (rU (k + 1)) (fun j y => ∑ i ∈ Finset.range (rU k * N k), x i j * u i y) = √(∑ γ ∈ Finset.range (rU (k + 1)), s γ ^ 2) := by
        rw [← fn_scale_orth s h.orthV, fn_transpose]
        refine fn_congr fun y hy l hl => ?_
        rw [← h.mulU l hl y hy]
        exact Finset.sum_congr rfl fun _ _ => mul_comm _ _
      rw [e, fn, Real.sqrt_le_sqrt_iff (Finset.sum_nonneg fun _ _ => Finset.sum_nonneg fun _ _ => sq_nonneg _), Finset.sum_comm] at this
      exact this
    linarith
  refine ⟨horth, hnorm, fun ρ P R hρ => ?_, ?_⟩
  · refine le_trans (h.best ρ (fun j l => R l (j % N k) (j / N k)) (fun l j => P j l) (hb ρ hρ)) (le_of_eq ?_)
    rw [hfro]
    congr 1
    refine bn_congr fun n hn a ha b hb => ?_
    have e1 : (a * N k + n) / N k = a := by
      rw [Nat.mul_comm, Nat.mul_add_div (by omega), Nat.div_eq_of_lt hn, Nat.add_zero]
    have e2 : (a * N k + n) % N k = n := by
      rw [Nat.mul_comm, Nat.mul_add_mod, Nat.mod_eq_of_lt hn]
    rw [e1, e2, hx a ha n hn b hb]
    congr 1
    exact Finset.sum_congr rfl fun _ _ => mul_comm _ _
  · set c := bn (rU k) (N k) (rV (k + 1)) (D k) with hc
    set σ := √(∑ γ ∈ Finset.range (rU (k + 1)), s γ ^ 2) with hσ
    have hσc : σ ≤ (1 + ε) * c := by
      have h1 : σ ≤ bn (rU k) (N k) (rV (k + 1)) (X k) := by
        rw [← hWn]
        exact le_trans (le_abs_self _) (abs_le_of_sq_le_sq (by linarith) (bn_nonneg _ _ _ _))
      have := bn_add_le (rU k) (N k) (rV (k + 1)) (fun n a b => X k n a b - D k n a b) (D k)
      simp only [sub_add_cancel] at this
      linarith
    have hD' : bn (rU (k + 1)) (N (k + 1)) (rV (k + 2)) (fun n x b => D (k + 1) n x b - ∑ l ∈ Finset.range (rV (k + 1)), V (k + 1) n l b * uw N rU U k (X k) l x) ≤
        ((1 + A.u) ^ rU (k + 1) * (1 + ε) - 1) * σ := by
      refine le_trans (le_of_eq (bn_congr fun n _ y hy b _ => ?_)) hD
      congr 1
      exact Finset.sum_congr rfl fun l hl => by rw [hE l (Finset.mem_range.1 hl) y hy]
    have hg : 0 ≤ (1 + A.u) ^ rU (k + 1) * (1 + ε) - 1 := by
      have h1 := one_le_pow₀ (n := rU (k + 1)) (show (1 : ℝ) ≤ 1 + A.u by linarith [A.nonneg])
      have := one_le_mul_of_one_le_of_one_le h1 (show (1 : ℝ) ≤ 1 + ε by linarith)
      linarith
    have h3 := mul_le_mul_of_nonneg_left hσc hg
    refine (add_le_add hX (hD'.trans h3)).trans (le_of_eq ?_)
    rw [svdGrowth]
    ring

end T3f
