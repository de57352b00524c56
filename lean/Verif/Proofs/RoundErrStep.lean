import Verif.Proofs.RoundErr
import Verif.Proofs.SvdNear
import Verif.Proofs.OrthoErrRL
import Verif.Proofs.Round

/-! # One truncation in floating point arithmetic -/

namespace T3f

theorem fn_orth {n r : ℕ} {u : ℕ → ℕ → ℝ} (h : ∀ γ < r, ∀ γ' < r, ∑ i ∈ Finset.range n, u i γ * u i γ' = if γ = γ' then 1 else 0) :
    fn n r u = √r := by
  unfold fn
  congr 1
  rw [Finset.sum_comm]
  calc _ = ∑ _γ ∈ Finset.range r, (1 : ℝ) := Finset.sum_congr rfl fun γ hγ => by
        rw [Finset.mem_range] at hγ
        have := h γ hγ γ hγ
        rw [if_pos rfl] at this
        rw [← this]
        exact Finset.sum_congr rfl fun _ _ => by ring
    _ = _ := by simp

theorem bn_orth {a N b : ℕ} {D : ℕ → ℕ → ℕ → ℝ} (h : ∀ β < b, ∀ β' < b, ∑ x ∈ Finset.range a, ∑ n ∈ Finset.range N, D n x β * D n x β' = δ β β') :
    bn a N b D = √b := by
  rw [bn_tall]
  refine fn_orth fun γ hγ γ' hγ' => ?_
  rw [← show δ γ γ' = if γ = γ' then (1 : ℝ) else 0 from rfl, ← h γ hγ γ' hγ']
  exact sum_divmod a N fun x n => D n x γ * D n x γ'

theorem fn_diag {r : ℕ} (s : ℕ → ℝ) : fn r r (fun x y => if x = y then s x else 0) = √(∑ γ ∈ Finset.range r, s γ ^ 2) := by
  unfold fn
  congr 1
  refine Finset.sum_congr rfl fun x hx => ?_
  rw [Finset.sum_eq_single x]
  · simp
  · intro y _ hy; simp [Ne.symm hy]
  · intro h; exact absurd hx h

/-- The factor for the growth of the errors in one truncation with rank `r`. -/
noncomputable def truncGrowth (A : Arith) (ε : ℝ) (r : ℕ) : ℝ := (1 + ε) ^ 3 * (1 + A.u) ^ (2 * r ^ 2)

theorem truncGrowth_ge (A : Arith) {ε : ℝ} (hε : 0 ≤ ε) (r : ℕ) : 1 ≤ truncGrowth A ε r := by
  unfold truncGrowth
  have h1 := one_le_pow₀ (n := 3) (show (1 : ℝ) ≤ 1 + ε by linarith)
  have h2 := one_le_pow₀ (n := 2 * r ^ 2) (show (1 : ℝ) ≤ 1 + A.u by linarith [A.nonneg])
  nlinarith

/-- The error of the two products with the previous core `Y`: first by `w`, close to `u` with orthonormal columns, then by the singular values. -/
theorem carry_err {A : Arith} {ε : ℝ} (hε : 0 ≤ ε) {a N l y r : ℕ} (hl0 : 0 < l) (hy0 : 0 < y) (hl : l ≤ r) (hy : y ≤ r) {P Y Z W : ℕ → ℕ → ℕ → ℝ} {u w : ℕ → ℕ → ℝ} {s : ℕ → ℝ}
    (hP : ∀ β < l, ∀ β' < l, ∑ x ∈ Finset.range a, ∑ n ∈ Finset.range N, P n x β * P n x β' = δ β β')
    (hY : bn a N l (fun n x β => Y n x β - P n x β) ≤ ε)
    (hu : ∀ γ < y, ∀ γ' < y, ∑ i ∈ Finset.range l, u i γ * u i γ' = if γ = γ' then 1 else 0)
    (hw : fn l y (fun i γ => w i γ - u i γ) ≤ ε)
    (hZ : bn a N y (fun n x γ => Z n x γ - ∑ i ∈ Finset.range l, Y n x i * w i γ) ≤ ((1 + A.u) ^ l - 1) * (fn l y w * bn a N l Y))
    (hW : bn a N y (fun n x γ => W n x γ - ∑ γ' ∈ Finset.range y, Z n x γ' * if γ' = γ then s γ' else 0) ≤
      ((1 + A.u) ^ y - 1) * (√(∑ γ ∈ Finset.range y, s γ ^ 2) * bn a N y Z)) :
    bn a N y (fun n x γ => W n x γ - ∑ i ∈ Finset.range l, P n x i * (u i γ * s γ)) ≤
      ((1 + ε) ^ 2 * (1 + A.u) ^ (2 * r ^ 2) - 1) * √(∑ γ ∈ Finset.range y, s γ ^ 2) := by
  set σ := √(∑ γ ∈ Finset.range y, s γ ^ 2) with hσ
  have hσ0 : 0 ≤ σ := Real.sqrt_nonneg _
  set D : ℕ → ℕ → ℝ := fun γ' γ => if γ' = γ then s γ' else 0 with hD
  have hDn : fn y y D = σ := fn_diag s
  have hdiag : ∀ (f : ℕ → ℝ) (γ : ℕ), γ < y → ∑ γ' ∈ Finset.range y, f γ' * D γ' γ = f γ * s γ := by
    intro f γ hγ
    rw [Finset.sum_eq_single γ]
    · simp [hD]
    · intro b _ hb; simp [hD, hb]
    · intro h; exact absurd (Finset.mem_range.2 hγ) h
  have hu1 := A.nonneg
  set γ := (1 + A.u) ^ r - 1 with hγ
  have hγ0 : 0 ≤ γ := by have := one_le_pow₀ (n := r) (show (1 : ℝ) ≤ 1 + A.u by linarith); linarith
  have hγl : (1 + A.u) ^ l - 1 ≤ γ := by have := pow_le_pow_right₀ (show (1 : ℝ) ≤ 1 + A.u by linarith) hl; linarith
  have hγy : (1 + A.u) ^ y - 1 ≤ γ := by have := pow_le_pow_right₀ (show (1 : ℝ) ≤ 1 + A.u by linarith) hy; linarith
  have hr1 : (1 : ℝ) ≤ r := by exact_mod_cast (by omega : 1 ≤ r)
  have sq1 : ∀ m : ℕ, 0 < m → m ≤ r → 1 ≤ √(m : ℝ) ∧ √(m : ℝ) ≤ √(r : ℝ) := fun m h0 h1 =>
    ⟨by rw [Real.one_le_sqrt]; exact_mod_cast h0, Real.sqrt_le_sqrt (by exact_mod_cast h1)⟩
  obtain ⟨l1, l2⟩ := sq1 l hl0 hl
  obtain ⟨y1, y2⟩ := sq1 y hy0 hy
  have rr : √(r : ℝ) * √(r : ℝ) = r := Real.mul_self_sqrt (by linarith)
  have hsr : √(r : ℝ) ≤ r := by
    have := mul_le_mul_of_nonneg_right (l1.trans l2) (Real.sqrt_nonneg (r : ℝ))
    rw [rr, one_mul] at this
    exact this
  have hwn : fn l y w ≤ (1 + ε) * √(r : ℝ) := by
    have := fn_add_le l y (fun i γ => w i γ - u i γ) u
    simp only [sub_add_cancel] at this
    rw [fn_orth hu] at this
    have := mul_le_mul_of_nonneg_left (y1.trans y2) hε
    linarith
  have hYn : bn a N l Y ≤ (1 + ε) * √(r : ℝ) := by
    have := bn_add_le a N l (fun n x β => Y n x β - P n x β) P
    simp only [sub_add_cancel] at this
    rw [bn_orth hP] at this
    have := mul_le_mul_of_nonneg_left (l1.trans l2) hε
    linarith
  set β := (1 + ε) ^ 2 with hβ
  have hβ0 : 0 ≤ β := by positivity
  have hE1 : bn a N y (fun n x γ => Z n x γ - ∑ i ∈ Finset.range l, Y n x i * w i γ) ≤ γ * (β * r) := by
    refine hZ.trans ?_
    have h1 : fn l y w * bn a N l Y ≤ β * r := by
      calc _ ≤ ((1 + ε) * √(r : ℝ)) * ((1 + ε) * √(r : ℝ)) := mul_le_mul hwn hYn (bn_nonneg _ _ _ _) (by positivity)
        _ = β * (√(r : ℝ) * √(r : ℝ)) := by rw [hβ]; ring
        _ = _ := by rw [rr]
    exact mul_le_mul hγl h1 (mul_nonneg (fn_nonneg _ _ _) (bn_nonneg _ _ _ _)) hγ0
  have hop : BOpLe a N l Y (1 + ε) := BOpLe.near hP hY
  have hZn : bn a N y Z ≤ γ * (β * r) + β * r := by
    have := bn_add_le a N y (fun n x γ => Z n x γ - ∑ i ∈ Finset.range l, Y n x i * w i γ) (fun n x γ => ∑ i ∈ Finset.range l, Y n x i * w i γ)
    simp only [sub_add_cancel] at this
    refine this.trans (add_le_add hE1 ((hop y w).trans ?_))
    calc (1 + ε) * fn l y w ≤ (1 + ε) * ((1 + ε) * √(r : ℝ)) := mul_le_mul_of_nonneg_left hwn (by linarith)
      _ = β * √(r : ℝ) := by rw [hβ]; ring
      _ ≤ _ := mul_le_mul_of_nonneg_left hsr hβ0
  have hT1 : bn a N y (fun n x γ => W n x γ - Z n x γ * s γ) ≤ γ * (σ * (γ * (β * r) + β * r)) := by
    refine le_trans (le_of_eq (bn_congr fun n _ x _ γ' hγ' => ?_)) (hW.trans ?_)
    · rw [hdiag (fun γ => Z n x γ) γ' hγ']
    · exact mul_le_mul hγy (mul_le_mul_of_nonneg_left hZn hσ0) (mul_nonneg hσ0 (bn_nonneg _ _ _ _)) hγ0
  have hT2 : bn a N y (fun n x γ => (Z n x γ - ∑ i ∈ Finset.range l, Y n x i * w i γ) * s γ) ≤ γ * (β * r) * σ := by
    refine le_trans (le_of_eq (bn_congr fun n _ x _ γ' hγ' => ?_))
      ((bn_mul_right_le a N y y (fun n x γ => Z n x γ - ∑ i ∈ Finset.range l, Y n x i * w i γ) D).trans ?_)
    · rw [hdiag (fun γ => Z n x γ - ∑ i ∈ Finset.range l, Y n x i * w i γ) γ' hγ']
    · rw [hDn]
      exact mul_le_mul_of_nonneg_right hE1 hσ0
  have hT3 : bn a N y (fun n x γ => ∑ i ∈ Finset.range l, Y n x i * ((w i γ - u i γ) * s γ)) ≤ (1 + ε) * (ε * σ) := by
    refine (hop y fun i γ => (w i γ - u i γ) * s γ).trans (mul_le_mul_of_nonneg_left ?_ (by linarith))
    refine le_trans (le_of_eq (fn_congr fun i _ γ' hγ' => ?_)) ((fn_mul_le l y y (fun i γ => w i γ - u i γ) D).trans ?_)
    · rw [hdiag (fun γ => w i γ - u i γ) γ' hγ']
    · rw [hDn]
      exact mul_le_mul_of_nonneg_right hw hσ0
  have huD : fn l y (fun i γ => u i γ * s γ) = σ := by
    rw [← hDn, ← fn_isometry hu]
    exact fn_congr fun i _ γ' hγ' => (hdiag (fun γ => u i γ) γ' hγ').symm
  have hT4 : bn a N y (fun n x γ => ∑ i ∈ Finset.range l, (Y n x i - P n x i) * (u i γ * s γ)) ≤ ε * σ := by
    refine (bn_mul_right_le a N l y (fun n x i => Y n x i - P n x i) fun i γ => u i γ * s γ).trans ?_
    rw [huD]
    exact mul_le_mul_of_nonneg_right hY hσ0
  have hsum : bn a N y (fun n x γ => W n x γ - ∑ i ∈ Finset.range l, P n x i * (u i γ * s γ)) ≤
      γ * (σ * (γ * (β * r) + β * r)) + (γ * (β * r) * σ + ((1 + ε) * (ε * σ) + ε * σ)) := by
    calc _ = bn a N y (fun n x γ => (W n x γ - Z n x γ * s γ) + ((Z n x γ - ∑ i ∈ Finset.range l, Y n x i * w i γ) * s γ +
            ((∑ i ∈ Finset.range l, Y n x i * ((w i γ - u i γ) * s γ)) + ∑ i ∈ Finset.range l, (Y n x i - P n x i) * (u i γ * s γ)))) := by
          refine bn_congr fun n _ x _ γ' _ => ?_
          have e1 : ∑ i ∈ Finset.range l, Y n x i * ((w i γ' - u i γ') * s γ') =
              (∑ i ∈ Finset.range l, Y n x i * w i γ') * s γ' - ∑ i ∈ Finset.range l, Y n x i * (u i γ' * s γ') := by
            rw [Finset.sum_mul, ← Finset.sum_sub_distrib]
            exact Finset.sum_congr rfl fun _ _ => by ring
          rw [e1]
          simp only [sub_mul, Finset.sum_sub_distrib]
          ring
      _ ≤ _ := (bn_add_le _ _ _ _ _).trans (add_le_add hT1 ((bn_add_le _ _ _ _ _).trans (add_le_add hT2
          ((bn_add_le _ _ _ _ _).trans (add_le_add hT3 hT4)))))
  have hpow : 1 + r * γ ≤ (1 + A.u) ^ (r ^ 2) := by
    have := one_add_mul_le_pow (a := γ) (by linarith) r
    rw [hγ, show 1 + ((1 + A.u) ^ r - 1) = (1 + A.u) ^ r by ring, ← pow_mul, ← sq] at this
    exact this
  have hpow2 : (1 + r * γ) ^ 2 ≤ (1 + A.u) ^ (2 * r ^ 2) := by
    rw [Nat.mul_comm, pow_mul]
    exact pow_le_pow_left₀ (by positivity) hpow 2
  have hfin : β * (1 + 2 * (r * γ) + r * γ ^ 2) ≤ β * (1 + A.u) ^ (2 * r ^ 2) := by
    refine mul_le_mul_of_nonneg_left (le_trans ?_ hpow2) hβ0
    have h1 : (r : ℝ) * γ ^ 2 ≤ (r * γ) ^ 2 := by
      rw [mul_pow]
      exact mul_le_mul_of_nonneg_right (le_self_pow₀ hr1 two_ne_zero) (sq_nonneg γ)
    have e : (1 + r * γ) ^ 2 = 1 + 2 * (r * γ) + (r * γ) ^ 2 := by ring
    rw [e]
    linarith
  refine hsum.trans ?_
  calc _ = (β * (1 + 2 * (r * γ) + r * γ ^ 2) - 1) * σ := by rw [hβ]; ring
    _ ≤ _ := mul_le_mul_of_nonneg_right (by linarith) hσ0

theorem RStepE.of_svd {N rL rV : ℕ → ℕ} {Q V C X : ℕ → ℕ → ℕ → ℕ → ℝ} {k bd r : ℕ} {tail : ℝ} {x u : ℕ → ℕ → ℝ} {s : ℕ → ℝ} {v : ℕ → ℕ → ℝ}
    {A : Arith} {ε : ℝ} (hε : 0 ≤ ε) (hk : 0 < k)
    (h : TruncSvd (rL k) (N k * rV (k + 1)) (rV k) x u s v tail)
    (hx : ∀ a < rL k, ∀ n < N k, ∀ b < rV (k + 1), x a (n * rV (k + 1) + b) = X k n a b)
    (hV : ∀ n < N k, ∀ a < rV k, ∀ b < rV (k + 1), V k n a b = v (n * rV (k + 1) + b) a)
    (hX : bn (rL k) (N k) (rV (k + 1)) (fun n a b => X k n a b - C k n a b) ≤ ε * bn (rL k) (N k) (rV (k + 1)) (C k))
    (hC : bn (rL (k - 1)) (N (k - 1)) (rV k) (fun n a y => C (k - 1) n a y - ∑ l ∈ Finset.range (rL k), Q (k - 1) n a l * (u l y * s y)) ≤
      ((1 + ε) ^ 2 * (1 + A.u) ^ (2 * r ^ 2) - 1) * √(∑ γ ∈ Finset.range (rV k), s γ ^ 2))
    (hb : ∀ ρ ≤ bd, ρ ≤ rV k ∨ rV k = min (rL k) (N k * rV (k + 1))) : RStepE N rL rV Q V C X k tail bd (truncGrowth A ε r) := by
  have st := RStep.of_svd (L := fun _ _ _ _ => 0) (C := Function.update (fun _ _ _ _ => 0) k (X k)) (V := V) (bd := bd) h
    (fun a ha n hn b hb => by rw [Function.update_self]; exact hx a ha n hn b hb) hV (fun n hn a ha y hy => by
      rw [Function.update_of_ne (by omega)]; simp) hb
  have hE : ∀ a < rL k, ∀ y < rV k, wv N rV V k (X k) a y = u a y * s y := by
    intro a ha y hy
    rw [← h.mulV a ha y hy, sum_range_mul]
    refine Finset.sum_congr rfl fun n hn => Finset.sum_congr rfl fun b hb => ?_
    rw [Finset.mem_range] at hn hb
    rw [hx a ha n hn b hb, hV n hn y hy b hb]
  have hnorm := st.norm
  rw [Function.update_self, ← bn_sq] at hnorm
  have hnorm' : bn (rL k) (N k) (rV (k + 1)) (X k) ^ 2 = fn (rL k) (rV k) (wv N rV V k (X k)) ^ 2 + tail := by
    rw [hnorm, fn_sq]
    rfl
  refine ⟨st.orth, hnorm', fun ρ P R hρ => ?_, ?_⟩
  · have := st.best ρ P R hρ
    rw [Function.update_self] at this
    rw [bn_sq]
    exact this
  · set c := bn (rL k) (N k) (rV (k + 1)) (C k) with hc
    set σ := √(∑ γ ∈ Finset.range (rV k), s γ ^ 2) with hσ
    have hWn : fn (rL k) (rV k) (wv N rV V k (X k)) = σ := by
      have h1 := fn_isometry (U := rL k) (r := rV k) (L := u) h.orthU (rV k) (fun x y => if x = y then s x else 0)
      rw [fn_diag] at h1
      rw [hσ, ← h1]
      refine fn_congr fun a ha y hy => ?_
      rw [hE a ha y hy, Finset.sum_eq_single y]
      · simp
      · intro b _ hb; simp [hb]
      · intro h; exact absurd (Finset.mem_range.2 hy) h
    have hσc : σ ≤ (1 + ε) * c := by
      rw [← hWn]
      refine (wv_le st.orth _ _).trans ?_
      have := bn_add_le (rL k) (N k) (rV (k + 1)) (fun n a b => X k n a b - C k n a b) (C k)
      simp only [sub_add_cancel] at this
      linarith
    have hC' : bn (rL (k - 1)) (N (k - 1)) (rV k) (fun n a x => C (k - 1) n a x - ∑ l ∈ Finset.range (rL k), Q (k - 1) n a l * wv N rV V k (X k) l x) ≤
        ((1 + ε) ^ 2 * (1 + A.u) ^ (2 * r ^ 2) - 1) * σ := by
      refine le_trans (le_of_eq (bn_congr fun n _ a _ y hy => ?_)) hC
      congr 1
      exact Finset.sum_congr rfl fun l hl => by rw [hE l (Finset.mem_range.1 hl) y hy]
    have hg : 0 ≤ (1 + ε) ^ 2 * (1 + A.u) ^ (2 * r ^ 2) - 1 := by
      have h1 := one_le_pow₀ (n := 2) (show (1 : ℝ) ≤ 1 + ε by linarith)
      have h2 := one_le_pow₀ (n := 2 * r ^ 2) (show (1 : ℝ) ≤ 1 + A.u by linarith [A.nonneg])
      have := one_le_mul_of_one_le_of_one_le h1 h2
      linarith
    have h3 := mul_le_mul_of_nonneg_left hσc hg
    refine (add_le_add hX (hC'.trans h3)).trans (le_of_eq ?_)
    rw [truncGrowth]
    ring

end T3f
