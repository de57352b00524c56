import Mathlib.Analysis.InnerProductSpace.PiL2
import Verif.Proofs.Stage

/-! # The share of the norm that truncation keeps -/

namespace T3f

/-- Some `b` of `m` weights make up at least the fraction `b / m` of their sum. -/
theorem exists_heavy {m : ℕ} (w : Fin m → ℝ) (hw : ∀ i, 0 ≤ w i) {b : ℕ} (hb : b ≤ m) :
    ∃ s : Finset (Fin m), s.card = b ∧ (b : ℝ) * ∑ i, w i ≤ m * ∑ i ∈ s, w i := by
  induction hj : m - b generalizing b with
  | zero =>
    obtain rfl : b = m := by omega
    exact ⟨Finset.univ, by simp, le_rfl⟩
  | succ j ih =>
    obtain ⟨s, hs, hle⟩ := ih (b := b + 1) (by omega) (by omega)
    obtain ⟨i, hi, hmin⟩ := s.exists_min_image w (Finset.card_pos.1 (by omega))
    refine ⟨s.erase i, by rw [Finset.card_erase_of_mem hi, hs]; rfl, ?_⟩
    have h1 : ∑ k ∈ s.erase i, w k + w i = ∑ k ∈ s, w k := Finset.sum_erase_add _ _ hi
    have h2 : (b : ℝ) * w i ≤ ∑ k ∈ s.erase i, w k := by
      have := Finset.card_nsmul_le_sum (s.erase i) w (w i) fun k hk => hmin k (Finset.mem_of_mem_erase hk)
      rw [Finset.card_erase_of_mem hi, hs, nsmul_eq_mul] at this
      simpa using this
    have hm : (0 : ℝ) ≤ m := Nat.cast_nonneg m
    have hb0 : (0 : ℝ) ≤ b := Nat.cast_nonneg b
    push_cast at hle
    have h3 : ((b : ℝ) + 1) * (b * ∑ k, w k) ≤ (b + 1) * (m * ∑ k ∈ s.erase i, w k) := by
      have h4 := mul_le_mul_of_nonneg_left hle hb0
      have h5 := mul_le_mul_of_nonneg_left h2 hm
      rw [← h1] at h4
      nlinarith
    exact le_of_mul_le_mul_left h3 (by positivity)

theorem exists_near_span {ι E : Type} [Fintype ι] [NormedAddCommGroup E] [InnerProductSpace ℝ E] {ρ b : ℕ} (hb : b ≤ ρ) (v : ι → E) (Q : Fin ρ → E)
    (h : ∀ i, v i ∈ Submodule.span ℝ (Set.range Q)) : ∃ (n : ℕ) (P' : ι → Fin n → ℝ) (Q' : Fin n → E), n ≤ b ∧
      (ρ : ℝ) * ∑ i, ‖v i - ∑ x, P' i x • Q' x‖ ^ 2 ≤ (ρ - b) * ∑ i, ‖v i‖ ^ 2 := by
  set W := Submodule.span ℝ (Set.range Q) with hW
  have : FiniteDimensional ℝ W := FiniteDimensional.span_of_finite ℝ (Set.finite_range Q)
  set B := stdOrthonormalBasis ℝ W
  set m := Module.finrank ℝ W with hmdef
  have hm : m ≤ ρ := by
    have := finrank_range_le_card (R := ℝ) Q
    rwa [Fintype.card_fin] at this
  set c : ι → Fin m → ℝ := fun i x => B.repr ⟨v i, h i⟩ x with hc
  have hv : ∀ i, v i = ∑ x, c i x • (B x : E) := fun i => by
    have := congrArg (Subtype.val) (B.sum_repr ⟨v i, h i⟩)
    rw [← show (∑ x, c i x • (B x : E)) = ((∑ x, B.repr ⟨v i, h i⟩ x • B x : W) : E) by simp [hc]] at this
    exact this.symm
  have ho : Orthonormal ℝ fun x => (B x : E) := B.orthonormal.comp_linearIsometry W.subtypeₗᵢ
  have hn : ∀ (s : Finset (Fin m)) (i : ι), ‖∑ x ∈ s, c i x • (B x : E)‖ ^ 2 = ∑ x ∈ s, c i x ^ 2 := fun s i => by
    rw [← real_inner_self_eq_norm_sq, ho.inner_sum]
    exact Finset.sum_congr rfl fun x _ => by simp [sq]
  obtain ⟨s, hs, hle⟩ := exists_heavy (fun x => ∑ i, c i x ^ 2) (fun x => Finset.sum_nonneg fun i _ => sq_nonneg _) (b := min b m) (min_le_right _ _)
  refine ⟨s.card, fun i x => c i (s.equivFin.symm x), fun x => B (s.equivFin.symm x), by rw [hs]; exact min_le_left _ _, ?_⟩
  have hsum : ∀ i, ∑ x, c i (s.equivFin.symm x) • (B (s.equivFin.symm x : Fin m) : E) = ∑ x ∈ s, c i x • (B x : E) := fun i => by
    rw [← Finset.sum_coe_sort s fun x => c i x • (B x : E)]
    exact Equiv.sum_comp s.equivFin.symm fun x : s => c i x • (B x : E)
  have hd : ∀ i, ‖v i - ∑ x, c i (s.equivFin.symm x) • (B (s.equivFin.symm x : Fin m) : E)‖ ^ 2 = ∑ x, c i x ^ 2 - ∑ x ∈ s, c i x ^ 2 := fun i => by
    rw [hsum, hv i]
    have e : ∑ x, c i x • (B x : E) - ∑ x ∈ s, c i x • (B x : E) = ∑ x ∈ sᶜ, c i x • (B x : E) := by
      rw [← Finset.sum_add_sum_compl s]; abel
    rw [e, hn, ← Finset.sum_add_sum_compl s fun x => c i x ^ 2]; ring
  have hd2 : ∀ i, ‖v i‖ ^ 2 = ∑ x, c i x ^ 2 := fun i => by conv_lhs => rw [hv i, hn]
  simp only [hd, hd2, Finset.sum_sub_distrib]
  rw [Finset.sum_comm, Finset.sum_comm (s := Finset.univ) (t := s)]
  set A := ∑ x, ∑ i, c i x ^ 2
  set A' := ∑ x ∈ s, ∑ i, c i x ^ 2
  have hA : 0 ≤ A := Finset.sum_nonneg fun x _ => Finset.sum_nonneg fun i _ => sq_nonneg _
  have hA' : 0 ≤ A' := Finset.sum_nonneg fun x _ => Finset.sum_nonneg fun i _ => sq_nonneg _
  have hmr : (m : ℝ) ≤ ρ := by exact_mod_cast hm
  rcases le_total b m with h1 | h1
  · rw [min_eq_left h1] at hle
    nlinarith
  · rw [min_eq_right h1] at hs
    have : s = Finset.univ := (Finset.card_eq_iff_eq_univ s).1 (by rw [hs, Fintype.card_fin])
    have e : A' = A := by simp only [A', A, this]
    have : (b : ℝ) ≤ ρ := by exact_mod_cast hb
    rw [e, sub_self, mul_zero]
    exact mul_nonneg (by linarith) hA

theorem exists_near_fun {ι κ : Type} [Fintype ι] [Fintype κ] {ρ b : ℕ} (hb : b ≤ ρ) (X : ι → κ → ℝ) (P : ι → Fin ρ → ℝ) (Q : Fin ρ → κ → ℝ)
    (h : ∀ i j, X i j = ∑ x, P i x * Q x j) : ∃ (n : ℕ) (P' : ι → Fin n → ℝ) (Q' : Fin n → κ → ℝ), n ≤ b ∧
      (ρ : ℝ) * ∑ i, ∑ j, (X i j - ∑ x, P' i x * Q' x j) ^ 2 ≤ (ρ - b) * ∑ i, ∑ j, X i j ^ 2 := by
  obtain ⟨n, P', Q', hn, hle⟩ := exists_near_span (E := EuclideanSpace ℝ κ) hb (fun i => WithLp.toLp 2 (X i)) (fun x => WithLp.toLp 2 (Q x)) fun i => by
    have : (WithLp.toLp 2 (X i) : EuclideanSpace ℝ κ) = ∑ x, P i x • WithLp.toLp 2 (Q x) := by
      ext j
      simp [h i j]
    rw [this]
    exact Submodule.sum_mem _ fun x _ => Submodule.smul_mem _ _ (Submodule.subset_span ⟨x, rfl⟩)
  refine ⟨n, P', fun x j => Q' x j, hn, ?_⟩
  simpa [EuclideanSpace.real_norm_sq_eq] using hle

/-- A block of rank `ρ` has an approximation of rank `b` that keeps the fraction `b / ρ` of the sum of squares. -/
theorem fro3_near {a M c ρ b : ℕ} (hb : b ≤ ρ) {C : ℕ → ℕ → ℕ → ℝ} {P : ℕ → ℕ → ℝ} {Q : ℕ → ℕ → ℕ → ℝ}
    (h : ∀ n < M, ∀ α < a, ∀ β < c, C n α β = ∑ x ∈ Finset.range ρ, P α x * Q x n β) :
    ∃ (r : ℕ) (P' : ℕ → ℕ → ℝ) (Q' : ℕ → ℕ → ℕ → ℝ), r ≤ b ∧
      (ρ : ℝ) * fro3 a M c (fun n α β => C n α β - ∑ x ∈ Finset.range r, P' α x * Q' x n β) ≤ (ρ - b) * fro3 a M c C := by
  obtain ⟨r, P', Q', hr, hle⟩ := exists_near_fun (ι := Fin a) (κ := Fin M × Fin c) hb (fun α q => C q.1 α q.2) (fun α x => P α x) (fun x q => Q x q.1 q.2)
    fun α q => by rw [h _ q.1.2 _ α.2 _ q.2.2, Finset.sum_range]
  refine ⟨r, fun α x => if hh : α < a ∧ x < r then P' ⟨α, hh.1⟩ ⟨x, hh.2⟩ else 0,
    fun x n β => if hh : x < r ∧ n < M ∧ β < c then Q' ⟨x, hh.1⟩ (⟨n, hh.2.1⟩, ⟨β, hh.2.2⟩) else 0, hr, ?_⟩
  simp only [Fintype.sum_prod_type] at hle
  simp only [fro3, Finset.sum_range, Fin.is_lt, and_self, dite_true]
  exact hle

/-- The same for blocks that are cut on the other side. -/
theorem fro3_near' {a M c ρ b : ℕ} (hb : b ≤ ρ) {D : ℕ → ℕ → ℕ → ℝ} {P : ℕ → ℕ → ℕ → ℝ} {Q : ℕ → ℕ → ℝ}
    (h : ∀ n < M, ∀ α < a, ∀ β < c, D n α β = ∑ x ∈ Finset.range ρ, P n α x * Q x β) :
    ∃ (r : ℕ) (P' : ℕ → ℕ → ℕ → ℝ) (Q' : ℕ → ℕ → ℝ), r ≤ b ∧
      (ρ : ℝ) * fro3 a M c (fun n α β => D n α β - ∑ x ∈ Finset.range r, P' n α x * Q' x β) ≤ (ρ - b) * fro3 a M c D := by
  obtain ⟨r, P', Q', hr, hle⟩ := exists_near_fun (ι := Fin a × Fin M) (κ := Fin c) hb (fun q β => D q.2 q.1 β) (fun q x => P q.2 q.1 x) (fun x β => Q x β)
    fun q β => by rw [h _ q.2.2 _ q.1.2 _ β.2, Finset.sum_range]
  refine ⟨r, fun n α x => if hh : n < M ∧ α < a ∧ x < r then P' (⟨α, hh.2.1⟩, ⟨n, hh.1⟩) ⟨x, hh.2.2⟩ else 0,
    fun x β => if hh : x < r ∧ β < c then Q' ⟨x, hh.1⟩ ⟨β, hh.2⟩ else 0, hr, ?_⟩
  simp only [Fintype.sum_prod_type] at hle
  simp only [fro3, Finset.sum_range, Fin.is_lt, and_self, dite_true]
  exact hle

theorem eq_zero_of_fro3 {a M c : ℕ} {D : ℕ → ℕ → ℕ → ℝ} (h : fro3 a M c D ≤ 0) : ∀ n < M, ∀ α < a, ∀ β < c, D n α β = 0 := by
  intro n hn α hα β hβ
  have h0 : fro3 a M c D = 0 := le_antisymm h (Finset.sum_nonneg fun _ _ => Finset.sum_nonneg fun _ _ => Finset.sum_nonneg fun _ _ => sq_nonneg _)
  have h1 := (Finset.sum_eq_zero_iff_of_nonneg fun _ _ => Finset.sum_nonneg fun _ _ => Finset.sum_nonneg fun _ _ => sq_nonneg _).1 h0 α (Finset.mem_range.2 hα)
  have h2 := (Finset.sum_eq_zero_iff_of_nonneg fun _ _ => Finset.sum_nonneg fun _ _ => sq_nonneg _).1 h1 n (Finset.mem_range.2 hn)
  have h3 := (Finset.sum_eq_zero_iff_of_nonneg fun _ _ => sq_nonneg _).1 h2 β (Finset.mem_range.2 hβ)
  exact pow_eq_zero_iff (two_ne_zero) |>.1 h3

theorem share_le {ρ b : ℕ} (hρ : 0 < ρ) {f tail : ℝ} (h : (ρ : ℝ) * tail ≤ (ρ - b) * f) : (b : ℝ) / ρ * f ≤ f - tail := by
  have h0 : (0 : ℝ) < ρ := by exact_mod_cast hρ
  rw [div_mul_eq_mul_div, div_le_iff₀ h0]
  linarith

section
variable {N rL rV : ℕ → ℕ} {L V C : ℕ → ℕ → ℕ → ℕ → ℝ} {d : ℕ} {tail : ℕ → ℝ} {bd : ℕ → ℕ}

/-- One truncation of the sweep from right to left keeps its share. `S` is any chain for the same tensor. -/
theorem RSweep.keeps_step (h : RSweep N rL rV L V C d tail bd) {k : ℕ} (hk0 : 0 < k) (hk : k < d)
    {rS : ℕ → ℕ} {S : ℕ → ℕ → ℕ → ℕ → ℝ} (hS : rS d = 1) (hp : 0 < rS k) (h0 : chainDist N rL rS L S d ≤ 0) :
    ((min (bd k) (rS k) : ℕ) : ℝ) / rS k * fro3 (rL k) (N k) (rV (k + 1)) (C k) ≤ fro3 (rL k) (N k) (rV (k + 1)) (C k) - tail k := by
  have h2 := bessel (N := N) (L := L) (V := V) (T := L) (S := S) (rT := rL) (rS := rS) hk h.rL0 h.rVd h.rLd hS
    (fun j hj => h.lorth j (by omega)) (fun j h1 h2 => (h.step j (by omega) h2).orth)
  have h3 := eq_zero_of_fro3 (h2.trans h0)
  obtain ⟨r, P, Q, hr, hle⟩ := fro3_near (C := C k) (a := rL k) (M := N k) (c := rV (k + 1)) (min_le_right (bd k) (rS k))
    (P := fun a x => gram N rL rS L S k a x)
    (Q := fun x n b => ∑ y ∈ Finset.range (rS (k + 1)), S k n x y * rgram N rV rS V S (d - 1 - k) (k + 1) b y) (fun n hn a ha b hb => by
      rw [← h.proj hk n hn a ha b hb, sub_eq_zero.1 (h3 n hn a ha b hb)]
      unfold blockProj
      refine Finset.sum_congr rfl fun x _ => ?_
      rw [Finset.mul_sum]
      exact Finset.sum_congr rfl fun y _ => by ring)
  have h4 := (h.step k hk0 hk).best r P Q (hr.trans (min_le_left _ _))
  exact share_le hp ((mul_le_mul_of_nonneg_left h4 (Nat.cast_nonneg _)).trans hle)

theorem RSweep.keeps (h : RSweep N rL rV L V C d tail bd) {rS : ℕ → ℕ} {S : ℕ → ℕ → ℕ → ℕ → ℝ} (hS : rS d = 1) (hp : ∀ k < d, 0 < rS k)
    (h0 : chainDist N rL rS L S d ≤ 0) :
    (∏ k ∈ Finset.Ico 1 d, ((min (bd k) (rS k) : ℕ) : ℝ) / rS k) * gram N rL rL L L d 0 0 ≤
      gram N rL rL L L d 0 0 - chainDist N rL (blockRank rL rV 0) L (blockChain L V (C 0) 0) d := by
  have hd := h.pos
  have e3 := h.norm_left
  have e4 := h.fro_sum (k := d - 1) (by omega)
  rw [show d - 1 + 1 = d by omega] at e4
  rw [h.error.1, e3, show fro3 (rL (d - 1)) (N (d - 1)) (rV d) (C (d - 1)) - ∑ j ∈ Finset.range (d - 1), tail (j + 1) =
    fro3 (rL 0) (N 0) (rV 1) (C 0) by rw [e4]; ring]
  have key : ∀ i < d, (∏ k ∈ Finset.Ico 1 (i + 1), ((min (bd k) (rS k) : ℕ) : ℝ) / rS k) * fro3 (rL i) (N i) (rV (i + 1)) (C i) ≤
      fro3 (rL 0) (N 0) (rV 1) (C 0) := by
    intro i
    induction i with
    | zero => intro _; simp
    | succ i ih =>
      intro hi
      rw [Finset.prod_Ico_succ_top (by omega), mul_assoc]
      refine le_trans (mul_le_mul_of_nonneg_left ?_ (Finset.prod_nonneg fun k _ => by positivity)) (ih (by omega))
      have := h.keeps_step (k := i + 1) (by omega) hi hS (hp _ hi) h0
      rwa [h.fro_step hi, add_sub_cancel_right, ← h.fro_step hi] at this
  have := key (d - 1) (by omega)
  rwa [show d - 1 + 1 = d by omega] at this

end

section
variable {N rU rV : ℕ → ℕ} {U V D : ℕ → ℕ → ℕ → ℕ → ℝ} {d : ℕ} {tail : ℕ → ℝ} {bd : ℕ → ℕ}

theorem LSweep.keeps_step (h : LSweep N rU rV U V D d tail bd) {k : ℕ} (hk : k + 1 < d)
    {rS : ℕ → ℕ} {S : ℕ → ℕ → ℕ → ℕ → ℝ} (hS : rS d = 1) (hp : 0 < rS (k + 1))
    (h0 : chainDist N (blockRank rU rV 0) rS (blockChain U V (D 0) 0) S d ≤ 0) :
    ((min (bd (k + 1)) (rS (k + 1)) : ℕ) : ℝ) / rS (k + 1) * fro3 (rU k) (N k) (rV (k + 1)) (D k) ≤ fro3 (rU k) (N k) (rV (k + 1)) (D k) - tail k := by
  have hz : blockRank rU rV 0 d = 1 := by unfold blockRank; rw [if_neg (by omega)]; exact h.rVd
  have h2 := bessel (N := N) (L := U) (V := V) (T := blockChain U V (D 0) 0) (S := S) (rT := blockRank rU rV 0) (rS := rS)
    (show k < d by omega) h.rU0 h.rVd hz hS
    (fun j hj => (h.step j (by omega)).orth) (fun j h1 h2 => h.rorth j (by omega) h2)
  have h3 := eq_zero_of_fro3 (h2.trans h0)
  obtain ⟨r, P, Q, hr, hle⟩ := fro3_near' (D := D k) (a := rU k) (M := N k) (c := rV (k + 1)) (min_le_right (bd (k + 1)) (rS (k + 1)))
    (P := fun n a y => ∑ x ∈ Finset.range (rS k), gram N rU rS U S k a x * S k n x y)
    (Q := fun y b => rgram N rV rS V S (d - 1 - k) (k + 1) b y) (fun n hn a ha b hb => by
      rw [← h.proj (by omega) n hn a ha b hb, sub_eq_zero.1 (h3 n hn a ha b hb)]
      unfold blockProj
      rw [Finset.sum_comm]
      exact Finset.sum_congr rfl fun y _ => by rw [Finset.sum_mul])
  have h4 := (h.step k hk).best r P Q (hr.trans (min_le_left _ _))
  exact share_le hp ((mul_le_mul_of_nonneg_left h4 (Nat.cast_nonneg _)).trans hle)

theorem LSweep.keeps (h : LSweep N rU rV U V D d tail bd) {rS : ℕ → ℕ} {S : ℕ → ℕ → ℕ → ℕ → ℝ} (hS : rS d = 1) (hp : ∀ k < d, 0 < rS k)
    (h0 : chainDist N (blockRank rU rV 0) rS (blockChain U V (D 0) 0) S d ≤ 0) :
    (∏ k ∈ Finset.Ico 1 d, ((min (bd k) (rS k) : ℕ) : ℝ) / rS k) *
        gram N (blockRank rU rV 0) (blockRank rU rV 0) (blockChain U V (D 0) 0) (blockChain U V (D 0) 0) d 0 0 ≤
      gram N (blockRank rU rV 0) (blockRank rU rV 0) (blockChain U V (D 0) 0) (blockChain U V (D 0) 0) d 0 0 -
        chainDist N (blockRank rU rV 0) (blockRank rU rV (d - 1)) (blockChain U V (D 0) 0) (blockChain U V (D (d - 1)) (d - 1)) d := by
  have hd := h.pos
  have hz : (if d ≤ 0 then rU d else rV d) = 1 := by rw [if_neg (by omega)]; exact h.rVd
  have e0 : gram N (blockRank rU rV 0) (blockRank rU rV 0) (blockChain U V (D 0) 0) (blockChain U V (D 0) 0) d 0 0 = fro3 (rU 0) (N 0) (rV 1) (D 0) := by
    rw [gram_block (N := N) (L := U) (V := V) (S := blockChain U V (D 0) 0) (D 0) hd hz hz]
    refine Finset.sum_congr rfl fun a ha => Finset.sum_congr rfl fun n hn => Finset.sum_congr rfl fun b hb => ?_
    rw [h.proj hd n (Finset.mem_range.1 hn) a (Finset.mem_range.1 ha) b (Finset.mem_range.1 hb), sq]
  rw [h.error.1, e0]
  have key : ∀ i < d, (∏ k ∈ Finset.Ico 1 (i + 1), ((min (bd k) (rS k) : ℕ) : ℝ) / rS k) * fro3 (rU 0) (N 0) (rV 1) (D 0) ≤
      fro3 (rU i) (N i) (rV (i + 1)) (D i) := by
    intro i
    induction i with
    | zero => intro _; simp
    | succ i ih =>
      intro hi
      rw [Finset.prod_Ico_succ_top (by omega), mul_comm (∏ k ∈ _, _), mul_assoc]
      refine le_trans (mul_le_mul_of_nonneg_left (ih (by omega)) (by positivity)) ?_
      have := h.keeps_step hi hS (hp _ hi) h0
      rwa [h.fro_step hi, add_sub_cancel_right, ← h.fro_step hi] at this
  have := key (d - 1) (by omega)
  rw [show d - 1 + 1 = d by omega] at this
  have e4 := h.fro_sum (k := d - 1) (by omega)
  rw [show d - 1 + 1 = d by omega] at e4
  linarith

end

theorem IsChain.dist_eq {t s : TT ℝ} (h : t.WF) (hs : s.WF) (hr : s.rawShape = t.rawShape) {p : List ℕ} {r r' : ℕ → ℕ}
    {A A' : ℕ → ℕ → ℕ → ℕ → ℝ} (c : t.IsChain p r A) (c' : s.IsChain p r' A') :
    entryDist t s p = chainDist t.N r r' A A' t.ndims ∧ entryDot t t p = gram t.N r r A A t.ndims 0 0 := by
  have hn : s.ndims = t.ndims := ndims_eq_of_rawShape hs h hr
  have hN : s.N = t.N := by funext k; rw [TT.N, TT.N, TT.modes, TT.modes, hr]
  have r0 : 0 < r t.ndims := by rw [← c.rank _ le_rfl, h.rank_last]; omega
  have r0' : 0 < r' t.ndims := by rw [← hn, ← c'.rank _ le_rfl, hs.rank_last]; omega
  have cr : ∀ k ≤ t.ndims, s.rank k = r' k := fun k hk => c'.rank k (by omega)
  have cc : ∀ k < t.ndims, ∀ n < t.N k, ∀ a < r' k, ∀ b < r' (k + 1), s.fl p k n a b = A' k n a b := fun k hk n hn' a ha b hb =>
    c'.core k (by omega) n (by rw [hN]; exact hn') a ha b hb
  refine ⟨?_, ?_⟩
  · rw [← chainDist_entry h hs hr hn p]
    unfold chainDist
    rw [gram_congr' c.rank c.rank c.core c.core r0 r0, gram_congr' cr cr cc cc r0' r0', gram_congr' c.rank cr c.core cc r0 r0']
  · rw [← gram_entry h rfl rfl p, gram_congr' c.rank c.rank c.core c.core r0 r0]

theorem IsChain.self (t : TT ℝ) (p : List ℕ) : t.IsChain p t.rank (t.fl p) := ⟨fun _ _ => rfl, fun _ _ _ _ _ _ _ _ => rfl⟩

/-- `to_tt_tensor` and `to_tt_matrix`. -/
theorem Fit.keeps {z x : TT ℝ} {b : ℕ → ℕ} (f : Fit z x b) (h : z.WF) {S : TT ℝ} (hS : S.WF) (hr : S.rawShape = z.rawShape)
    (h0 : entryDist z S [] ≤ 0) :
    (∏ k ∈ Finset.Ico 1 z.ndims, ((min (b k) (S.rank k) : ℕ) : ℝ) / S.rank k) * entryDot z z [] ≤ entryDot z z [] - entryDist z x [] := by
  obtain ⟨rV, U, V, D, tail, -, h1, h2, h3⟩ := f.sweep
  have hSn : S.ndims = z.ndims := ndims_eq_of_rawShape hS h hr
  obtain ⟨e1, e2⟩ := IsChain.dist_eq h f.wf f.rows h2 h3
  rw [(IsChain.dist_eq h hS hr h2 (IsChain.self S [])).1] at h0
  rw [e1, e2]
  exact h1.keeps (by rw [← hSn]; exact hS.rank_last) (fun k hk => hS.rank_pos k (by omega)) h0

/-- `round`. -/
theorem ttRound_keeps {qr : QRRoutine} (hqr : qr.Correct) {svd : SVDRoutine} (hsvd : svd.Correct) {t : TT ℝ} (h : t.WF) (hm : t.ModesPos)
    {m : MaxRank} {b : ℕ → ℕ} (hb : m.Bounds t.ndims b) (hbatch : t.isBatch → m.Single) {eps : Option ℝ} (he : ∀ e ∈ eps, 0 ≤ e) :
    ∃ x, ttRound qr svd t m eps = Except.ok x ∧ x.WF ∧ x.rawShape = t.rawShape ∧ x.batch = t.batch ∧ ∀ p, Valid t.bpre p →
      ∀ S : TT ℝ, S.WF → S.rawShape = t.rawShape → entryDist t S p ≤ 0 →
        (∏ k ∈ Finset.Ico 1 t.ndims, ((min (b k) (S.rank k) : ℕ) : ℝ) / S.rank k) * entryDot t t p ≤ entryDot t t p - entryDist t x p := by
  obtain ⟨l, el, hl, hlb, hlp⟩ := maxRanks_ok hb he
  obtain ⟨x, o, r', V, C, tail, e, hxw, hxr, hxb, hxn, ho, hom, hor, hob, hon, hork, hoe, hr', hrank, hfl, hf0, sw⟩ :=
    roundWith_sweep hqr hsvd h hm hl hlp
  refine ⟨x, by rw [ttRound_eq hbatch, el]; exact e, hxw, hxr, hxb, fun p hp S hSw hSr h0 => ?_⟩
  have sp := sw p hp
  have r0 : r' 0 = 1 := by rw [hr']; exact rdRank_zero _ _ _ _
  have hN : x.N = o.N := by funext k; rw [TT.N, TT.N, TT.modes, TT.modes, hxr, hor]
  have hSn : S.ndims = t.ndims := ndims_eq_of_rawShape hSw h hSr
  have odist : ∀ S' : TT ℝ, entryDist o S' p = entryDist t S' p := by
    intro S'
    unfold entryDist
    rw [hor]
    refine Finset.sum_congr rfl fun n hn => ?_
    rw [hoe p hp _ (validModes_rest h (unravel_valid (Finset.mem_range.1 hn)))]
  have odot : entryDot o o p = entryDot t t p := by
    unfold entryDot
    rw [hor]
    refine Finset.sum_congr rfl fun n hn => ?_
    rw [hoe p hp _ (validModes_rest h (unravel_valid (Finset.mem_range.1 hn)))]
  have hX : x.IsChain p (blockRank o.rank r' 0) (blockChain (o.fl p) (V p) (C p 0) 0) := by
    refine ⟨fun k hk => ?_, fun k hk n hn a ha c hc => ?_⟩
    · rw [hrank k (by omega), blockRank]
      split_ifs with h1
      · obtain rfl : k = 0 := by omega
        rw [r0, ho.rank_first]
      · rfl
    · rw [blockChain]
      rw [hN] at hn
      rcases Nat.eq_zero_or_pos k with rfl | h1
      · rw [if_neg (by omega), if_pos rfl]
        rw [blockRank, if_pos le_rfl, ho.rank_first] at ha
        rw [blockRank, if_neg (by omega)] at hc
        exact hf0 p hp n hn a ha c hc
      · rw [if_neg (by omega), if_neg (by omega), hfl p k h1 (by omega)]
  obtain ⟨e1, e2⟩ := IsChain.dist_eq ho hxw (by rw [hxr, hor]) (IsChain.self o p) hX
  rw [← odist, (IsChain.dist_eq ho hSw (by rw [hSr, hor]) (IsChain.self o p) (IsChain.self S p)).1, hon] at h0
  rw [← odot, ← odist, e1, e2, hon]
  refine le_trans (le_of_eq ?_) (sp.keeps (by rw [← hSn]; exact hSw.rank_last) (fun k hk => hSw.rank_pos k (by omega)) h0)
  congr 1
  refine Finset.prod_congr rfl fun k hk => ?_
  rw [Finset.mem_Ico] at hk
  rw [hlb k (by omega)]

end T3f
