import Verif.Spec.Draws
import Verif.Spec.Entry
import Mathlib.Probability.Independence.Integration

/-! # Moments of a random tensor train -/

namespace T3f

open MeasureTheory ProbabilityTheory

theorem lprod_measurable {Ω : Type} {m : MeasurableSpace Ω} (r : ℕ → ℕ) (A : Ω → ℕ → ℕ → ℕ → ℝ) (k : ℕ)
    (hA : ∀ j < k, ∀ a b, Measurable fun ω => A ω j a b) (b : ℕ) : Measurable fun ω => lprod r (A ω) k b := by
  induction k generalizing b with
  | zero => simp only [lprod]; exact measurable_const
  | succ k ih =>
    simp only [lprod]
    refine Finset.measurable_fun_sum _ fun a _ => ?_
    exact (ih (fun j hj => hA j (by omega)) a).mul (hA k (by omega) a b)

variable {Ω : Type} [MeasurableSpace Ω] {μ : Measure Ω} {z : Ω → ℕ → List ℕ → ℝ}

/-- Products of draws. -/
theorem StandardDraws.integral_mul (h : StandardDraws μ z) (k : ℕ) (i j : List ℕ) :
    ∫ ω, z ω k i * z ω k j ∂μ = if i = j then 1 else 0 := by
  by_cases hij : i = j
  · subst hij
    rw [if_pos rfl, ← h.var k i]
    exact integral_congr_ae (.of_forall fun ω => by ring)
  · rw [if_neg hij]
    have hi := h.indep.indepFun (i := (k, i)) (j := (k, j)) (by simpa using hij)
    rw [hi.integral_fun_mul_eq_mul_integral (h.meas k i).aestronglyMeasurable (h.meas k j).aestronglyMeasurable]
    simp [h.mean]

theorem StandardDraws.integrable_mul (h : StandardDraws μ z) (k : ℕ) (i j : List ℕ) :
    Integrable (fun ω => z ω k i * z ω k j) μ := (h.memLp k i).integrable_mul (h.memLp k j)

/-- The past is independent of core `k`. -/
theorem StandardDraws.indep_past (h : StandardDraws μ z) (k : ℕ) (X Y : Ω → ℝ)
    (hX : Measurable[⨆ q ∈ {q : ℕ × List ℕ | q.1 < k}, MeasurableSpace.comap (fun ω => z ω q.1 q.2) inferInstance] X)
    (hY : Measurable[⨆ q ∈ {q : ℕ × List ℕ | q.1 = k}, MeasurableSpace.comap (fun ω => z ω q.1 q.2) inferInstance] Y) :
    IndepFun X Y μ := by
  rw [IndepFun_iff_Indep]
  have hi := (iIndepFun_iff_iIndep _ _ _).1 h.indep
  have := indep_iSup_of_disjoint (fun q => (h.meas q.1 q.2).comap_le) hi
    (S := {q : ℕ × List ℕ | q.1 < k}) (T := {q : ℕ × List ℕ | q.1 = k})
    (Set.disjoint_left.2 fun q h1 h2 => by
      have h1' : q.1 < k := h1
      have h2' : q.1 = k := h2
      omega)
  exact indep_of_indep_of_le this hX.comap_le hY.comap_le

omit [MeasurableSpace Ω] in
theorem meas_of_mem (S : Set (ℕ × List ℕ)) (k : ℕ) (i : List ℕ) (hk : (k, i) ∈ S) :
    Measurable[⨆ q ∈ S, MeasurableSpace.comap (fun ω => z ω q.1 q.2) inferInstance] fun ω => z ω k i := by
  have h1 : Measurable[MeasurableSpace.comap (fun ω => z ω k i) inferInstance] fun ω => z ω k i := comap_measurable _
  refine h1.mono ?_ le_rfl
  exact le_iSup₂_of_le (f := fun q (_ : q ∈ S) => MeasurableSpace.comap (fun ω => z ω q.1 q.2) inferInstance) (k, i) hk le_rfl

variable [IsProbabilityMeasure μ] (r : ℕ → ℕ) (σ : ℝ) (P : ℕ → ℕ → ℕ → List ℕ)

/-- Row vector of the product of the first `k` random matrices `σ z_k[P k a b]`. -/
def randomRow (ω : Ω → ℕ → List ℕ → ℝ) (x : Ω) (k b : ℕ) : ℝ := lprod r (fun j a b => σ * ω x j (P j a b)) k b

/-- Second moments of the rows. -/
theorem randomRow_moment (h : StandardDraws μ z) (hr0 : r 0 = 1) (P' : ℕ → ℕ → ℕ → List ℕ)
    (hP : ∀ k a b a' b', P k a b = P' k a' b' ↔ a = a' ∧ b = b' ∧ P k 0 0 = P' k 0 0) (k : ℕ) :
    ∀ b < r k, ∀ b' < r k, Integrable (fun ω => randomRow r σ P z ω k b * randomRow r σ P' z ω k b') μ ∧
      ∫ ω, randomRow r σ P z ω k b * randomRow r σ P' z ω k b' ∂μ =
        if b = b' ∧ ∀ j < k, P j 0 0 = P' j 0 0 then σ ^ (2 * k) * ∏ j ∈ Finset.range k, (r j : ℝ) else 0 := by
  induction k with
  | zero =>
    intro b hb b' hb'
    obtain rfl : b = 0 := by omega
    obtain rfl : b' = 0 := by omega
    simp [randomRow, lprod]
  | succ k ih =>
    intro b hb b' hb'
    have hind : ∀ c c', IndepFun (fun ω => randomRow r σ P z ω k c * randomRow r σ P' z ω k c')
        (fun ω => (σ * z ω k (P k c b)) * (σ * z ω k (P' k c' b'))) μ := by
      intro c c'
      refine h.indep_past k _ _ ?_ ?_
      · refine Measurable.mul ?_ ?_ <;>
        · refine lprod_measurable (m := ⨆ q ∈ {q : ℕ × List ℕ | q.1 < k}, MeasurableSpace.comap (fun ω => z ω q.1 q.2) inferInstance)
            r _ k (fun j hj a b => ?_) _
          exact (meas_of_mem _ _ _ hj).const_mul _
      · exact ((meas_of_mem _ _ _ (rfl : (k, P k c b).1 = k)).const_mul _).mul ((meas_of_mem _ _ _ (rfl : (k, P' k c' b').1 = k)).const_mul _)
    have hint : ∀ c c', Integrable (fun ω => (σ * z ω k (P k c b)) * (σ * z ω k (P' k c' b'))) μ := by
      intro c c'
      refine ((h.integrable_mul k (P k c b) (P' k c' b')).const_mul (σ * σ)).congr (.of_forall fun ω => ?_)
      dsimp only; ring
    have hval : ∀ c c', ∫ ω, (σ * z ω k (P k c b)) * (σ * z ω k (P' k c' b')) ∂μ =
        if P k c b = P' k c' b' then σ ^ 2 else 0 := by
      intro c c'
      rw [show (fun ω => (σ * z ω k (P k c b)) * (σ * z ω k (P' k c' b'))) =
        fun ω => (σ ^ 2) * (z ω k (P k c b) * z ω k (P' k c' b')) by funext ω; ring]
      rw [integral_const_mul, h.integral_mul]
      split_ifs <;> simp
    have hexp : (fun ω => randomRow r σ P z ω (k + 1) b * randomRow r σ P' z ω (k + 1) b') = fun ω =>
        ∑ c ∈ Finset.range (r k), ∑ c' ∈ Finset.range (r k),
          (randomRow r σ P z ω k c * randomRow r σ P' z ω k c') * ((σ * z ω k (P k c b)) * (σ * z ω k (P' k c' b'))) := by
      funext ω
      simp only [randomRow, lprod]
      rw [Finset.sum_mul_sum]
      refine Finset.sum_congr rfl fun c _ => Finset.sum_congr rfl fun c' _ => by ring
    have hterm : ∀ c ∈ Finset.range (r k), ∀ c' ∈ Finset.range (r k), Integrable (fun ω =>
        (randomRow r σ P z ω k c * randomRow r σ P' z ω k c') * ((σ * z ω k (P k c b)) * (σ * z ω k (P' k c' b')))) μ := by
      intro c hc c' hc'
      exact (hind c c').integrable_mul (ih c (Finset.mem_range.1 hc) c' (Finset.mem_range.1 hc')).1 (hint c c')
    rw [hexp]
    refine ⟨integrable_finsetSum _ fun c hc => integrable_finsetSum _ fun c' hc' => hterm c hc c' hc', ?_⟩
    rw [integral_finsetSum _ fun c hc => integrable_finsetSum _ fun c' hc' => hterm c hc c' hc']
    have : ∀ c ∈ Finset.range (r k), ∫ ω, ∑ c' ∈ Finset.range (r k),
        (randomRow r σ P z ω k c * randomRow r σ P' z ω k c') * ((σ * z ω k (P k c b)) * (σ * z ω k (P' k c' b'))) ∂μ =
        if b = b' ∧ ∀ j < k + 1, P j 0 0 = P' j 0 0 then σ ^ (2 * (k + 1)) * ∏ j ∈ Finset.range k, (r j : ℝ) else 0 := by
      intro c hc
      have hc1 := Finset.mem_range.1 hc
      rw [integral_finsetSum _ fun c' hc' => hterm c hc c' hc']
      have hcell : ∀ c' ∈ Finset.range (r k), ∫ ω,
          (randomRow r σ P z ω k c * randomRow r σ P' z ω k c') * ((σ * z ω k (P k c b)) * (σ * z ω k (P' k c' b'))) ∂μ =
          if c' = c then (if b = b' ∧ ∀ j < k + 1, P j 0 0 = P' j 0 0 then σ ^ (2 * (k + 1)) * ∏ j ∈ Finset.range k, (r j : ℝ) else 0)
          else 0 := by
        intro c' hc'
        obtain ⟨i1, i2⟩ := ih c hc1 c' (Finset.mem_range.1 hc')
        rw [(hind c c').integral_fun_mul_eq_mul_integral i1.aestronglyMeasurable (hint c c').aestronglyMeasurable]
        rw [i2, hval]
        by_cases e : c' = c
        · subst e
          rw [if_pos rfl]
          by_cases e1 : b = b' ∧ ∀ j < k + 1, P j 0 0 = P' j 0 0
          · rw [if_pos e1, if_pos ⟨rfl, fun j hj => e1.2 j (by omega)⟩, if_pos ((hP _ _ _ _ _).2 ⟨rfl, e1.1, e1.2 k (by omega)⟩)]
            ring
          · rw [if_neg e1]
            by_cases e2 : c' = c' ∧ ∀ j < k, P j 0 0 = P' j 0 0
            · rw [if_neg (c := P k c' b = P' k c' b'), mul_zero]
              intro e3
              obtain ⟨-, e4, e5⟩ := (hP _ _ _ _ _).1 e3
              refine e1 ⟨e4, fun j hj => ?_⟩
              rcases Nat.lt_succ_iff_lt_or_eq.1 hj with hj | rfl
              · exact e2.2 j hj
              · exact e5
            · rw [if_neg e2, zero_mul]
        · rw [if_neg e, if_neg (c := c = c' ∧ _) (fun e' => e e'.1.symm), zero_mul]
      rw [Finset.sum_congr rfl hcell, Finset.sum_ite_eq_of_mem' _ _ _ hc]
    rw [Finset.sum_congr rfl this, Finset.sum_const, Finset.card_range, Finset.prod_range_succ, nsmul_eq_mul]
    split_ifs <;> ring

/-- First moments of the rows. -/
theorem randomRow_mean (h : StandardDraws μ z) (hr0 : r 0 = 1)
    (hP : ∀ k a b a' b', P k a b = P k a' b' ↔ a = a' ∧ b = b') (k : ℕ) (hk : 0 < k) (b : ℕ) (hb : b < r k) :
    ∫ ω, randomRow r σ P z ω k b ∂μ = 0 := by
  obtain ⟨k, rfl⟩ : ∃ j, k = j + 1 := ⟨k - 1, by omega⟩
  have hmeas : ∀ c, Measurable fun ω => randomRow r σ P z ω k c := fun c =>
    lprod_measurable r _ k (fun j _ a b => (h.meas j _).const_mul _) c
  have hL2 : ∀ c < r k, Integrable (fun ω => randomRow r σ P z ω k c) μ := by
    intro c hc
    have := (randomRow_moment r σ P h hr0 P (fun k a b a' b' => by rw [hP]; simp) k c hc c hc).1
    have h2 : MemLp (fun ω => randomRow r σ P z ω k c) 2 μ := by
      rw [memLp_two_iff_integrable_sq (hmeas c).aestronglyMeasurable]
      refine this.congr (.of_forall fun ω => ?_)
      dsimp only; ring
    exact h2.integrable (by norm_num)
  have hind : ∀ c, IndepFun (fun ω => randomRow r σ P z ω k c) (fun ω => σ * z ω k (P k c b)) μ := by
    intro c
    refine h.indep_past k _ _ ?_ ?_
    · refine lprod_measurable (m := ⨆ q ∈ {q : ℕ × List ℕ | q.1 < k}, MeasurableSpace.comap (fun ω => z ω q.1 q.2) inferInstance)
            r _ k (fun j hj a b => ?_) _
      exact (meas_of_mem _ _ _ hj).const_mul _
    · exact (meas_of_mem _ _ _ (rfl : (k, P k c b).1 = k)).const_mul _
  have hz : ∀ i, Integrable (fun ω => z ω k i) μ := fun i => (h.memLp k i).integrable (by norm_num)
  have hprod : ∀ c ∈ Finset.range (r k), Integrable (fun ω => randomRow r σ P z ω k c * (σ * z ω k (P k c b))) μ := fun c hc =>
    (hind c).integrable_mul (hL2 c (Finset.mem_range.1 hc)) ((hz _).const_mul _)
  change ∫ ω, ∑ c ∈ Finset.range (r k), randomRow r σ P z ω k c * (σ * z ω k (P k c b)) ∂μ = 0
  rw [integral_finsetSum _ hprod]
  refine Finset.sum_eq_zero fun c hc => ?_
  have := (hind c).integral_fun_mul_eq_mul_integral (hmeas c).aestronglyMeasurable ((h.meas k (P k c b)).const_mul σ).aestronglyMeasurable
  rw [integral_const_mul, h.mean] at this
  simpa [randomRow] using this

end T3f
