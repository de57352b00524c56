import Verif.Model.Completion
import Verif.Props.C12Gather
import Verif.Proofs.Autodiff
import Verif.Spec.ExamplesReal
import Mathlib.Analysis.SpecialFunctions.Exp
import Mathlib.Analysis.Complex.ExponentialBounds
import Mathlib.Data.Fintype.CardEmbedding
import Mathlib.Data.Nat.Factorial.BigOperators

/-!
# C61: the two losses of the tensor completion tutorial
-/

namespace T3f

theorem reduceSum_vec (D : Tensor ℝ) {c : ℕ} (h : D.shape = [c]) : reduceSum D = ∑ o ∈ Finset.range c, D.get [o] := by
  unfold reduceSum
  rw [h]
  simp only [List.prod_cons, List.prod_nil, mul_one]
  refine Finset.sum_congr rfl fun o ho => ?_
  congr 1
  simp [unravel]

/-- C61: the loss computed through `gather_nd` is the mean over the observations of the squared error of the entry of the represented tensor. -/
theorem C61_gather_loss {t : TT ℝ} (h : t.WF) (hm : ¬ t.isMatrix) (idx : Tensor ℕ) (c : ℕ) (_hc : 0 < c) (obs : Tensor ℝ) (ho : obs.shape = [c]) :
    ∃ F, full t = Except.ok F ∧
      (idx.shape = [c, F.shape.length] → (∀ o < c, Valid F.shape (idxRow idx F.shape.length o)) →
        gatherLoss t idx obs = Except.ok ((∑ o ∈ Finset.range c, (F.get (idxRow idx F.shape.length o) - obs.get [o]) ^ 2) / c)) := by
  obtain ⟨F, eF, hF⟩ := C18_gather_nd h hm idx c
  refine ⟨F, eF, fun hs hv => ?_⟩
  obtain ⟨G, eG, sG, vG⟩ := hF hs hv
  obtain ⟨D, eD, sD, vD⟩ := binop_same (· - ·) sG ho
  unfold gatherLoss
  rw [eG, R.ok_bind, eD, R.ok_bind, reduceSum_vec (D.map (· ^ 2)) (c := c) (by simpa [Tensor.map] using sD), sD]
  simp only [List.prod_cons, List.prod_nil, mul_one, Tensor.map]
  refine congrArg Except.ok (congrArg (· / (c : ℝ)) (Finset.sum_congr rfl fun o ho' => ?_))
  have ho' := Finset.mem_range.1 ho'
  rw [vD [o] ⟨ho', trivial⟩, vG o ho']

/-- C61: the dense loss is the mean over the observed cells of the squared error, when the mask is the indicator of a set of cells. -/
theorem C61_masked_loss {t : TT ℝ} (h : t.WF) (hm : ¬ t.isMatrix) (mask A sparse : Tensor ℝ) (P : List ℕ → Prop) [DecidablePred P] :
    ∃ F, full t = Except.ok F ∧
      (mask.shape = F.shape → sparse.shape = F.shape → (∀ i, Valid F.shape i → mask.get i = if P i then 1 else 0) →
        (∀ i, Valid F.shape i → sparse.get i = A.get i * mask.get i) → (∃ i, Valid F.shape i ∧ P i) →
        maskedLoss t mask sparse = Except.ok
          ((∑ n ∈ (Finset.range F.shape.prod).filter (fun n => P (unravel F.shape n)), (F.get (unravel F.shape n) - A.get (unravel F.shape n)) ^ 2) /
            ((Finset.range F.shape.prod).filter (fun n => P (unravel F.shape n))).card)) := by
  obtain ⟨row, hr, hl⟩ := h.rawShape_tensor hm
  obtain ⟨F, eF, -, -⟩ := full_tensor h hr
  refine ⟨F, eF, fun sm ss hmask hsp _ => ?_⟩
  obtain ⟨M, eM, sM, vM⟩ := binop_same (· * ·) sm (rfl : F.shape = F.shape)
  obtain ⟨D, eD, sD, vD⟩ := binop_same (· - ·) sM ss
  unfold maskedLoss
  rw [eF, R.ok_bind, eM, R.ok_bind, eD, R.ok_bind]
  refine congrArg Except.ok ?_
  unfold reduceSum
  simp only [Tensor.map, sD, sm]
  have h1 : ∑ n ∈ Finset.range F.shape.prod, mask.get (unravel F.shape n) =
      (((Finset.range F.shape.prod).filter (fun n => P (unravel F.shape n))).card : ℝ) := by
    rw [Finset.card_filter]
    push_cast
    exact Finset.sum_congr rfl fun n hn => hmask _ (unravel_valid (Finset.mem_range.1 hn))
  have h2 : ∑ n ∈ Finset.range F.shape.prod, D.get (unravel F.shape n) ^ 2 =
      ∑ n ∈ (Finset.range F.shape.prod).filter (fun n => P (unravel F.shape n)), (F.get (unravel F.shape n) - A.get (unravel F.shape n)) ^ 2 := by
    rw [Finset.sum_filter]
    refine Finset.sum_congr rfl fun n hn => ?_
    have hv := unravel_valid (Finset.mem_range.1 hn)
    rw [vD _ hv, vM _ hv, hsp _ hv, hmask _ hv]
    split_ifs <;> ring
  rw [h1, h2]
  ring

/-- C61: when the observed cells are pairwise different, the two losses agree. -/
theorem C61_losses_agree {t : TT ℝ} (h : t.WF) (hm : ¬ t.isMatrix) (idx : Tensor ℕ) (c : ℕ) (hc : 0 < c) (obs mask A sparse : Tensor ℝ) :
    ∃ F, full t = Except.ok F ∧
      (idx.shape = [c, F.shape.length] → obs.shape = [c] → (∀ o < c, Valid F.shape (idxRow idx F.shape.length o)) →
        (∀ o < c, ∀ o' < c, idxRow idx F.shape.length o = idxRow idx F.shape.length o' → o = o') →
        (∀ o < c, obs.get [o] = A.get (idxRow idx F.shape.length o)) →
        mask.shape = F.shape → sparse.shape = F.shape →
        (∀ i, Valid F.shape i → mask.get i = if ∃ o < c, idxRow idx F.shape.length o = i then 1 else 0) →
        (∀ i, Valid F.shape i → sparse.get i = A.get i * mask.get i) →
        ∃ l, gatherLoss t idx obs = Except.ok l ∧ maskedLoss t mask sparse = Except.ok l) := by
  obtain ⟨row, hr, hl⟩ := h.rawShape_tensor hm
  obtain ⟨F, eF, -, -⟩ := full_tensor h hr
  refine ⟨F, eF, fun hs so hv hinj hobs sm ss hmask hsp => ?_⟩
  obtain ⟨F1, e1, h1⟩ := C61_gather_loss h hm idx c hc obs so
  obtain rfl : F1 = F := Except.ok.inj (e1.symm.trans eF)
  obtain ⟨F2, e2, h2⟩ := C61_masked_loss h hm mask A sparse (fun i => ∃ o < c, idxRow idx F1.shape.length o = i)
  obtain rfl : F2 = F1 := Except.ok.inj (e2.symm.trans eF)
  refine ⟨_, h1 hs hv, ?_⟩
  rw [h2 sm ss hmask hsp ⟨_, hv 0 hc, 0, hc, rfl⟩]
  have himg : (Finset.range F2.shape.prod).filter (fun n => ∃ o < c, idxRow idx F2.shape.length o = unravel F2.shape n) =
      (Finset.range c).image fun o => ravel F2.shape (idxRow idx F2.shape.length o) := by
    ext n
    simp only [Finset.mem_filter, Finset.mem_range, Finset.mem_image]
    constructor
    · rintro ⟨hn, o, ho, e⟩
      exact ⟨o, ho, by rw [e, ravel_unravel hn]⟩
    · rintro ⟨o, ho, rfl⟩
      exact ⟨ravel_lt (hv o ho), o, ho, (unravel_ravel (hv o ho)).symm⟩
  have hinj' : Set.InjOn (fun o => ravel F2.shape (idxRow idx F2.shape.length o)) (Finset.range c : Set ℕ) := fun o ho o' ho' e =>
    hinj o (by simpa using ho) o' (by simpa using ho') (ravel_inj (hv o (by simpa using ho)) (hv o' (by simpa using ho')) e)
  rw [himg, Finset.card_image_of_injOn hinj', Finset.card_range, Finset.sum_image hinj']
  refine congrArg Except.ok (congrArg (· / (c : ℝ)) (Finset.sum_congr rfl fun o ho => ?_))
  have ho' := Finset.mem_range.1 ho
  rw [unravel_ravel (hv o ho'), hobs o ho']

/-- Three different cells of a `2 × 3` tensor. -/
def exCells : Tensor ℕ := .ofList [3, 2] [0, 1, 1, 2, 0, 0]

/-- The same with the first cell observed twice. -/
def exCellsTwice : Tensor ℕ := .ofList [3, 2] [0, 1, 1, 2, 0, 1]

example : exReal.WF ∧ ¬ exReal.isMatrix ∧ (∃ F, full exReal = Except.ok F ∧ F.shape = [2, 3]) ∧ exCells.shape = [3, 2] ∧
    (∀ o < 3, Valid [2, 3] (idxRow exCells 2 o)) ∧ ∀ o < 3, ∀ o' < 3, idxRow exCells 2 o = idxRow exCells 2 o' → o = o' := by
  refine ⟨exReal_wf, by simp [exReal, TT.isMatrix], ?_, rfl, by decide, by decide⟩
  obtain ⟨F, eF, sF, -⟩ := full_tensor exReal_wf (I := [2, 3]) rfl
  exact ⟨F, eF, sF⟩

/-- C61: the test loss is the mean squared error over all cells. -/
theorem C61_test_loss {t : TT ℝ} (h : t.WF) (hm : ¬ t.isMatrix) (A : Tensor ℝ) :
    ∃ F, full t = Except.ok F ∧ (A.shape = F.shape → ∃ l, completionTestLoss t A F.shape = Except.ok l ∧
      l = (∑ n ∈ Finset.range F.shape.prod, (F.get (unravel F.shape n) - A.get (unravel F.shape n)) ^ 2) / F.shape.prod ∧
      (0 < F.shape.prod → (l = 0 ↔ ∀ i, Valid F.shape i → F.get i = A.get i))) := by
  obtain ⟨row, hr, hl⟩ := h.rawShape_tensor hm
  obtain ⟨F, eF, -, -⟩ := full_tensor h hr
  refine ⟨F, eF, fun sA => ?_⟩
  obtain ⟨D, eD, sD, vD⟩ := binop_same (· - ·) (rfl : F.shape = F.shape) sA
  unfold completionTestLoss
  rw [eF, R.ok_bind, eD, R.ok_bind]
  have hl : 1 / (F.shape.prod : ℝ) * reduceSum (D.map (· ^ 2)) =
      (∑ n ∈ Finset.range F.shape.prod, (F.get (unravel F.shape n) - A.get (unravel F.shape n)) ^ 2) / F.shape.prod := by
    unfold reduceSum
    simp only [Tensor.map, sD]
    rw [one_div, div_eq_inv_mul]
    refine congrArg _ (Finset.sum_congr rfl fun n hn => ?_)
    rw [vD _ (unravel_valid (Finset.mem_range.1 hn))]
  refine ⟨_, rfl, hl, fun hp => ?_⟩
  have hp' : (F.shape.prod : ℝ) ≠ 0 := by exact_mod_cast hp.ne'
  rw [hl, div_eq_zero_iff, or_iff_left hp', Finset.sum_eq_zero_iff_of_nonneg fun _ _ => sq_nonneg _]
  constructor
  · intro hz i hi
    have := hz _ (Finset.mem_range.2 (ravel_lt hi))
    rw [unravel_ravel hi] at this
    exact sub_eq_zero.1 (pow_eq_zero_iff (two_ne_zero) |>.1 this)
  · intro hz n hn
    rw [hz _ (unravel_valid (Finset.mem_range.1 hn)), sub_self]
    norm_num

/-- C61: if the same cell is observed twice with different values, no estimate whatsoever brings the loss to zero. -/
theorem C61_contradiction {t : TT ℝ} (h : t.WF) (hm : ¬ t.isMatrix) (idx : Tensor ℕ) (c : ℕ) (hc : 0 < c) (obs : Tensor ℝ) (ho : obs.shape = [c]) :
    ∃ F, full t = Except.ok F ∧
      (idx.shape = [c, F.shape.length] → (∀ o < c, Valid F.shape (idxRow idx F.shape.length o)) →
        ∀ o < c, ∀ o' < c, o ≠ o' → idxRow idx F.shape.length o = idxRow idx F.shape.length o' →
          ∃ l, gatherLoss t idx obs = Except.ok l ∧ (obs.get [o] - obs.get [o']) ^ 2 / (2 * c) ≤ l) := by
  obtain ⟨F, eF, hF⟩ := C61_gather_loss h hm idx c hc obs ho
  refine ⟨F, eF, fun hs hv o ho o' ho' hne he => ⟨_, hF hs hv, ?_⟩⟩
  have hc : (0 : ℝ) < c := by exact_mod_cast hc
  have hsub : ({o, o'} : Finset ℕ) ⊆ Finset.range c := by
    intro x hx
    simp only [Finset.mem_insert, Finset.mem_singleton] at hx
    rcases hx with rfl | rfl <;> simpa
  have hle := Finset.sum_le_sum_of_subset_of_nonneg hsub (f := fun o => (F.get (idxRow idx F.shape.length o) - obs.get [o]) ^ 2)
    fun i _ _ => sq_nonneg _
  rw [Finset.sum_pair hne, he] at hle
  rw [div_le_div_iff₀ (by positivity) hc]
  nlinarith [sq_nonneg (2 * F.get (idxRow idx F.shape.length o') - obs.get [o] - obs.get [o'])]

example : exCellsTwice.shape = [3, 2] ∧ (∀ o < 3, Valid [2, 3] (idxRow exCellsTwice 2 o)) ∧ idxRow exCellsTwice 2 0 = idxRow exCellsTwice 2 2 :=
  ⟨rfl, by decide, by decide⟩

/-- C61: among all ways to draw `m` cells out of `N`, the fraction without a repetition is at most `exp (-m (m - 1) / (2 N))`. -/
theorem C61_birthday (m N : ℕ) (hN : 0 < N) :
    (Fintype.card {f : Fin m → Fin N // Function.Injective f} : ℝ) / Fintype.card (Fin m → Fin N) ≤ Real.exp (-(m * (m - 1) / (2 * N))) := by
  have h1 : Fintype.card {f : Fin m → Fin N // Function.Injective f} = N.descFactorial m := by
    rw [Fintype.card_congr (Equiv.subtypeInjectiveEquivEmbedding (Fin m) (Fin N)), Fintype.card_embedding_eq, Fintype.card_fin, Fintype.card_fin]
  have h2 : Fintype.card (Fin m → Fin N) = N ^ m := by simp
  rw [h1, h2]
  have hN' : (0 : ℝ) < N := by exact_mod_cast hN
  push_cast
  rw [div_le_iff₀ (by positivity)]
  clear h1 h2
  induction m with
  | zero => simp
  | succ m ih =>
    rw [Nat.descFactorial_succ]
    push_cast
    have hstep : ((N - m : ℕ) : ℝ) ≤ Real.exp (-(m / N)) * N := by
      have := Real.add_one_le_exp (-((m : ℝ) / N))
      have h3 : (-((m : ℝ) / N) + 1) * N ≤ Real.exp (-(m / N)) * N := mul_le_mul_of_nonneg_right this hN'.le
      have h4 : (-((m : ℝ) / N) + 1) * N = N - m := by field_simp; ring
      rw [h4] at h3
      rcases le_total m N with hmn | hmn
      · rwa [Nat.cast_sub hmn]
      · rw [Nat.sub_eq_zero_of_le hmn]; push_cast; positivity
    calc ((N - m : ℕ) : ℝ) * (N.descFactorial m : ℝ)
        ≤ (Real.exp (-(m / N)) * N) * (Real.exp (-(m * (m - 1) / (2 * N))) * N ^ m) :=
          mul_le_mul hstep ih (by positivity) (by positivity)
      _ = Real.exp (-(((m : ℝ) + 1) * (m + 1 - 1) / (2 * N))) * N ^ (m + 1) := by
          have : Real.exp (-(((m : ℝ) + 1) * (m + 1 - 1) / (2 * N))) = Real.exp (-(m / N)) * Real.exp (-(m * (m - 1) / (2 * N))) := by
            rw [← Real.exp_add]
            congr 1
            field_simp
            ring
          rw [this, pow_succ]
          ring

/-- C61: the tutorial draws 10000 of 10000000 cells with repetition and says that the probability of duplicates is `10^(-14)`: it is above 99%. -/
theorem C61_duplicates : (99 / 100 : ℝ) ≤ 1 - (Fintype.card {f : Fin 10000 → Fin (10 ^ 7) // Function.Injective f} : ℝ) / Fintype.card (Fin 10000 → Fin (10 ^ 7)) := by
  have h := C61_birthday 10000 (10 ^ 7) (by norm_num)
  have h2 : Real.exp (-((10000 : ℕ) * ((10000 : ℕ) - 1) / (2 * ((10 ^ 7 : ℕ) : ℝ)))) ≤ 1 / 100 := by
    rw [Real.exp_neg, inv_eq_one_div]
    refine one_div_le_one_div_of_le (by norm_num) ?_
    have h3 : (2.7 : ℝ) < Real.exp 1 := lt_trans (by norm_num) Real.exp_one_gt_d9
    have h4 : Real.exp (49 / 10) ≤ Real.exp (((10000 : ℕ) : ℝ) * ((10000 : ℕ) - 1) / (2 * ((10 ^ 7 : ℕ) : ℝ))) := Real.exp_le_exp.2 (by norm_num)
    refine le_trans ?_ h4
    have h5 : Real.exp (49 / 10) ^ 10 = Real.exp 1 ^ 49 := by
      rw [← Real.exp_nat_mul, ← Real.exp_nat_mul]
      norm_num
    have h6 : (100 : ℝ) ^ 10 ≤ Real.exp (49 / 10) ^ 10 := by
      rw [h5]
      exact le_trans (by norm_num) (pow_le_pow_left₀ (by norm_num) h3.le 49)
    exact le_of_pow_le_pow_left₀ (by norm_num) (Real.exp_pos _).le h6
  linarith

end T3f
