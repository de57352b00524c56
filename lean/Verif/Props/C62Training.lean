import Verif.Props.C61Completion
import Verif.Proofs.CoreLinear
import Mathlib.Analysis.Calculus.Deriv.Pow
import Mathlib.Analysis.Calculus.Deriv.Mul
import Mathlib.Analysis.Calculus.Deriv.Add
import Mathlib.Analysis.Calculus.Deriv.Inv

/-!
# C62: training the cores of a TT-tensor with a mean squared error
-/

namespace T3f

variable {t : TT ℝ} {k : ℕ}

/-- C62: `full` is linear in every core, for tensors, matrices and batches. -/
theorem C62_linear (h : t.WF) (hk : k < t.ndims) {D : Tensor ℝ} (hD : D.shape = (t.core k).shape) (s : ℝ) :
    ∃ F E X, full t = Except.ok F ∧ full (t.withCore k D) = Except.ok E ∧ full (t.withCore k ((t.core k).addScaled s D)) = Except.ok X ∧
      E.shape = F.shape ∧ X.shape = F.shape ∧ ∀ i, Valid F.shape i → X.get i = F.get i + s * E.get i := by
  obtain ⟨F, eF, sF, vF⟩ := full_dense h
  obtain ⟨E, eE, sE, vE⟩ := full_dense (withCore_wf h hk hD)
  obtain ⟨X, eX, sX, vX⟩ := full_dense (withCore_wf h hk (C := (t.core k).addScaled s D) rfl)
  have hE : E.shape = F.shape := sE.trans sF.symm
  have hX : X.shape = F.shape := sX.trans sF.symm
  refine ⟨F, E, X, eF, eE, eX, hE, hX, fun i hi => ?_⟩
  rw [vF i hi, vE i (hE ▸ hi), vX i (hX ▸ hi)]
  exact entry_addScaled hk h.rank_last D s _ _

theorem TT.Single.denseShape (h : t.Single) {I : List ℕ} (hr : t.rawShape = [I]) : t.denseShape = I := by
  simp [TT.denseShape, TT.bpre, h.batch, hr, TT.isMatrix]

theorem TT.Single.withCore (h : t.Single) (hk : k < t.ndims) {C : Tensor ℝ} (hC : C.shape = (t.core k).shape) : (t.withCore k C).Single :=
  ⟨withCore_wf h.wf hk hC, h.batch, h.tensor⟩

/-- The value of a mean squared error. -/
theorem IsMSE.eq (h : t.Single) {loss : TT ℝ → R ℝ} {S : Finset ℕ} {cell : ℕ → List ℕ} {y : ℕ → ℝ} (hl : IsMSE t loss S cell y) {u : TT ℝ} (hu : u.Single)
    (hs : u.rawShape = t.rawShape) : loss u = Except.ok ((∑ o ∈ S, (u.entry [] (tIdx (cell o)) - y o) ^ 2) / S.card) := by
  obtain ⟨I, hI, -⟩ := hu.wf.rawShape_tensor hu.tensor
  obtain ⟨F, eF, -, vF⟩ := full_tensor hu.wf hI
  rw [hl.value u F hu.wf (hu.batch.trans h.batch.symm) hs eF]
  refine congrArg Except.ok (congrArg (· / (S.card : ℝ)) (Finset.sum_congr rfl fun o ho => ?_))
  have hv := hl.valid o ho
  rw [h.denseShape (hs.symm.trans hI)] at hv
  rw [← vF [] _ (by simp [TT.bpre, hu.batch]) hv, List.nil_append]

section
variable {loss : TT ℝ → R ℝ} {S : Finset ℕ} {cell : ℕ → List ℕ} {y : ℕ → ℝ}

theorem mse_inner (h : t.Single) (hk : k < t.ndims) (hl : IsMSE t loss S cell y) (D : Tensor ℝ) : (mseGradient t S cell y k).inner D =
    2 / S.card * ∑ o ∈ S, (t.entry [] (tIdx (cell o)) - y o) * (t.withCore k D).entry [] (tIdx (cell o)) := by
  obtain ⟨I, hI, hlen⟩ := h.wf.rawShape_tensor h.tensor
  have hv : ∀ o ∈ S, Valid (t.modes k) (tIdx (cell o) k) := fun o ho => by
    have := hl.valid o ho
    rw [h.denseShape hI, valid_iff_getD] at this
    simp only [TT.modes, hI, List.map_cons, List.map_nil, tIdx]
    exact ⟨this.2 k (by omega), trivial⟩
  unfold Tensor.inner mseGradient
  dsimp only
  rw [Finset.sum_congr rfl fun n _ => by rw [mul_assoc, Finset.sum_mul], ← Finset.mul_sum, Finset.sum_comm]
  refine congrArg _ (Finset.sum_congr rfl fun o ho => ?_)
  rw [entry_unit h.wf hk D (by simp [TT.bpre, h.batch]) (hv o ho), Finset.mul_sum]
  refine Finset.sum_congr rfl fun n _ => ?_
  ring

/-- The mean squared error as a function of one core. -/
theorem mse_line (h : t.Single) (hk : k < t.ndims) (hl : IsMSE t loss S cell y) (D : Tensor ℝ) (s : ℝ) :
    loss (t.withCore k ((t.core k).addScaled s D)) = Except.ok
      ((∑ o ∈ S, (t.entry [] (tIdx (cell o)) - y o) ^ 2) / S.card + s * (mseGradient t S cell y k).inner D +
        s ^ 2 * ((∑ o ∈ S, (t.withCore k D).entry [] (tIdx (cell o)) ^ 2) / S.card)) := by
  rw [hl.eq h (u := t.withCore k ((t.core k).addScaled s D)) (h.withCore hk rfl) rfl]
  refine congrArg Except.ok ?_
  rw [mse_inner h hk hl, Finset.sum_congr rfl fun o _ => by rw [entry_addScaled hk h.wf.rank_last]]
  have : ∑ o ∈ S, (t.entry [] (tIdx (cell o)) + s * (t.withCore k D).entry [] (tIdx (cell o)) - y o) ^ 2 =
      ∑ o ∈ S, (t.entry [] (tIdx (cell o)) - y o) ^ 2 +
        2 * s * ∑ o ∈ S, (t.entry [] (tIdx (cell o)) - y o) * (t.withCore k D).entry [] (tIdx (cell o)) +
        s ^ 2 * ∑ o ∈ S, (t.withCore k D).entry [] (tIdx (cell o)) ^ 2 := by
    rw [Finset.mul_sum, Finset.mul_sum, ← Finset.sum_add_distrib, ← Finset.sum_add_distrib]
    refine Finset.sum_congr rfl fun o _ => ?_
    ring
  rw [this]
  ring

/-- C62: the gradient of a mean squared error with respect to core `k`. -/
theorem C62_gradient (h : t.Single) (hk : k < t.ndims) (hl : IsMSE t loss S cell y) : IsCoreGradient loss t k (mseGradient t S cell y k) := by
  refine ⟨rfl, fun D _ => ⟨_, mse_line h hk hl D, ?_⟩⟩
  have h1 := ((hasDerivAt_id (0 : ℝ)).mul_const ((mseGradient t S cell y k).inner D)).const_add
    ((∑ o ∈ S, (t.entry [] (tIdx (cell o)) - y o) ^ 2) / S.card)
  have h2 := (hasDerivAt_pow 2 (0 : ℝ)).mul_const ((∑ o ∈ S, (t.withCore k D).entry [] (tIdx (cell o)) ^ 2) / (S.card : ℝ))
  exact (h1.fun_add h2).congr_deriv (by simp)

theorem inner_unitAt (g : Tensor ℝ) {j : List ℕ} (hj : Valid g.shape j) : g.inner (unitAt g.shape j) = g.get j := by
  unfold Tensor.inner
  rw [Finset.sum_eq_single_of_mem (ravel g.shape j) (Finset.mem_range.2 (ravel_lt hj))]
  · simp [unravel_ravel hj, unitAt]
  · intro n hn hne
    have : unravel g.shape n ≠ j := fun e => hne (by rw [← e, ravel_unravel (Finset.mem_range.1 hn)])
    simp [unitAt, this]

/-- C62: there is only one gradient. -/
theorem C62_unique {loss : TT ℝ → R ℝ} {g g' : Tensor ℝ} (hg : IsCoreGradient loss t k g) (hg' : IsCoreGradient loss t k g') : g ≃ₜ g' := by
  refine ⟨hg.1.trans hg'.1.symm, fun j hj => ?_⟩
  obtain ⟨ψ, e, d⟩ := hg.2 (unitAt g.shape j) hg.1
  obtain ⟨ψ', e', d'⟩ := hg'.2 (unitAt g.shape j) hg.1
  have : ψ = ψ' := funext fun s => Except.ok.inj ((e s).symm.trans (e' s))
  subst this
  have := d.unique d'
  rw [inner_unitAt g hj] at this
  have hs : g.shape = g'.shape := hg.1.trans hg'.1.symm
  rw [hs] at hj this
  rwa [inner_unitAt g' hj] at this

/-- C62: if no observed cell has index `i` in mode `k`, the gradient vanishes on the slice `i` of core `k`: a gradient step does not change it. -/
theorem C62_unobserved (h : t.Single) (hk : k < t.ndims) (hl : IsMSE t loss S cell y) {g : Tensor ℝ} (hg : IsCoreGradient loss t k g) {a i b : ℕ}
    (hv : Valid (t.core k).shape [a, i, b]) (hi : ∀ o ∈ S, (cell o).getD k 0 ≠ i) : g.get [a, i, b] = 0 := by
  rw [(C62_unique hg (C62_gradient h hk hl)).2 _ (hg.1 ▸ hv)]
  unfold mseGradient
  dsimp only
  rw [Finset.sum_eq_zero, mul_zero]
  intro o ho
  have : (t.withCore k (unitAt (t.core k).shape [a, i, b])).entry [] (tIdx (cell o)) = 0 := by
    rw [entry_linear (t := t) (∅ : Finset ℕ) (fun _ => 0) hk h.wf.rank_last _ (fun _ => default) [] (tIdx (cell o)), Finset.sum_empty]
    intro a' b' _ _
    have := hi o ho
    simp only [unitAt, tIdx, List.nil_append, List.cons_append, Finset.sum_empty, ite_eq_right_iff, List.cons.injEq]
    rintro ⟨-, e, -⟩
    exact absurd e this
  rw [this, mul_zero]

/-- C62: the gradient with respect to core `k` is zero iff no other choice of core `k` has a smaller loss. -/
theorem C62_stationary (h : t.Single) (hk : k < t.ndims) (hl : IsMSE t loss S cell y) {g : Tensor ℝ} (hg : IsCoreGradient loss t k g) :
    (∀ j, Valid g.shape j → g.get j = 0) ↔
      ∀ C : Tensor ℝ, C.shape = (t.core k).shape → ∃ l l', loss t = Except.ok l ∧ loss (t.withCore k C) = Except.ok l' ∧ l ≤ l' := by
  have hlt : loss t = _ := hl.eq h h rfl
  constructor
  · intro hz C hC
    have hz' : ∀ D, (mseGradient t S cell y k).inner D = 0 := fun D => Finset.sum_eq_zero fun n hn => by
      have hu := C62_unique hg (C62_gradient h hk hl)
      have hv := unravel_valid (Finset.mem_range.1 hn)
      rw [← hu.2 _ (by rw [hu.1]; exact hv), hz _ (by rw [hu.1]; exact hv), zero_mul]
    have hCeq : ∀ p m, (t.withCore k C).entry p m =
        (t.withCore k ((t.core k).addScaled 1 (C.addScaled (-1) (t.core k)))).entry p m := fun p m => by
      rw [entry_linear (t := t) (Finset.univ : Finset Unit) (fun _ => 1) hk h.wf.rank_last C
        (fun _ => (t.core k).addScaled 1 (C.addScaled (-1) (t.core k))) p m (fun a b _ _ => by simp [Tensor.addScaled])]
      simp
    have h1 := hl.eq h (h.withCore hk hC) (rfl : (t.withCore k C).rawShape = t.rawShape)
    have h2 := mse_line h hk hl (C.addScaled (-1) (t.core k)) 1
    rw [hl.eq h (h.withCore hk (C := (t.core k).addScaled 1 (C.addScaled (-1) (t.core k))) rfl) rfl] at h2
    rw [Finset.sum_congr rfl fun o _ => by rw [hCeq], h2, hz'] at h1
    refine ⟨_, _, hlt, h1, ?_⟩
    have : 0 ≤ (∑ o ∈ S, (t.withCore k (C.addScaled (-1) (t.core k))).entry [] (tIdx (cell o)) ^ 2) / (S.card : ℝ) :=
      div_nonneg (Finset.sum_nonneg fun _ _ => sq_nonneg _) (Nat.cast_nonneg _)
    linarith
  · intro hmin j hj
    have hloc : ∀ D : Tensor ℝ, D.shape = (t.core k).shape → (mseGradient t S cell y k).inner D = 0 := fun D hD => by
      have hq : ∀ s : ℝ, 0 ≤ s * (mseGradient t S cell y k).inner D + s ^ 2 * ((∑ o ∈ S, (t.withCore k D).entry [] (tIdx (cell o)) ^ 2) / S.card) := fun s => by
        obtain ⟨l, l', e, e', hle⟩ := hmin ((t.core k).addScaled s D) rfl
        rw [hlt] at e
        rw [mse_line h hk hl D s] at e'
        rw [← Except.ok.inj e, ← Except.ok.inj e'] at hle
        linarith
      obtain ⟨q, hqe⟩ : ∃ q, (∑ o ∈ S, (t.withCore k D).entry [] (tIdx (cell o)) ^ 2) / (S.card : ℝ) = q := ⟨_, rfl⟩
      have hq0 : 0 ≤ q := hqe ▸ div_nonneg (Finset.sum_nonneg fun _ _ => sq_nonneg _) (Nat.cast_nonneg _)
      rw [hqe] at hq
      obtain ⟨b, hb⟩ : ∃ b, (mseGradient t S cell y k).inner D = b := ⟨_, rfl⟩
      rw [hb] at hq ⊢
      have h1 := hq (-b / (q + 1))
      have hpos : 0 < q + 1 := by linarith
      have h2 : -b / (q + 1) * b + (-b / (q + 1)) ^ 2 * q = -(b ^ 2 / (q + 1) ^ 2) := by field_simp; ring
      rw [h2] at h1
      have h3 : b ^ 2 / (q + 1) ^ 2 = 0 := le_antisymm (by linarith) (by positivity)
      rw [div_eq_zero_iff, or_iff_left (by positivity)] at h3
      exact pow_eq_zero_iff two_ne_zero |>.1 h3
    have hu := C62_unique hg (C62_gradient h hk hl)
    rw [hu.2 j hj, ← inner_unitAt _ (hu.1 ▸ hj)]
    exact hloc _ rfl

/-- C62: the inner product of the gradient and the core is the same number for all cores. -/
theorem C62_scale (h : t.Single) (hl : IsMSE t loss S cell y) {g : ℕ → Tensor ℝ} (hg : ∀ k < t.ndims, IsCoreGradient loss t k (g k)) (hk : k < t.ndims) :
    (g k).inner (t.core k) = 2 / S.card * ∑ o ∈ S, (t.entry [] (tIdx (cell o)) - y o) * t.entry [] (tIdx (cell o)) := by
  have hu := C62_unique (hg k hk) (C62_gradient h hk hl)
  have : (g k).inner (t.core k) = (mseGradient t S cell y k).inner (t.core k) := by
    unfold Tensor.inner
    rw [hu.1]
    refine Finset.sum_congr rfl fun n hn => ?_
    rw [hu.2 _ (by rw [hu.1]; exact unravel_valid (Finset.mem_range.1 hn))]
  rw [this, mse_inner h hk hl, withCore_self hk]

/-- A mean squared error for `t` is one for every tensor of the shape of `t`. -/
theorem IsMSE.of_shape (hl : IsMSE t loss S cell y) {u : TT ℝ} (hb : u.batch = t.batch) (hr : u.rawShape = t.rawShape) : IsMSE u loss S cell y where
  nonempty := hl.nonempty
  valid o ho := by
    have : u.denseShape = t.denseShape := by simp only [TT.denseShape, TT.bpre, TT.isMatrix, hr, hb]; congr
    rw [this]
    exact hl.valid o ho
  value v F hv hb' hr' := hl.value v F hv (hb'.trans hb) (hr'.trans hr)

/-- C62: training with any optimizer that treats the elements separately and does not move an element whose gradients have all been zero (gradient descent,
momentum, Adam), for any number of steps, leaves the slices of the cores that are not observed at their initial values. -/
theorem C62_training {u : ℕ → TT ℝ} (h : ∀ n, (u n).Single) (hr : ∀ n, (u n).rawShape = (u 0).rawShape) (hk : k < (u 0).ndims)
    (hc : ∀ n, ((u n).core k).shape = ((u 0).core k).shape) (hl : IsMSE (u 0) loss S cell y) {upd : List ℝ → ℝ}
    (hupd : ∀ n, upd (List.replicate n 0) = 0) {g : ℕ → Tensor ℝ} (hg : ∀ n, IsCoreGradient loss (u n) k (g n))
    (hstep : ∀ n j, Valid ((u 0).core k).shape j →
      ((u (n + 1)).core k).get j = ((u n).core k).get j + upd ((List.range (n + 1)).map fun i => (g i).get j))
    {a i b : ℕ} (hv : Valid ((u 0).core k).shape [a, i, b]) (hi : ∀ o ∈ S, (cell o).getD k 0 ≠ i) (n : ℕ) :
    ((u n).core k).get [a, i, b] = ((u 0).core k).get [a, i, b] := by
  have hz : ∀ n, (g n).get [a, i, b] = 0 := fun n =>
    C62_unobserved (h n) (by rw [ndims_eq_of_rawShape (h n).wf (h 0).wf (hr n)]; exact hk) (hl.of_shape ((h n).batch.trans (h 0).batch.symm) (hr n)) (hg n)
      (by rw [hc n]; exact hv) hi
  induction n with
  | zero => rfl
  | succ n ih =>
    rw [hstep n _ hv, ih]
    have : (List.range (n + 1)).map (fun j => (g j).get [a, i, b]) = List.replicate (n + 1) 0 := by
      rw [List.map_congr_left fun j _ => hz j, List.map_const', List.length_range]
    rw [this, hupd, add_zero]

end

/-! ## The losses of the tutorial -/

/-- C62: the loss through `gather_nd` is a mean squared error. -/
theorem C62_gather (h : t.Single) (idx : Tensor ℕ) {c : ℕ} (hc : 0 < c) (obs : Tensor ℝ) (ho : obs.shape = [c]) (hs : idx.shape = [c, t.denseShape.length])
    (hv : ∀ o < c, Valid t.denseShape (idxRow idx t.denseShape.length o)) :
    IsMSE t (gatherLoss · idx obs) (Finset.range c) (idxRow idx t.denseShape.length) (fun o => obs.get [o]) where
  nonempty := ⟨0, Finset.mem_range.2 hc⟩
  valid o ho := hv o (Finset.mem_range.1 ho)
  value u F hu hb hr eF := by
    have hm : ¬ u.isMatrix := by have := h.tensor; simpa only [TT.isMatrix, hr] using this
    have hd : t.denseShape = u.denseShape := by simp only [TT.denseShape, TT.bpre, TT.isMatrix, hr, hb]; congr
    obtain ⟨F', eF', hF⟩ := C61_gather_loss hu hm idx c hc obs ho
    obtain rfl : F' = F := Except.ok.inj (eF'.symm.trans eF)
    obtain ⟨F'', eF'', sF, -⟩ := full_dense hu
    obtain rfl : F'' = F' := Except.ok.inj (eF''.symm.trans eF)
    have sF' : F''.shape = u.denseShape := sF
    rw [hd] at hs hv ⊢
    rw [sF'] at hF
    rw [hF hs hv, Finset.card_range]

/-- C62: so is the masked loss. -/
theorem C62_masked (h : t.Single) (mask A sparse : Tensor ℝ) (P : List ℕ → Prop) [DecidablePred P] (sm : mask.shape = t.denseShape)
    (ss : sparse.shape = t.denseShape) (hmask : ∀ i, Valid t.denseShape i → mask.get i = if P i then 1 else 0)
    (hsp : ∀ i, Valid t.denseShape i → sparse.get i = A.get i * mask.get i) (hP : ∃ i, Valid t.denseShape i ∧ P i) :
    IsMSE t (maskedLoss · mask sparse) ((Finset.range t.denseShape.prod).filter fun n => P (unravel t.denseShape n)) (unravel t.denseShape)
      (fun n => A.get (unravel t.denseShape n)) where
  nonempty := by
    obtain ⟨i, hi, hPi⟩ := hP
    exact ⟨ravel t.denseShape i, Finset.mem_filter.2 ⟨Finset.mem_range.2 (ravel_lt hi), by rwa [unravel_ravel hi]⟩⟩
  valid o ho := unravel_valid (Finset.mem_range.1 (Finset.mem_filter.1 ho).1)
  value u F hu hb hr eF := by
    have hm : ¬ u.isMatrix := by have := h.tensor; simpa only [TT.isMatrix, hr] using this
    have hd : t.denseShape = u.denseShape := by simp only [TT.denseShape, TT.bpre, TT.isMatrix, hr, hb]; congr
    obtain ⟨F', eF', hF⟩ := C61_masked_loss hu hm mask A sparse P
    obtain rfl : F' = F := Except.ok.inj (eF'.symm.trans eF)
    obtain ⟨F'', eF'', sF, -⟩ := full_dense hu
    obtain rfl : F'' = F' := Except.ok.inj (eF''.symm.trans eF)
    have sF' : F''.shape = u.denseShape := sF
    rw [hd] at sm ss hmask hsp hP ⊢
    rw [sF'] at hF
    exact hF sm ss hmask hsp hP

example : exReal.Single ∧ (1 : ℕ) < exReal.ndims ∧
    IsMSE exReal (gatherLoss · exCells ⟨[3], fun i => i.headD 0⟩) (Finset.range 3) (idxRow exCells 2) (fun o => (o : ℝ)) := by
  have hs : exReal.Single := ⟨exReal_wf, rfl, by simp [exReal, TT.isMatrix]⟩
  refine ⟨hs, by decide, ?_⟩
  have := C62_gather hs exCells (c := 3) (by omega) ⟨[3], fun i => i.headD 0⟩ rfl rfl (by
    rw [hs.denseShape (I := [2, 3]) rfl]; decide)
  rwa [hs.denseShape (I := [2, 3]) rfl] at this

/-- Index 0 of the second mode is not observed. -/
example : Valid (exReal.core 1).shape [1, 0, 0] ∧ ∀ o ∈ Finset.range 3, (idxRow exCellsTwice 2 o).getD 1 0 ≠ 0 :=
  ⟨by simp [exReal, exTensor, TT.core, Tensor.map, Tensor.ofList], by decide⟩

end T3f
