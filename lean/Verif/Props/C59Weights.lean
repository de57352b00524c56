import Verif.Proofs.Weights
import Verif.Props.C49KerasDense
import Verif.Props.C58Ranks
import Verif.Proofs.Losses

/-!
# C59: weights of the Keras layer and compression of a dense layer

`/repo/docs/tutorials/tensor_nets.ipynb`: `to_tt_matrix` of the weights of a dense layer gives the weights of a `KerasDense` layer.
-/

namespace T3f

variable (act : String → Option (Tensor ℝ → Tensor ℝ))

theorem KerasDense.Ready.nodup {σ : Store ℝ} {layer : KerasDense} {as I J : List ℕ} (h : layer.Ready σ as I J) : layer.weights.Nodup ∧ ∀ a ∈ layer.weights, a < σ.length := by
  rw [KerasDense.weights_eq h.isVariable]
  have hb := h.bias
  split_ifs at hb with hu
  · obtain ⟨a, e, h1, h2, -⟩ := hb
    rw [e]
    refine ⟨List.nodup_append.2 ⟨h.isVariable.nodup, by simp, fun x hx y hy => ?_⟩, fun x hx => ?_⟩
    · rintro rfl
      simp at hy
      exact h1 (hy ▸ hx)
    · simp at hx
      rcases hx with hx | rfl
      · exact h.isVariable.inStore x hx
      · exact h2
  · rw [hb]
    simp
    exact ⟨h.isVariable.nodup, h.isVariable.inStore⟩

/-- **C59.** A new layer with at least two dimensions is ready to be used; its weights are new variables: the cores in order, then the bias. -/
theorem C59_new_layer (z : ℕ → List ℕ → ℝ) (σ : Store ℝ) (input output : List ℤ) (h2 : 2 ≤ input.length) (rank : RankArg) (hargs : MatrixArgs input output rank)
    (activation : Option String) (useBias : Bool) (kernel : String) (hk : KnownKernel kernel) (bias : ℝ) :
    ∃ σ' layer, kerasDense z σ input output rank activation useBias kernel bias = (σ', Except.ok layer) ∧
      layer.Ready σ' ((List.range input.length).map (σ.length + ·)) (input.map Int.toNat) (output.map Int.toNat) ∧
      layer.weights = (List.range (input.length + if useBias then 1 else 0)).map (σ.length + ·) ∧
      layer.matrix.ttRanks = usedRanks input.length rank ∧ layer.activation = activation ∧ layer.useBias = useBias := by
  obtain ⟨σ', layer, t, e, et, ht, wt, bt, rt, kt, hact, hu, hb, -, -, -⟩ := C49_init z σ input output h2 rank hargs activation useBias kernel hk bias
  have hn : t.ndims = input.length := by
    have := wt.rows_len (input.map Int.toNat) (by rw [rt]; simp)
    rw [List.length_map] at this; exact this.symm
  have htt : (⟨t.cores.map .tensor, t.rawShape, t.ttRanks, t.batch⟩ : VObj ℝ).tt σ = t := by
    simp [VObj.tt, VCore.value, List.map_map, Function.comp_def]
  obtain ⟨τ, v, ev, hv, hvar, -⟩ := C48_get_variable σ ⟨t.cores.map .tensor, t.rawShape, t.ttRanks, t.batch⟩ (by rw [htt]; exact wt)
  have hτ : τ.length = σ.length + input.length := by
    have : τ = σ ++ t.cores := by
      have : (getVariable σ (some ⟨t.cores.map .tensor, t.rawShape, t.ttRanks, t.batch⟩) none).1 = τ := congrArg Prod.fst ev
      rw [← this]
      simp [getVariable, VCore.value, List.map_map, Function.comp_def]
    rw [this, List.length_append, ← hn]; rfl
  simp only [List.length_map] at hvar
  rw [show t.cores.length = input.length from hn] at hvar
  have hbind : kerasDense z σ input output rank activation useBias kernel bias =
      ((biasInit τ useBias bias output.prod).1, Except.ok ⟨v, (biasInit τ useBias bias output.prod).2, activation, useBias, output.prod⟩) := by
    rw [kerasDense, et.init]
    simp only [ev]
  rw [e] at hbind
  obtain ⟨e1, e2⟩ := Prod.mk.inj hbind
  have e2 := Except.ok.inj e2
  have hlen : τ.length ≤ σ'.length := by rw [e1, biasInit]; split_ifs <;> simp
  have hm : layer.matrix = v := by rw [e2]
  have hlb : layer.b = (biasInit τ useBias bias output.prod).2 := by rw [e2]
  have hvar' : layer.matrix.IsVariable σ' ((List.range input.length).map (σ.length + ·)) := by
    rw [hm]
    exact ⟨hvar.cores, hvar.nodup, fun a ha => (hvar.inStore a ha).trans_le hlen⟩
  refine ⟨σ', layer, e, ⟨hvar', by rw [ht]; exact wt, by rw [← rt, ← ht]; rfl, by rw [← bt, ← ht]; rfl, ?_, ?_⟩, ?_, by rw [← kt, ← ht]; rfl, hact, hu⟩
  · intro n hn
    rw [← List.map_append] at hn
    obtain ⟨m, hm, rfl⟩ := List.mem_map.1 hn
    have : 1 ≤ m := (List.mem_append.1 hm).elim (hargs.2.1 m) (hargs.2.2.1 m)
    omega
  · rw [hu]
    split_ifs with h
    · obtain ⟨a, ea, -, sa, -⟩ := hb h
      refine ⟨a, ea, ?_, ?_, sa⟩
      · rw [hlb, biasInit, if_pos h] at ea
        simp at ea
        simp
        omega
      · rw [hlb, biasInit, if_pos h] at ea
        simp at ea
        rw [e1, biasInit, if_pos h]
        simp
        omega
    · rw [hlb, biasInit, if_neg h]
  · rw [KerasDense.weights_eq hvar', hlb, biasInit]
    split_ifs with h
    · rw [List.range_succ, List.map_append, hτ]; rfl
    · simp

/-- **C59.** `set_weights` with the cores of a TT-matrix of the same shape and a bias: if the TT-ranks are those of the layer, the layer multiplies with that TT-matrix and adds that bias
from now on, and nothing else changes. Otherwise ValueError is raised and nothing changes. -/
theorem C59_set_weights {σ : Store ℝ} {layer : KerasDense} {as I J : List ℕ} (h : layer.Ready σ as I J) {y : TT ℝ} (hy : y.WF) (hraw : y.rawShape = [I, J])
    (hyb : y.batch = none) {bias : List (Tensor ℝ)} (hbl : bias.length = if layer.useBias then 1 else 0) (hbs : ∀ c ∈ bias, c.shape = [J.prod]) :
    (y.ttRanks = layer.matrix.ttRanks → ∃ σ', setWeights σ layer.weights (y.cores ++ bias) = (σ', Except.ok ()) ∧ layer.Ready σ' as I J ∧
      layer.matrix.tt σ' = y ∧ (layer.useBias → ∀ c ∈ bias, σ'.getD (layer.b.getD 0) default = c) ∧ σ'.length = σ.length ∧ ∀ a ∉ layer.weights, σ'[a]? = σ[a]?) ∧
    (y.ttRanks ≠ layer.matrix.ttRanks → setWeights σ layer.weights (y.cores ++ bias) = (σ, Except.error Err.value)) := by
  obtain ⟨hnd, hin⟩ := h.nodup
  have hw := KerasDense.weights_eq h.isVariable
  have hal : as.length = I.length := by
    have := h.wf.rows_len I (by show I ∈ layer.matrix.rawShape; rw [h.raw]; simp)
    rw [this, ← h.isVariable.len, TT.ndims, VObj.tt, List.length_map]
  have hyn : y.ndims = I.length := (hy.rows_len I (by rw [hraw]; simp)).symm
  have hyl : y.cores.length = as.length := by rw [hal, ← hyn]; rfl
  have hzip : layer.weights.zip (y.cores ++ bias) = as.zip y.cores ++ layer.b.toList.zip bias := by rw [hw, List.zip_append hyl.symm]
  have hbt : layer.b.toList.length = bias.length := by
    rw [hbl]
    have hb := h.bias
    split_ifs at hb ⊢ with hu
    · obtain ⟨a, e, -⟩ := hb; rw [e]; rfl
    · rw [hb]; rfl
  have hlen : layer.weights.length = (y.cores ++ bias).length := by rw [hw, List.length_append, List.length_append, hyl, hbt]
  have hbshape : ∀ p ∈ layer.b.toList.zip bias, p.2.shape = (σ.getD p.1 default).shape := fun p hp => by
    have h1 := List.of_mem_zip (a := p.1) (b := p.2) hp
    have hb := h.bias
    split_ifs at hb with hu
    · obtain ⟨a, e, -, -, sa⟩ := hb
      rw [e] at h1
      have : p.1 = a := by simpa using h1.1
      rw [this, sa, hbs _ h1.2]
    · rw [hb] at h1
      simp at h1
  have hcore : ∀ k < I.length, (layer.matrix.tt σ).core k = σ.getD (as.getD k 0) default := fun k hk => h.isVariable.core σ (by omega)
  have hmn : (layer.matrix.tt σ).ndims = I.length := by rw [TT.ndims, VObj.tt, List.length_map, h.isVariable.len, hal]
  have hshape : (∀ p ∈ as.zip y.cores, p.2.shape = (σ.getD p.1 default).shape) ↔ ∀ k < I.length, (y.core k).shape = ((layer.matrix.tt σ).core k).shape := by
    constructor
    · intro hp k hk
      have := hp (as.getD k 0, y.core k) (by
        rw [TT.core, List.getD_eq_getElem _ _ (by omega), List.getD_eq_getElem _ _ (by omega)]
        have hz : k < (as.zip y.cores).length := by rw [List.length_zip]; omega
        rw [← List.getElem_zip (h := hz)]
        exact List.getElem_mem _)
      rw [hcore k hk]; exact this
    · intro hk p hp
      obtain ⟨k, hk', rfl⟩ := List.getElem_of_mem hp
      have hk'' := hk'
      rw [List.length_zip] at hk''
      have := hk k (by omega)
      rw [hcore k (by omega), TT.core, List.getD_eq_getElem _ _ (by omega), List.getD_eq_getElem as _ (by omega)] at this
      rw [List.getElem_zip]; exact this
  constructor
  · intro hrk
    have hs : ∀ k < I.length, (y.core k).shape = ((layer.matrix.tt σ).core k).shape := fun k hk => by
      rw [hy.core_shape k (by omega), h.wf.core_shape k (by omega)]
      have hm1 : y.modes k = (layer.matrix.tt σ).modes k := by rw [TT.modes, TT.modes, hraw]; show _ = layer.matrix.rawShape.map _; rw [h.raw]
      have hb1 : y.bpre = (layer.matrix.tt σ).bpre := by rw [TT.bpre, TT.bpre, hyb]; show _ = layer.matrix.batch.toList; rw [h.batch]
      rw [hm1, hb1, TT.rank, TT.rank, TT.rank, TT.rank, hrk]; rfl
    have hall : ∀ p ∈ layer.weights.zip (y.cores ++ bias), p.2.shape = (σ.getD p.1 default).shape := fun p hp => by
      rw [hzip, List.mem_append] at hp
      exact hp.elim (hshape.2 hs p) (hbshape p)
    have hfst : (layer.weights.zip (y.cores ++ bias)).map Prod.fst = layer.weights := List.map_fst_zip (by omega)
    obtain ⟨s1, s2, s3⟩ := setAll_spec (layer.weights.zip (y.cores ++ bias)) σ (by rw [hfst]; exact hnd) (fun p hp => hin _ (List.of_mem_zip (a := p.1) (b := p.2) hp).1)
    rw [hfst] at s3
    obtain ⟨σ', hσ'⟩ : ∃ σ', (layer.weights.zip (y.cores ++ bias)).foldl (fun σ p => σ.set p.1 p.2) σ = σ' := ⟨_, rfl⟩
    rw [hσ'] at s1 s2 s3
    have htt : layer.matrix.tt σ' = y := by
      have hc : (layer.matrix.tt σ').cores = y.cores := by
        apply List.ext_getElem
        · rw [VObj.tt, List.length_map, h.isVariable.len, hyl]
        · intro k h1 h2
          have := h.isVariable.core σ' (i := k) (by omega)
          rw [TT.core, List.getD_eq_getElem _ _ h1] at this
          rw [this]
          refine s2 (as.getD k 0, y.cores[k]) ?_
          rw [hzip, List.mem_append]
          left
          have hz : k < (as.zip y.cores).length := by rw [List.length_zip]; omega
          rw [List.getD_eq_getElem _ _ (by omega), ← List.getElem_zip (h := hz)]
          exact List.getElem_mem _
      have h1 : layer.matrix.rawShape = y.rawShape := by rw [h.raw, hraw]
      have h2 : layer.matrix.batch = y.batch := by rw [h.batch, hyb]
      cases y
      simp only [VObj.tt] at hc h1 h2 hrk ⊢
      rw [hc, h1, h2, hrk]
    have hbias : layer.useBias → ∀ c ∈ bias, σ'.getD (layer.b.getD 0) default = c := fun hu c hc => by
      have hb := h.bias
      rw [if_pos hu] at hb
      obtain ⟨a, e, -⟩ := hb
      rw [if_pos hu, List.length_eq_one_iff] at hbl
      obtain ⟨c', rfl⟩ := hbl
      obtain rfl : c = c' := by simpa using hc
      rw [e, Option.getD_some]
      refine s2 (a, c) ?_
      rw [hzip, e, List.mem_append]
      right
      simp
    refine ⟨σ', ?_, ⟨⟨h.isVariable.cores, h.isVariable.nodup, fun a ha => by rw [s1]; exact h.isVariable.inStore a ha⟩, by rw [htt]; exact hy, h.raw, h.batch, h.pos, ?_⟩,
      htt, hbias, s1, s3⟩
    · rw [setWeights, if_pos ⟨hlen, hall⟩, hσ']; rfl
    · have hb := h.bias
      split_ifs at hb ⊢ with hu
      · obtain ⟨a, e, h1, h2, h3⟩ := hb
        refine ⟨a, e, h1, by omega, ?_⟩
        rw [if_pos hu, List.length_eq_one_iff] at hbl
        obtain ⟨c, rfl⟩ := hbl
        have := hbias hu c (by simp)
        rw [e, Option.getD_some] at this
        rw [this]; exact hbs c (by simp)
      · exact hb
  · intro hrk
    rw [setWeights, if_neg]
    · rfl
    · rintro ⟨-, hall⟩
      have hs := hshape.1 fun p hp => hall p (by rw [hzip, List.mem_append]; exact Or.inl hp)
      refine hrk (attrs_of_shapes hy h.wf (by omega) ?_ ?_ fun k hk => hs k (by omega)).2.2
      · show _ = layer.matrix.batch.isSome
        rw [hyb, h.batch]
      · show y.rawShape.length = 2 ↔ layer.matrix.rawShape.length = 2
        rw [hraw, h.raw]

/-- What a dense layer with weights `W` and bias `c` computes (before the activation). -/
noncomputable def denseLayer (x W c : Tensor ℝ) (r n m : ℕ) : Tensor ℝ :=
  ⟨[r, m], fun i => ∑ k ∈ Finset.range n, x.get [i.getD 0 0, k] * W.get [k, i.getD 1 0] + c.get [i.getD 1 0]⟩

theorem sum_mul_sq (r n m : ℕ) (f : ℕ → ℕ → ℝ) (g : ℕ → ℕ → ℝ) :
    ∑ i ∈ Finset.range r, ∑ j ∈ Finset.range m, (∑ k ∈ Finset.range n, f i k * g k j) ^ 2 ≤
      (∑ i ∈ Finset.range r, ∑ k ∈ Finset.range n, f i k ^ 2) * ∑ k ∈ Finset.range n, ∑ j ∈ Finset.range m, g k j ^ 2 := by
  rw [Finset.sum_mul]
  refine Finset.sum_le_sum fun i _ => ?_
  rw [Finset.sum_comm, Finset.mul_sum]
  exact Finset.sum_le_sum fun j _ => Finset.sum_mul_sq_le_sq_mul_sq _ _ _

/-- **C59, compression of a dense layer.** `layer` has the TT-ranks that `to_tt_matrix(W, [I, J], max_tt_rank)` produces. After `set_weights` with the cores and the bias `c` of the dense
layer, the layer computes `x · Wt + c`, followed by the activation, where `Wt` is the matrix that `to_tt_matrix` represents. The squared distance to what the dense layer computes (before the
activation) is at most `‖x‖² (d - 1) ‖W - F‖²`, for any TT-matrix `F` within the rank bounds, and zero if `W` is such a matrix. -/
theorem C59_compress {svd : SVDRoutine} (hsvd : svd.Correct) {σ : Store ℝ} {layer : KerasDense} {as I J : List ℕ} (h : layer.Ready σ as I J) (hu : layer.useBias = true)
    (hd : 2 ≤ I.length) {m : MaxRank} {bd : ℕ → ℕ} (hb : m.Bounds I.length bd) {eps : Option ℝ} (he : ∀ e ∈ eps, 0 ≤ e)
    (hrk : DecompRanks (List.zipWith (· * ·) I J) bd (layer.matrix.tt σ).rank) {W c x : Tensor ℝ} (hW : W.shape = [I.prod, J.prod]) (hc : c.shape = [J.prod])
    {r : ℕ} (hx : x.shape = [r, I.prod]) :
    ∃ w Wt Y σ', toTTMatrix svd W (some I) (some J) m eps = Except.ok w ∧ full w = Except.ok Wt ∧
      setWeights σ layer.weights (w.cores ++ [c]) = (σ', Except.ok ()) ∧ layer.Ready σ' as I J ∧
      (layer.activation = none → layer.call act σ' x = Except.ok Y) ∧
      (∀ name f, layer.activation = some name → act name = some f → layer.call act σ' x = Except.ok (f Y)) ∧
      Y ≃ₜ denseLayer x Wt c r I.prod J.prod ∧
      ∀ S F, S.WF → S.rawShape = [I, J] → S.batch = none → (∀ k, 0 < k → k < I.length → S.rank k ≤ bd k) → full S = Except.ok F →
        Y.distSq (denseLayer x W c r I.prod J.prod) [] [r, J.prod] ≤
          x.normSq [] [r, I.prod] * ((I.length - 1 : ℕ) * W.distSq F [] [I.prod, J.prod]) ∧
        (F ≃ₜ W → Y ≃ₜ denseLayer x W c r I.prod J.prod) := by
  have hI : ∀ n ∈ I, 0 < n := fun n hn => h.pos n (List.mem_append_left _ hn)
  have hJ : ∀ n ∈ J, 0 < n := fun n hn => h.pos n (List.mem_append_right _ hn)
  have hmn : I.length = (layer.matrix.tt σ).ndims := h.wf.rows_len I (by show I ∈ layer.matrix.rawShape; rw [h.raw]; simp)
  have hIJ : I.length = J.length := by rw [hmn, h.wf.rows_len J (by show J ∈ layer.matrix.rawShape; rw [h.raw]; simp)]
  have hXp : W.shape.prod = I.prod * J.prod := by rw [hW]; simp
  have hflat : ∀ x < I.prod, ∀ y < J.prod, W.get [x, y] = W.get (unravel W.shape (x * J.prod + y)) := fun x hx y hy => by
    rw [hW, show x * J.prod + y = ravel [I.prod, J.prod] [x, y] by simp [ravel], unravel_ravel]
    exact (valid_pair _ _ _).2 ⟨x, y, rfl, hx, hy⟩
  obtain ⟨w, Wt, ew, ww, rw', bw, -, eWt, sWt, -, -⟩ := C33_matrix_error hsvd hXp hIJ hd hI hJ (Or.inl ⟨rfl, rfl⟩) hW hflat hb he
  obtain ⟨w', ew', lw, dw⟩ := C58_matrix hsvd hXp hIJ hd hI hJ (Or.inl ⟨rfl, rfl⟩) hb he
  obtain rfl : w' = w := Except.ok.inj (ew'.symm.trans ew)
  have hwn : w'.ndims = I.length := (ww.rows_len I (by rw [rw']; simp)).symm
  have hzl : (List.zipWith (· * ·) I J).length = I.length := by rw [List.length_zipWith]; omega
  have hranks : w'.ttRanks = layer.matrix.ttRanks := ranks_ext (y := layer.matrix.tt σ) ww h.wf (by omega) fun k hk => dw.unique hrk (by omega)
  obtain ⟨σ', es, hR, htt, hbias, -, -⟩ := (C59_set_weights h ww rw' bw (bias := [c]) (by rw [if_pos hu]; rfl) (by simpa using hc)).1 hranks
  obtain ⟨W', Y, eW', -, sY, vY, c1, c2⟩ := C49_call act σ' layer I J hR.wf hR.raw hR.batch hI (fun _ => by
    have := hR.bias
    rw [if_pos hu] at this
    obtain ⟨a, e, -, -, sa⟩ := this
    exact ⟨a, e, sa⟩) x r hx
  rw [htt] at eW'
  obtain rfl : W' = Wt := Except.ok.inj (eW'.symm.trans eWt)
  rw [hbias hu c (by simp), hu] at vY
  simp only [if_true] at vY
  have hYD : Y ≃ₜ denseLayer x W' c r I.prod J.prod := by
    refine ⟨sY, fun i hi => ?_⟩
    rw [sY] at hi
    obtain ⟨u, v, rfl, hu, hv⟩ := (valid_pair _ _ _).1 hi
    rw [vY u hu v hv]
    rfl
  refine ⟨w', W', Y, σ', ew, eWt, es, hR, c1, fun name f h1 h2 => (c2 name h1).1 f h2, hYD, fun S F hS hrs hSb hSr eF => ?_⟩
  obtain ⟨w2, Wt2, F2, ew2, eWt2, eF2, -, sF, hopt⟩ := C33_matrix_quasi_optimal hsvd hXp hIJ hd hI hJ (Or.inl ⟨rfl, rfl⟩) hW hflat hb he hS hrs hSb hSr
  obtain rfl : w2 = w' := Except.ok.inj (ew2.symm.trans ew)
  obtain rfl : Wt2 = W' := Except.ok.inj (eWt2.symm.trans eWt)
  obtain rfl : F2 = F := Except.ok.inj (eF2.symm.trans eF)
  have hbound : Y.distSq (denseLayer x W c r I.prod J.prod) [] [r, J.prod] ≤ x.normSq [] [r, I.prod] * ((I.length - 1 : ℕ) * W.distSq F2 [] [I.prod, J.prod]) := by
    have h1 : Y.distSq (denseLayer x W c r I.prod J.prod) [] [r, J.prod] =
        ∑ i ∈ Finset.range r, ∑ j ∈ Finset.range J.prod, (∑ k ∈ Finset.range I.prod, x.get [i, k] * (Wt2.get [k, j] - W.get [k, j])) ^ 2 := by
      rw [distSq_dot, dot_matrix]
      refine Finset.sum_congr rfl fun i hi => Finset.sum_congr rfl fun j hj => ?_
      rw [vY i (Finset.mem_range.1 hi) j (Finset.mem_range.1 hj), sq]
      have : ∑ k ∈ Finset.range I.prod, x.get [i, k] * Wt2.get [k, j] + c.get [j] - (denseLayer x W c r I.prod J.prod).get [i, j] =
          ∑ k ∈ Finset.range I.prod, x.get [i, k] * (Wt2.get [k, j] - W.get [k, j]) := by
        simp only [denseLayer, mul_sub, Finset.sum_sub_distrib]
        show _ - (∑ k ∈ Finset.range I.prod, x.get [i, k] * W.get [k, j] + c.get [j]) = _
        ring
      rw [this]
    have h2 : x.normSq [] [r, I.prod] = ∑ i ∈ Finset.range r, ∑ k ∈ Finset.range I.prod, x.get [i, k] ^ 2 := by
      rw [normSq_dot, dot_matrix]
      exact Finset.sum_congr rfl fun i _ => Finset.sum_congr rfl fun k _ => (sq _).symm
    have h3 : W.distSq Wt2 [] [I.prod, J.prod] = ∑ k ∈ Finset.range I.prod, ∑ j ∈ Finset.range J.prod, (Wt2.get [k, j] - W.get [k, j]) ^ 2 := by
      rw [distSq_dot, dot_matrix]
      exact Finset.sum_congr rfl fun k _ => Finset.sum_congr rfl fun j _ => by ring
    rw [hW, h3] at hopt
    rw [h1, h2]
    refine (sum_mul_sq _ _ _ _ _).trans (mul_le_mul_of_nonneg_left hopt ?_)
    exact Finset.sum_nonneg fun _ _ => Finset.sum_nonneg fun _ _ => sq_nonneg _
  refine ⟨hbound, fun hFW => ?_⟩
  have hz : W.distSq F2 [] [I.prod, J.prod] = 0 := by
    have := (distSq_zero (pre := []) (s := W.shape) rfl sF).2 hFW [] trivial
    rwa [hW] at this
  rw [hz, mul_zero, mul_zero] at hbound
  have hz' := le_antisymm hbound (Finset.sum_nonneg fun _ _ => sq_nonneg _)
  refine Tensor.Eqv.symm ((distSq_zero (pre := []) (s := [r, J.prod]) sY rfl).1 fun p hp => ?_)
  obtain rfl := (valid_nil_iff p).1 hp
  exact hz'

/-- **C59, finding.** The layer is made with `tt_rank=r`, the TT-matrix with `max_tt_rank=r`. `set_weights` accepts the weights exactly if the first and the last pair of dimensions have
at least `r` elements; otherwise it raises ValueError, because `to_tt_matrix` gives smaller TT-ranks while the layer has TT-ranks `r`. -/
theorem C59_same_rank {svd : SVDRoutine} (hsvd : svd.Correct) (z : ℕ → List ℕ → ℝ) (σ : Store ℝ) (input output : List ℤ) (h2 : 2 ≤ input.length) (r : ℕ)
    (hargs : MatrixArgs input output (.num r)) (activation : Option String) (kernel : String) (hk : KnownKernel kernel) (bias : ℝ) {eps : Option ℝ} (he : ∀ e ∈ eps, 0 ≤ e)
    {W c : Tensor ℝ} (hW : W.shape = [(input.map Int.toNat).prod, (output.map Int.toNat).prod]) (hc : c.shape = [(output.map Int.toNat).prod]) :
    ∃ σ' layer w, kerasDense z σ input output (.num r) activation true kernel bias = (σ', Except.ok layer) ∧
      toTTMatrix svd W (some (input.map Int.toNat)) (some (output.map Int.toNat)) (.num r) eps = Except.ok w ∧
      ((r ≤ input.getD 0 0 * output.getD 0 0 ∧ r ≤ input.getD (input.length - 1) 0 * output.getD (input.length - 1) 0) →
        ∃ σ'', setWeights σ' layer.weights (w.cores ++ [c]) = (σ'', Except.ok ()) ∧ layer.matrix.tt σ'' = w) ∧
      (¬ (r ≤ input.getD 0 0 * output.getD 0 0 ∧ r ≤ input.getD (input.length - 1) 0 * output.getD (input.length - 1) 0) →
        setWeights σ' layer.weights (w.cores ++ [c]) = (σ', Except.error Err.value)) := by
  obtain ⟨σ', layer, e, hR, -, hrk, -, hu⟩ := C59_new_layer z σ input output h2 (.num r) hargs activation true kernel hk bias
  obtain ⟨hl, hi, ho, hr⟩ := hargs
  have hr' : 0 < r := by have : (1 : ℤ) ≤ r := hr; omega
  have hI : ∀ n ∈ input.map Int.toNat, 0 < n := fun n hn => hR.pos n (List.mem_append_left _ hn)
  have hJ : ∀ n ∈ output.map Int.toNat, 0 < n := fun n hn => hR.pos n (List.mem_append_right _ hn)
  have hXp : W.shape.prod = (input.map Int.toNat).prod * (output.map Int.toNat).prod := by rw [hW]; simp
  obtain ⟨w, ew, hone⟩ := C58_one_bound hsvd hXp (by simpa using hl) (by simpa using h2) hI hJ (Or.inl ⟨rfl, rfl⟩) hr' he
  have hflat : ∀ x < (input.map Int.toNat).prod, ∀ y < (output.map Int.toNat).prod, W.get [x, y] = W.get (unravel W.shape (x * (output.map Int.toNat).prod + y)) := fun x hx y hy => by
    rw [hW, show x * (output.map Int.toNat).prod + y = ravel [(input.map Int.toNat).prod, (output.map Int.toNat).prod] [x, y] by simp [ravel], unravel_ravel]
    exact (valid_pair _ _ _).2 ⟨x, y, rfl, hx, hy⟩
  obtain ⟨w', -, ew', ww, rw', bw, -⟩ := C33_matrix_error hsvd hXp (by simpa using hl) (by simpa using h2) hI hJ (Or.inl ⟨rfl, rfl⟩) hW hflat
    (m := .num r) (bd := fun _ => r) (Or.inl ⟨r, hr', Or.inl rfl, fun _ => rfl⟩) he
  obtain rfl : w' = w := Except.ok.inj (ew'.symm.trans ew)
  have hwn : w'.ndims = input.length := by
    have := ww.rows_len (input.map Int.toNat) (by rw [rw']; simp)
    rw [List.length_map] at this; exact this.symm
  have hto : ∀ (l : List ℤ) k, (l.map Int.toNat).getD k 0 = (l.getD k 0).toNat := fun l k => by
    rw [show (0 : ℕ) = Int.toNat 0 from rfl, List.getD_map]
  have hcond : (r ≤ (input.map Int.toNat).getD 0 0 * (output.map Int.toNat).getD 0 0 ∧
      r ≤ (input.map Int.toNat).getD ((input.map Int.toNat).length - 1) 0 * (output.map Int.toNat).getD ((input.map Int.toNat).length - 1) 0) ↔
      ((r : ℤ) ≤ input.getD 0 0 * output.getD 0 0 ∧ (r : ℤ) ≤ input.getD (input.length - 1) 0 * output.getD (input.length - 1) 0) := by
    have hp : ∀ (l : List ℤ), (∀ n ∈ l, 1 ≤ n) → ∀ k < l.length, 1 ≤ l.getD k 0 := fun l h k hk => by
      rw [List.getD_eq_getElem _ _ hk]; exact h _ (List.getElem_mem _)
    have key : ∀ k < input.length, (r ≤ (input.map Int.toNat).getD k 0 * (output.map Int.toNat).getD k 0 ↔ (r : ℤ) ≤ input.getD k 0 * output.getD k 0) := fun k hk => by
      rw [hto, hto, ← Int.ofNat_le, Nat.cast_mul, Int.toNat_of_nonneg (by have := hp input hi k hk; omega), Int.toNat_of_nonneg (by have := hp output ho k (hl ▸ hk); omega)]
    rw [List.length_map, key 0 (by omega), key _ (by omega)]
  have hranks : w'.ttRanks = layer.matrix.ttRanks ↔ ∀ k, 0 < k → k < (input.map Int.toNat).length → w'.rank k = r := by
    have hlayer : ∀ k, 0 < k → k < input.length → (layer.matrix.tt σ').rank k = r := fun k h0 hk => by
      show layer.matrix.ttRanks.getD k 0 = r
      rw [hrk]
      obtain ⟨j, rfl⟩ : ∃ j, k = j + 1 := ⟨k - 1, by omega⟩
      have hj : j < (List.replicate (input.length - 1) (r : ℤ).toNat).length := by rw [List.length_replicate]; omega
      rw [usedRanks, List.getD_cons_succ, List.getD_append _ _ _ _ hj, List.getD_eq_getElem _ _ hj, List.getElem_replicate]
      simp
    have hmn : (layer.matrix.tt σ').ndims = input.length := by
      have := hR.wf.rows_len (input.map Int.toNat) (by show _ ∈ layer.matrix.rawShape; rw [hR.raw]; simp)
      rw [List.length_map] at this; exact this.symm
    rw [List.length_map]
    constructor
    · intro hh k h0 hk
      rw [← hlayer k h0 hk, TT.rank, hh]; rfl
    · intro hall
      refine ranks_ext (y := layer.matrix.tt σ') ww hR.wf (by omega) fun k hk => ?_
      rcases Nat.eq_zero_or_pos k with rfl | h0
      · rw [ww.rank_first, hR.wf.rank_first]
      · rcases Nat.lt_or_ge k input.length with h1 | h1
        · rw [hall k h0 h1, hlayer k h0 h1]
        · obtain rfl : k = w'.ndims := by omega
          rw [ww.rank_last, show w'.ndims = (layer.matrix.tt σ').ndims by omega, hR.wf.rank_last]
  have hset := C59_set_weights hR ww rw' bw (bias := [c]) (by rw [hu]; rfl) (by simpa using hc)
  refine ⟨σ', layer, w', e, ew, fun hh => ?_, fun hh => ?_⟩
  · obtain ⟨σ'', e1, -, e2, -⟩ := hset.1 (hranks.2 (hone.2 (hcond.2 hh)))
    exact ⟨σ'', e1, e2⟩
  · exact hset.2 fun hk => hh (hcond.1 (hone.1 (hranks.1 hk)))

/-- **C59.** The number of parameters is the number of elements of the cores plus that of the bias. -/
theorem C59_count {σ : Store ℝ} {layer : KerasDense} {as I J : List ℕ} (h : layer.Ready σ as I J) :
    countParams σ layer.weights = (∑ k ∈ Finset.range I.length, layer.matrix.ttRanks.getD k 0 * I.getD k 0 * J.getD k 0 * layer.matrix.ttRanks.getD (k + 1) 0) +
      if layer.useBias then J.prod else 0 := by
  have hal : as.length = I.length := by
    have := h.wf.rows_len I (by show I ∈ layer.matrix.rawShape; rw [h.raw]; simp)
    rw [this, ← h.isVariable.len, TT.ndims, VObj.tt, List.length_map]
  have hmn : (layer.matrix.tt σ).ndims = I.length := by rw [TT.ndims, VObj.tt, List.length_map, h.isVariable.len, hal]
  rw [countParams, KerasDense.weights_eq h.isVariable, List.map_append, List.sum_append]
  congr 1
  · have : as.map (fun a => (σ.getD a default).shape.prod) = (List.range I.length).map fun k =>
        layer.matrix.ttRanks.getD k 0 * I.getD k 0 * J.getD k 0 * layer.matrix.ttRanks.getD (k + 1) 0 := by
      conv_lhs => rw [list_eq_range_map as 0, List.map_map, hal]
      refine List.map_congr_left fun k hk => ?_
      have hk := List.mem_range.1 hk
      rw [Function.comp_apply, ← h.isVariable.core σ (by omega), h.wf.core_shape k (by omega)]
      have h1 : (layer.matrix.tt σ).bpre = [] := by show layer.matrix.batch.toList = []; rw [h.batch]; rfl
      have h2 : (layer.matrix.tt σ).modes k = [I.getD k 0, J.getD k 0] := by show layer.matrix.rawShape.map _ = _; rw [h.raw]; rfl
      rw [h1, h2]
      simp only [List.nil_append, List.prod_cons, List.prod_append, List.prod_nil, mul_one, TT.rank, VObj.tt]
      ring
    rw [this]
    exact rfl
  · have hb := h.bias
    split_ifs at hb ⊢ with hu
    · obtain ⟨a, e, -, -, sa⟩ := hb
      rw [e, Option.toList_some, List.map_cons, sa]
      simp
    · rw [hb]; rfl

/-- **C59.** `set_weights(get_weights())` changes nothing, and what was set is returned by `get_weights`. -/
theorem C59_get_set (σ : Store ℝ) (as : List ℕ) (hn : as.Nodup) (hin : ∀ a ∈ as, a < σ.length) :
    setWeights σ as (getWeights σ as) = (σ, Except.ok ()) ∧
    ∀ values σ', setWeights σ as values = (σ', Except.ok ()) → getWeights σ' as = values := by
  constructor
  · have hset : ∀ bs : List ℕ, (bs.zip (getWeights σ bs)).foldl (fun σ p => σ.set p.1 p.2) σ = σ := by
      intro bs
      induction bs with
      | nil => rfl
      | cons b bs ih =>
        rw [getWeights, List.map_cons, List.zip_cons_cons, List.foldl_cons]
        have : σ.set b (σ.getD b default) = σ := by
          apply List.ext_getElem?
          intro i
          rw [List.getElem?_set]
          split_ifs with h1 h2
          · subst h1
            rw [List.getD_eq_getElem _ _ h2, List.getElem?_eq_getElem h2]
          · subst h1
            rw [List.getElem?_eq_none (by omega)]
          · rfl
        simp only [this]
        exact ih
    rw [setWeights, if_pos, hset]
    · rfl
    · refine ⟨by rw [getWeights, List.length_map], fun p hp => ?_⟩
      rw [getWeights, List.zip_map_right, List.mem_map] at hp
      obtain ⟨q, hq, rfl⟩ := hp
      have : q.2 = q.1 := by
        obtain ⟨i, hi, rfl⟩ := List.getElem_of_mem hq
        simp
      simp [this]
  · intro values σ' h
    rw [setWeights] at h
    split_ifs at h with hc
    · obtain ⟨hl, -⟩ := hc
      have hf : (as.zip values).map Prod.fst = as := List.map_fst_zip (by omega)
      obtain ⟨-, s2, -⟩ := setAll_spec (as.zip values) σ (by rw [hf]; exact hn) (fun p hp => hin _ (List.of_mem_zip (a := p.1) (b := p.2) hp).1)
      rw [(Prod.mk.inj h).1] at s2
      apply List.ext_getElem
      · rw [getWeights, List.length_map, hl]
      · intro i h1 h2
        have hz : i < (as.zip values).length := by rw [List.length_zip]; omega
        have := s2 _ (List.getElem_mem hz)
        rw [List.getElem_zip] at this
        simp only [getWeights, List.getElem_map]
        exact this
    · exact absurd (Prod.mk.inj h).2 (by simp [throw, throwThe, MonadExceptOf.throw])

/-- A layer as in the tutorial (7·4·7·4 inputs, 625 outputs, TT-rank 4): 1725 parameters. -/
example (z : ℕ → List ℕ → ℝ) (σ : Store ℝ) : ∃ σ' layer, kerasDense z σ [7, 4, 7, 4] [5, 5, 5, 5] (.num 4) (some "relu") true "glorot" 0.001 = (σ', Except.ok layer) ∧
    countParams σ' layer.weights = 1725 := by
  obtain ⟨σ', layer, e, hR, -, hrk, -, hu⟩ := C59_new_layer z σ [7, 4, 7, 4] [5, 5, 5, 5] (by simp) (.num 4) ⟨rfl, by simp, by simp, by simp [GoodRank]⟩ (some "relu") true
    "glorot" (Or.inl rfl) 0.001
  refine ⟨σ', layer, e, ?_⟩
  rw [C59_count hR, hrk, hu]
  simp [Finset.sum_range_succ, usedRanks, List.replicate]

/-- The hypotheses of `C59_compress` hold for a layer with TT-rank 16, as in the tutorial. -/
example (z : ℕ → List ℕ → ℝ) (σ : Store ℝ) : ∃ σ' layer as, kerasDense z σ [7, 4, 7, 4] [5, 5, 5, 5] (.num 16) (some "relu") true "glorot" 0.1 = (σ', Except.ok layer) ∧
    layer.Ready σ' as [7, 4, 7, 4] [5, 5, 5, 5] ∧ layer.useBias = true ∧
    DecompRanks (List.zipWith (· * ·) [7, 4, 7, 4] [5, 5, 5, 5]) (fun _ => 16) (layer.matrix.tt σ').rank := by
  obtain ⟨σ', layer, e, hR, -, hrk, -, hu⟩ := C59_new_layer z σ [7, 4, 7, 4] [5, 5, 5, 5] (by simp) (.num 16) ⟨rfl, by simp, by simp, by simp [GoodRank]⟩ (some "relu") true
    "glorot" (Or.inl rfl) 0.1
  have hk : ∀ k, (layer.matrix.tt σ').rank k = [1, 16, 16, 16, 1].getD k 0 := fun k => by show layer.matrix.ttRanks.getD k 0 = _; rw [hrk]; rfl
  refine ⟨σ', layer, _, e, hR, hu, hk 0, hk 4, fun k h => ?_⟩
  have : k = 0 ∨ k = 1 ∨ k = 2 := by simp at h; omega
  rw [hk, hk]
  rcases this with rfl | rfl | rfl <;> simp

end T3f
