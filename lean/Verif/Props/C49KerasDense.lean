import Verif.Model.Nn
import Verif.Props.C48Variables
import Verif.Props.C09Matmul
import Verif.Props.C24Init
import Verif.Props.C26Random
import Verif.Proofs.RandomTT
import Verif.Spec.Kron

/-!
# C49: the Keras layer
-/

namespace T3f

variable (act : String → Option (Tensor ℝ → Tensor ℝ))

theorem prod_toNat {l : List ℤ} (h : ∀ n ∈ l, 1 ≤ n) : l.prod = (((l.map Int.toNat).prod : ℕ) : ℤ) := by
  induction l with
  | nil => rfl
  | cons x l ih =>
    rw [List.prod_cons, List.map_cons, List.prod_cons, ih fun n hn => h n (by simp [hn]), Nat.cast_mul,
      Int.toNat_of_nonneg (by have := h x (by simp); omega)]

/-- The initializers for neural networks accept the same arguments as `matrix_with_random_cores`. -/
theorem nnInitializer_ok (lamb : ℤ → ℤ → ℝ) (z : ℕ → List ℕ → ℝ) (a b : List ℤ) (h2 : 2 ≤ a.length) (rank : RankArg) (h : MatrixArgs a b rank) :
    ∃ t, nnInitializer lamb z (some a) (some b) rank = Except.ok t ∧ t.WF ∧ t.batch = none ∧ t.rawShape = [a.map Int.toNat, b.map Int.toNat] ∧
      t.ttRanks = usedRanks a.length rank := by
  obtain ⟨hl, ha, hb, hr⟩ := h
  have hd : 0 < a.length := by omega
  obtain ⟨l, e1, e2, e3⟩ := goodRank_list hd hr
  have hpos : ∀ n ∈ a ++ b, 1 ≤ n := fun n hn => (List.mem_append.1 hn).elim (ha n) (hb n)
  have hv : validateMatrix a b none (some rank) = Except.ok () := by
    rw [validateMatrix, require_bind_ok _ hl, require_bind_ok _ hpos, validateRest_ok hd (by simp) ((goodRank_iff hd _).1 hr).1]
  obtain ⟨sd, hsd⟩ : ∃ sd, Real.sqrt (lamb (int64 a.prod) (int64 b.prod)) = sd := ⟨_, rfl⟩
  obtain ⟨t, e, w, bt, rw', rk⟩ := (C25_matrix z a b h2 (.list l) 0 (coreStddev a.length l sd)).1 ⟨hl, ha, hb, e3⟩
  refine ⟨t, ?_, w, bt, rw', by rw [rk]; exact e2⟩
  simp only [nnInitializer, randomMatrix, fillShape, R.pure_eq, hv, e1, R.ok_bind, hsd]
  rw [e, R.ok_bind, checkMean_ok (by norm_num)]

/-- The initializers for neural networks reject other arguments. -/
theorem nnInitializer_error (lamb : ℤ → ℤ → ℝ) (z : ℕ → List ℕ → ℝ) (a b : List ℤ) (h2 : 2 ≤ a.length) (rank : RankArg) (h : ¬ MatrixArgs a b rank) :
    nnInitializer lamb z (some a) (some b) rank = Except.error Err.value := by
  have hd : 0 < a.length := by omega
  by_cases c0 : a.length = b.length
  · by_cases c1 : ∀ n ∈ a ++ b, 1 ≤ n
    · by_cases c2 : SynRank a.length rank
      · have hv : validateMatrix a b none (some rank) = Except.ok () := by
          rw [validateMatrix, require_bind_ok _ c0, require_bind_ok _ c1, validateRest_ok hd (by simp) c2]
        obtain ⟨l, e1, e2, -⟩ := expandRank_eq hd (rank := rank)
        obtain ⟨sd, hsd⟩ : ∃ sd, Real.sqrt (lamb (int64 a.prod) (int64 b.prod)) = sd := ⟨_, rfl⟩
        have e := (C25_matrix z a b h2 (.list l) 0 (coreStddev a.length l sd)).2 fun h' => h
          ⟨c0, h'.2.1, h'.2.2.1, (goodRank_iff hd _).2 ⟨c2, by
            have := ((goodRank_iff hd _).1 h'.2.2.2).2
            rw [← e2]
            exact this⟩⟩
        simp only [nnInitializer, randomMatrix, fillShape, R.pure_eq, hv, e1, R.ok_bind, hsd]
        rw [e]
        rfl
      · simp only [nnInitializer, fillShape, R.pure_eq, R.ok_bind, validateMatrix, require_bind_ok _ c0, require_bind_ok _ c1,
          validateRest_error (bs := none) fun h => c2 h.2]
        rfl
    · simp only [nnInitializer, fillShape, R.pure_eq, R.ok_bind, validateMatrix, require_bind_ok _ c0, require_bind_error _ c1]
      rfl
  · simp only [nnInitializer, fillShape, R.pure_eq, R.ok_bind, validateMatrix, require_bind_error _ c0]
    rfl

/-- The three names of kernel initializers. -/
def KnownKernel (kernel : String) : Prop := kernel = "glorot" ∨ kernel = "he" ∨ kernel = "lecun"

theorem kernelInit_eq {kernel : String} (h : KnownKernel kernel) : ∃ lamb : ℤ → ℤ → ℝ, ∀ z a b rank,
    kernelInit z kernel a b rank = nnInitializer lamb z (some a) (some b) rank := by
  rcases h with rfl | rfl | rfl
  · exact ⟨_, fun z a b rank => if_pos rfl⟩
  · exact ⟨_, fun z a b rank => by rw [kernelInit, if_neg (by decide), if_pos rfl]; rfl⟩
  · exact ⟨_, fun z a b rank => by rw [kernelInit, if_neg (by decide), if_neg (by decide), if_pos rfl]; rfl⟩

/-- The object `t` is what the initializer with the name `kernel` returns. -/
def KernelValue (z : ℕ → List ℕ → ℝ) (kernel : String) (input output : List ℤ) (rank : RankArg) (t : TT ℝ) : Prop :=
  (kernel = "glorot" ∧ glorotInitializer z (some input) (some output) rank = Except.ok t) ∨
    (kernel = "he" ∧ heInitializer z (some input) (some output) rank = Except.ok t) ∨
    (kernel = "lecun" ∧ lecunInitializer z (some input) (some output) rank = Except.ok t)

theorem kernelValue_of {z : ℕ → List ℕ → ℝ} {kernel : String} (hk : KnownKernel kernel) {input output : List ℤ} {rank : RankArg} {t : TT ℝ}
    (h : kernelInit z kernel input output rank = Except.ok t) : KernelValue z kernel input output rank t := by
  rcases hk with rfl | rfl | rfl
  · exact Or.inl ⟨rfl, by rw [kernelInit, if_pos rfl] at h; exact h⟩
  · exact Or.inr (Or.inl ⟨rfl, by rw [kernelInit, if_neg (by decide), if_pos rfl] at h; exact h⟩)
  · exact Or.inr (Or.inr ⟨rfl, by rw [kernelInit, if_neg (by decide), if_neg (by decide), if_pos rfl] at h; exact h⟩)

theorem KernelValue.init {z : ℕ → List ℕ → ℝ} {kernel : String} {input output : List ℤ} {rank : RankArg} {t : TT ℝ}
    (h : KernelValue z kernel input output rank t) : kernelInit z kernel input output rank = Except.ok t := by
  rcases h with ⟨rfl, h⟩ | ⟨rfl, h⟩ | ⟨rfl, h⟩
  · rw [kernelInit, if_pos rfl]; exact h
  · rw [kernelInit, if_neg (by decide), if_pos rfl]; exact h
  · rw [kernelInit, if_neg (by decide), if_neg (by decide), if_pos rfl]; exact h

/-- **C49, forward pass.** Whatever values the weights have: for every number of rows of the input, the layer returns `x · full(W) + b`, or the activation function
applied to it. -/
theorem C49_call (σ : Store ℝ) (layer : KerasDense) (I J : List ℕ) (hw : (layer.matrix.tt σ).WF) (hraw : layer.matrix.rawShape = [I, J])
    (hbatch : layer.matrix.batch = none) (hI : ∀ n ∈ I, 0 < n) (hb : layer.useBias = true → ∃ a, layer.b = some a ∧ (σ.getD a default).shape = [J.prod])
    (x : Tensor ℝ) (r : ℕ) (hx : x.shape = [r, I.prod]) :
    ∃ W Y, full (layer.matrix.tt σ) = Except.ok W ∧ W.shape = [I.prod, J.prod] ∧ Y.shape = [r, J.prod] ∧
      (∀ i < r, ∀ j < J.prod, Y.get [i, j] = ∑ k ∈ Finset.range I.prod, x.get [i, k] * W.get [k, j] +
        if layer.useBias then (σ.getD (layer.b.getD 0) default).get [j] else 0) ∧
      (layer.activation = none → layer.call act σ x = Except.ok Y) ∧
      ∀ name, layer.activation = some name →
        (∀ f, act name = some f → layer.call act σ x = Except.ok (f Y)) ∧ (act name = none → layer.call act σ x = Except.error Err.value) := by
  obtain ⟨D, W, S, eD, sD, eW, eS, hDS⟩ := C10_dense_tt (layer.matrix.tt σ) hw I J hraw hbatch hI x r hx
  obtain ⟨W', eW', sW, -⟩ := full_matrix hw hraw
  obtain rfl : W' = W := by rw [eW] at eW'; exact (Except.ok.inj eW').symm
  rw [bpre_none (t := layer.matrix.tt σ) hbatch, List.nil_append] at sW
  obtain ⟨S', eS', sS, vS⟩ := matmul2 x W' _ _ _ hx sW
  obtain rfl : S' = S := by rw [eS] at eS'; exact (Except.ok.inj eS').symm
  have vD : ∀ i < r, ∀ j < J.prod, D.get [i, j] = ∑ k ∈ Finset.range I.prod, x.get [i, k] * W'.get [k, j] := fun i hi j hj => by
    rw [hDS.2 [i, j] (by rw [sD]; exact (valid_pair _ _ _).2 ⟨i, j, rfl, hi, hj⟩), vS]
  obtain ⟨Y, eY, sY, vY⟩ : ∃ Y, addBias σ layer D = Except.ok Y ∧ Y.shape = [r, J.prod] ∧ ∀ i < r, ∀ j < J.prod,
      Y.get [i, j] = D.get [i, j] + if layer.useBias then (σ.getD (layer.b.getD 0) default).get [j] else 0 := by
    by_cases hu : layer.useBias = true
    · obtain ⟨a, ha, sa⟩ := hb hu
      obtain ⟨Y, eY, sY, vY⟩ := binop_ok (· + ·) D (σ.getD a default) [r, J.prod] (by rw [sD, sa]; simp [bshape])
      refine ⟨Y, by rw [addBias, if_pos hu, ha]; exact eY, sY, fun i hi j hj => ?_⟩
      rw [vY, sD, sa, if_pos hu, ha, bproj_valid ((valid_pair _ _ _).2 ⟨i, j, rfl, hi, hj⟩), Option.getD_some]
      congr 2
      by_cases h1 : J.prod = 1
      · simp [bproj, h1]
        omega
      · simp [bproj, h1]
    · refine ⟨D, by rw [addBias, if_neg hu]; rfl, sD, fun i _ j _ => by rw [if_neg hu, add_zero]⟩
  refine ⟨W', Y, eW, sW, sY, fun i hi j hj => by rw [vY i hi j hj, vD i hi j hj], ?_⟩
  have hcall : layer.call act σ x = applyActivation act layer Y := by
    rw [KerasDense.call, matmulAny, if_neg (by simp [TT.isBatch, VObj.tt, hbatch]), eD, R.ok_bind]
    rw [R.pure_eq, R.ok_bind]
    simp only [toDense, R.pure_eq, R.ok_bind, eY]
  rw [hcall]
  exact ⟨fun h => by rw [applyActivation, h]; rfl, fun name h =>
    ⟨fun f hf => by rw [applyActivation, h]; simp only [hf]; rfl, fun hf => by rw [applyActivation, h]; simp only [hf]; rfl⟩⟩

/-- **C49, constructor.** For at least two dimensions and admissible arguments, the constructor makes new variables only: a TT-matrix of the given shape and ranks
with the values of the kernel initializer, and a bias with all entries `bias_initializer`. -/
theorem C49_init (z : ℕ → List ℕ → ℝ) (σ : Store ℝ) (input output : List ℤ) (h2 : 2 ≤ input.length) (rank : RankArg) (hargs : MatrixArgs input output rank)
    (activation : Option String) (useBias : Bool) (kernel : String) (hk : KnownKernel kernel) (bias : ℝ) :
    ∃ σ' layer t, kerasDense z σ input output rank activation useBias kernel bias = (σ', Except.ok layer) ∧
      KernelValue z kernel input output rank t ∧ layer.matrix.tt σ' = t ∧ t.WF ∧ t.batch = none ∧
      t.rawShape = [input.map Int.toNat, output.map Int.toNat] ∧ t.ttRanks = usedRanks input.length rank ∧
      layer.activation = activation ∧ layer.useBias = useBias ∧
      (useBias = true → ∃ a, layer.b = some a ∧ σ.length ≤ a ∧ (σ'.getD a default).shape = [(output.map Int.toNat).prod] ∧
        ∀ j, (σ'.getD a default).get [j] = bias) ∧
      layer.outputDim = output.prod ∧ (∀ c ∈ layer.matrix.cores, ∃ a, c = .var a ∧ σ.length ≤ a) ∧ ∀ a < σ.length, σ'[a]? = σ[a]? := by
  obtain ⟨lamb, hlamb⟩ := kernelInit_eq hk
  obtain ⟨t, et, wt, bt, rt, kt⟩ := nnInitializer_ok lamb z input output h2 rank hargs
  have htt : (⟨t.cores.map .tensor, t.rawShape, t.ttRanks, t.batch⟩ : VObj ℝ).tt σ = t := by
    simp [VObj.tt, VCore.value, List.map_map, Function.comp_def]
  obtain ⟨σ', v, ev, hv, hvar, hold⟩ := C48_get_variable σ ⟨t.cores.map .tensor, t.rawShape, t.ttRanks, t.batch⟩ (by rw [htt]; exact wt)
  rw [htt] at hv
  have hprod : output.prod.toNat = (output.map Int.toNat).prod := by
    rw [prod_toNat hargs.2.2.1, Int.toNat_natCast]
  have hlen : σ.length ≤ σ'.length := by
    by_contra h
    have h1 := hold σ'.length (by omega)
    rw [List.getElem?_eq_none le_rfl, List.getElem?_eq_getElem (by omega)] at h1
    cases h1
  have hcores : ∀ c ∈ v.cores, ∃ a, c = .var a ∧ σ.length ≤ a ∧ a < σ'.length := fun c hc => by
    rw [hvar.cores] at hc
    obtain ⟨a, ha, rfl⟩ := List.mem_map.1 hc
    refine ⟨a, rfl, ?_, hvar.inStore a ha⟩
    obtain ⟨i, -, rfl⟩ := List.mem_map.1 ha
    omega
  have hbind : kerasDense z σ input output rank activation useBias kernel bias =
      ((biasInit σ' useBias bias output.prod).1, Except.ok ⟨v, (biasInit σ' useBias bias output.prod).2, activation, useBias, output.prod⟩) := by
    rw [kerasDense, hlamb, et]
    simp only [ev]
  have hpre : ∀ a < σ'.length, (biasInit σ' useBias bias output.prod).1[a]? = σ'[a]? := fun a ha => by
    rw [biasInit]
    split_ifs
    · exact List.getElem?_append_left ha
    · rfl
  refine ⟨_, _, t, hbind, kernelValue_of hk (by rw [hlamb, et]), ?_, wt, bt, rt, kt, rfl, rfl, fun hu => ?_, rfl, fun c hc => ?_, fun a ha => ?_⟩
  · rw [← hv]
    simp only [VObj.tt]
    congr 1
    refine List.map_congr_left fun c hc => ?_
    obtain ⟨a, rfl, -, ha⟩ := hcores c hc
    simp only [VCore.value, List.getD_eq_getElem?_getD, hpre a ha]
  · refine ⟨σ'.length, by rw [biasInit, if_pos hu], hlen, ?_, fun j => ?_⟩
    · rw [biasInit, if_pos hu, List.getD_append_right _ _ _ _ le_rfl, Nat.sub_self, ← hprod]
      rfl
    · rw [biasInit, if_pos hu, List.getD_append_right _ _ _ _ le_rfl, Nat.sub_self]
      simp [Tensor.map, ones]
  · obtain ⟨a, e, ha, -⟩ := hcores c hc
    exact ⟨a, e, ha⟩
  · rw [hpre a (by omega), hold a ha]

/-- **C49.** A new layer without activation maps `x` to `x · full(W) + bias`, where `W` is what the kernel initializer returned; the shape of the result is that of
`compute_output_shape`. -/
theorem C49_new_layer (z : ℕ → List ℕ → ℝ) (σ : Store ℝ) (input output : List ℤ) (h2 : 2 ≤ input.length) (rank : RankArg) (hargs : MatrixArgs input output rank)
    (useBias : Bool) (kernel : String) (hk : KnownKernel kernel) (bias : ℝ) (x : Tensor ℝ) (r : ℕ) (hx : x.shape = [r, (input.map Int.toNat).prod]) :
    ∃ σ' layer t W Y, kerasDense z σ input output rank none useBias kernel bias = (σ', Except.ok layer) ∧
      KernelValue z kernel input output rank t ∧ full t = Except.ok W ∧ layer.call act σ' x = Except.ok Y ∧
      Y.shape = [r, (output.map Int.toNat).prod] ∧ layer.computeOutputShape x.shape = Except.ok (Y.shape.map Int.ofNat) ∧
      ∀ i < r, ∀ j < (output.map Int.toNat).prod, Y.get [i, j] =
        ∑ k ∈ Finset.range (input.map Int.toNat).prod, x.get [i, k] * W.get [k, j] + if useBias then bias else 0 := by
  obtain ⟨σ', layer, t, e, et, htt, wt, bt, rt, -, hact, hu, hb, hod, -⟩ := C49_init z σ input output h2 rank hargs none useBias kernel hk bias
  subst htt
  obtain ⟨W, Y, eW, -, sY, vY, h1, -⟩ := C49_call act σ' layer _ _ wt rt bt (fun n hn => by
    obtain ⟨m, hm, rfl⟩ := List.mem_map.1 hn
    have := hargs.2.1 m hm
    omega) (fun h => by
      obtain ⟨a, ha, -, sa, -⟩ := hb (hu ▸ h)
      exact ⟨a, ha, sa⟩) x r hx
  refine ⟨σ', layer, _, W, Y, e, et, eW, h1 hact, sY, ?_, fun i hi j hj => ?_⟩
  · rw [sY, hx, KerasDense.computeOutputShape, hod, prod_toNat hargs.2.2.1]
    rfl
  · rw [vY i hi j hj, hu]
    split_ifs with hh
    · obtain ⟨a, ha, -, -, va⟩ := hb hh
      rw [ha, Option.getD_some, va]
    · rfl

/-- **C49, initial weights.** The elements of the weight matrix of a new layer with `m` inputs and `n` outputs have mean zero and are uncorrelated, with variance
`2 / (m + n)` for `glorot`, `2 / m` for `he`, `1 / m` for `lecun`, if these sizes are below `2 ^ 63`. -/
theorem C49_variance {Ω : Type} [MeasurableSpace Ω] {μ : MeasureTheory.Measure Ω} [MeasureTheory.IsProbabilityMeasure μ] {z : Ω → ℕ → List ℕ → ℝ} (h : StandardDraws μ z) (σ : Store ℝ)
    (input output : List ℤ) (h2 : 2 ≤ input.length) (rank : RankArg) (hargs : MatrixArgs input output rank) (activation : Option String) (useBias : Bool) (bias : ℝ) :
    let m : ℕ := (input.map Int.toNat).prod
    let n : ℕ := (output.map Int.toNat).prod
    ∀ (kernel : String) (v : ℝ), (kernel = "glorot" ∧ m + n < 2 ^ 63 ∧ v = 2 / (m + n)) ∨ (kernel = "he" ∧ m < 2 ^ 63 ∧ v = 2 / m) ∨
      (kernel = "lecun" ∧ m < 2 ^ 63 ∧ v = 1 / m) →
    ∃ (σ' : Ω → Store ℝ) (layer : Ω → KerasDense) (W : Ω → Tensor ℝ),
      (∀ ω, kerasDense (z ω) σ input output rank activation useBias kernel bias = (σ' ω, Except.ok (layer ω)) ∧
        full ((layer ω).matrix.tt (σ' ω)) = Except.ok (W ω) ∧ (W ω).shape = [m, n]) ∧
      WhiteNoise μ (fun ω => (W ω).get) [m, n] v := by
  intro m n kernel v hv
  have hk : KnownKernel kernel := by
    rcases hv with ⟨h, -⟩ | ⟨h, -⟩ | ⟨h, -⟩
    · exact Or.inl h
    · exact Or.inr (Or.inl h)
    · exact Or.inr (Or.inr h)
  choose σ' layer t e hval htt _ using fun ω => C49_init (z ω) σ input output h2 rank hargs activation useBias kernel hk bias
  obtain ⟨init, hi1, hi2⟩ : ∃ init : (ℕ → List ℕ → ℝ) → Option (List ℤ) → Option (List ℤ) → RankArg → R (TT ℝ),
      ((init = glorotInitializer ∧ m + n < 2 ^ 63 ∧ v = 2 / (m + n)) ∨ (init = heInitializer ∧ m < 2 ^ 63 ∧ v = 2 / m) ∨
        (init = lecunInitializer ∧ m < 2 ^ 63 ∧ v = 1 / m)) ∧
      ∀ ω, init (z ω) (some input) (some output) rank = Except.ok (t ω) := by
    rcases hv with ⟨rfl, h⟩ | ⟨rfl, h⟩ | ⟨rfl, h⟩
    · exact ⟨_, Or.inl ⟨rfl, h⟩, fun ω => by simpa [KernelValue] using hval ω⟩
    · exact ⟨_, Or.inr (Or.inl ⟨rfl, h⟩), fun ω => by simpa [KernelValue] using hval ω⟩
    · exact ⟨_, Or.inr (Or.inr ⟨rfl, h⟩), fun ω => by simpa [KernelValue] using hval ω⟩
  obtain ⟨t', F, hF, hW⟩ := C26_nn h input output h2 hargs.1 hargs.2.1 hargs.2.2.1 rank hargs.2.2.2 init v hi1
  refine ⟨σ', layer, F, fun ω => ⟨e ω, ?_, (hF ω).2.2.2.2.2.2⟩, hW⟩
  rw [htt ω, ← (hF ω).2.2.2.2.2.1]
  congr 1
  exact Except.ok.inj ((hi2 ω).symm.trans (hF ω).1)

/-- **C49, errors.** An unknown kernel initializer and arguments that are not admissible raise ValueError, and no variable is created. -/
theorem C49_init_error (z : ℕ → List ℕ → ℝ) (σ : Store ℝ) (input output : List ℤ) (rank : RankArg) (activation : Option String) (useBias : Bool)
    (kernel : String) (bias : ℝ) (h : ¬ KnownKernel kernel ∨ 2 ≤ input.length ∧ ¬ MatrixArgs input output rank) :
    kerasDense z σ input output rank activation useBias kernel bias = (σ, Except.error Err.value) := by
  have : kernelInit z kernel input output rank = Except.error Err.value := by
    by_cases hk : KnownKernel kernel
    · obtain ⟨h2, hargs⟩ := h.resolve_left (not_not.2 hk)
      obtain ⟨lamb, hlamb⟩ := kernelInit_eq hk
      rw [hlamb, nnInitializer_error lamb z input output h2 rank hargs]
    · simp only [KnownKernel, not_or] at hk
      rw [kernelInit, if_neg hk.1, if_neg hk.2.1, if_neg hk.2.2]
      rfl
  rw [kerasDense, this]

/-- **C49, errors.** An input with a wrong number of columns raises TypeError. -/
theorem C49_call_mismatch (σ : Store ℝ) (layer : KerasDense) (I J : List ℕ) (hw : (layer.matrix.tt σ).WF) (hraw : layer.matrix.rawShape = [I, J])
    (hbatch : layer.matrix.batch = none) (x : Tensor ℝ) (r m : ℕ) (hx : x.shape = [r, m]) (hm : m ≠ I.prod) :
    layer.call act σ x = Except.error Err.type := by
  obtain ⟨xt, ext, sxt, -⟩ := transpose2 hx
  obtain ⟨bt, ebt, wbt, rbt, bbt, -⟩ := ttTranspose_spec hw hraw
  have := C10_tt_dense_mismatch bt wbt J I rbt (bbt.trans hbatch) xt m r sxt hm
  rw [KerasDense.call, matmulAny, if_neg (by simp [TT.isBatch, VObj.tt, hbatch]), denseTTMatmul]
  rw [ext, R.ok_bind, ebt, R.ok_bind, this]
  rfl

/-- **C49, finding.** With one dimension, the constructor makes a layer that rejects every input with ValueError: its weights are no TT-matrix. -/
theorem C49_one_dim (z : ℕ → List ℕ → ℝ) (σ : Store ℝ) (m n r : ℤ) (hm : 1 ≤ m) (hn : 1 ≤ n) (hr : 1 ≤ r) (activation : Option String) (useBias : Bool)
    (kernel : String) (hk : KnownKernel kernel) (bias : ℝ) :
    ∃ σ' layer, kerasDense z σ [m] [n] (.num r) activation useBias kernel bias = (σ', Except.ok layer) ∧
      ∀ (x : Tensor ℝ) (p q : ℕ), x.shape = [p, q] → layer.call act σ' x = Except.error Err.value := by
  obtain ⟨lamb, hlamb⟩ := kernelInit_eq hk
  have hmn : ∀ x ∈ [m] ++ [n], 1 ≤ x := by simp [hm, hn]
  have hval : ∀ rank, SynRank 1 rank → validateMatrix [m] [n] none (some rank) = Except.ok () := fun rank h => by
    rw [validateMatrix, require_bind_ok _ (show [m].length = [n].length from rfl), require_bind_ok _ hmn]
    exact validateRest_ok (by simp) (by simp) h
  obtain ⟨T, sT, et⟩ : ∃ T : Tensor ℝ, T.shape = [1, m.toNat, n.toNat, 1] ∧
      nnInitializer lamb z (some [m]) (some [n]) (.num r) = Except.ok ⟨[T], [[m.toNat, n.toNat]], [1, 1], none⟩ := by
    obtain ⟨sd, hsd⟩ : ∃ sd, Real.sqrt (lamb (int64 [m].prod) (int64 [n].prod)) = sd := ⟨_, rfl⟩
    refine ⟨randomNormal 0 (coreStddev 1 [1, 1] sd) (z 0) [1, m.toNat, n.toNat, 1], rfl, ?_⟩
    simp only [nnInitializer, randomMatrix, fillShape, R.pure_eq, R.ok_bind, hval _ (show SynRank 1 (.num r) from hr), hsd, expandRank, List.length_singleton, one_ne_zero, if_false,
      matrixWithRandomCores, hval (.list (1 :: (List.replicate (1 - 1) r ++ [1]))) (by simp [SynRank])]
    rw [fillCores_eq _ _ _ _ _ (by simp) (by simp), R.ok_bind]
    have : mkTT [randomNormal 0 (coreStddev 1 [1, 1] sd) (z 0) [1, m.toNat, n.toNat, 1]] (.nested [[m.toNat], [n.toNat]]) (some [1, 1]) =
        Except.ok ⟨[randomNormal 0 (coreStddev 1 [1, 1] sd) (z 0) [1, m.toNat, n.toNat, 1]], [[m.toNat, n.toNat]], [1, 1], none⟩ := by
      simp [mkTT, cleanRawShape, coresValid, coreCheck, allRange, andR, eqR, pyGet, pyLast, randomNormal]
    simp [this]
    exact checkMean_ok (by norm_num) _
  have htt : (⟨[T].map .tensor, [[m.toNat, n.toNat]], [1, 1], none⟩ : VObj ℝ).tt σ = ⟨[T], [[m.toNat, n.toNat]], [1, 1], none⟩ := rfl
  have hget : getVariable σ (some ⟨[T].map .tensor, [[m.toNat, n.toNat]], [1, 1], none⟩) none =
      (σ ++ [T], Except.ok ⟨[.var σ.length], [[m.toNat, n.toNat]], [1, 1], none⟩) := by
    have : mkTT [T] (.shapes [[m.toNat, n.toNat]]) (some [1, 1]) = Except.ok ⟨[T], [[m.toNat, n.toNat]], [1, 1], none⟩ := by
      simp [mkTT, cleanRawShape, coresValid, coreCheck, allRange, andR, eqR, pyGet, pyLast, sT]
    simp [getVariable, VCore.value, mkVObj, mkLike, this, runRegularizer]
  refine ⟨(biasInit (σ ++ [T]) useBias bias [n].prod).1, _, by rw [kerasDense, hlamb, et]; simp only [hget]; rfl, fun x p q hx => ?_⟩
  obtain ⟨xt, ext, -⟩ := transpose2 hx
  rw [KerasDense.call, matmulAny, if_neg (by simp [TT.isBatch, VObj.tt]), denseTTMatmul, ext, R.ok_bind, ttTranspose,
    require_neg (by simp [TT.isMatrix, VObj.tt])]
  rfl

/-- Admissible arguments: a layer from `2 × 3` inputs to `3 × 2` outputs of rank 2. -/
example : MatrixArgs [2, 3] [3, 2] (.num 2) ∧ KnownKernel "he" ∧ ¬ KnownKernel "zeros" ∧ ¬ MatrixArgs [2, 3] [3] (.num 2) :=
  ⟨⟨rfl, by decide, by decide, by decide⟩, Or.inr (Or.inl rfl), by unfold KnownKernel; decide, fun h => absurd h.1 (by decide)⟩

/-- A layer with a known weight matrix (`exMatrix`, 4 × 2) and a bias. -/
noncomputable def exLayer : KerasDense := ⟨⟨exMatrix.toReal.cores.map .tensor, exMatrix.rawShape, exMatrix.ttRanks, none⟩, some 0, none, true, 2⟩

example (act : String → Option (Tensor ℝ → Tensor ℝ)) (x : Tensor ℝ) (r : ℕ) (hx : x.shape = [r, 4]) :
    ∃ W Y, full exMatrix.toReal = Except.ok W ∧ exLayer.call act [.ofList [2] [7, 8]] x = Except.ok Y ∧ Y.shape = [r, 2] ∧
      ∀ i < r, Y.get [i, 1] = ∑ k ∈ Finset.range 4, x.get [i, k] * W.get [k, 1] + 8 := by
  have htt : exLayer.matrix.tt [.ofList [2] [7, 8]] = exMatrix.toReal := by
    simp [VObj.tt, VCore.value, exLayer, TT.toReal, exMatrix]
  obtain ⟨W, Y, eW, -, sY, vY, h, -⟩ := C49_call act [.ofList [2] [7, 8]] exLayer [2, 2] [1, 2] (by rw [htt]; exact TT.WF.toReal (by decide)) rfl rfl (by decide)
    (fun _ => ⟨0, rfl, rfl⟩) x r (by simpa using hx)
  rw [htt] at eW
  refine ⟨W, Y, eW, h rfl, by simpa using sY, fun i hi => ?_⟩
  have := vY i hi 1 (by decide)
  rw [this, if_pos (show exLayer.useBias = true from rfl)]
  rfl

end T3f
