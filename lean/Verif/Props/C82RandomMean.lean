import Verif.Proofs.Expr
import Verif.Props.C04Add
import Verif.Props.C06Arith
import Verif.Props.C24Init
import Verif.Props.C26Random

/-!
# C82: the documented way to get random objects with a given mean

initializers.py:501-505, 556-560, 609-612, 681-684: "In the current implementation only mean 0 is supported. To get a random_tensor with specified mean but
tt_rank greater by 1 you can call `x = t3f.random_tensor(shape, tt_rank, stddev=stddev)`, `x = mean * t3f.ones_like(x) + x`", and the same for batches.
-/

namespace T3f

open MeasureTheory ProbabilityTheory

/-- The second line of the recipe: `mean * t3f.ones_like(x) + x`. -/
noncomputable def recipeMean (mean : ℝ) (x : TT ℝ) : R (TT ℝ) := do
  let o ← onesLike x
  let c ← multiplyScalar o mean
  add c x

/-- The operands of the sum in the other order: `x + mean * t3f.ones_like(x)`. -/
noncomputable def recipeMeanSwapped (mean : ℝ) (x : TT ℝ) : R (TT ℝ) := do
  let o ← onesLike x
  let c ← multiplyScalar o mean
  add x c

/-- The entries of a random tensor of shape `s` are square integrable, have mean `m` and variance `v`, and are pairwise uncorrelated. -/
def NoiseAround {Ω : Type} [MeasurableSpace Ω] (μ : Measure Ω) (F : Ω → List ℕ → ℝ) (s : List ℕ) (m v : ℝ) : Prop :=
  ∀ i, Valid s i → MemLp (fun ω => F ω i) 2 μ ∧ ∫ ω, F ω i ∂μ = m ∧
    ∀ j, Valid s j → ∫ ω, (F ω i - m) * (F ω j - m) ∂μ = if i = j then v else 0

/-- The summand `mean * ones_like(x)`. -/
theorem meanOnes_spec (mean : ℝ) (x : TT ℝ) (hx : x.WF) (h2 : 2 ≤ x.ndims) (hp : ∀ row ∈ x.rawShape, ∀ n ∈ row, 0 < n) :
    ∃ o c C, onesLike x = Except.ok o ∧ multiplyScalar o mean = Except.ok c ∧ c.WF ∧ c.batch = none ∧ c.rawShape = x.rawShape ∧
      (∀ r ∈ c.ttRanks, r = 1) ∧ full c = Except.ok C ∧
      C.shape = (if x.isMatrix then x.rawShape.map List.prod else x.rawShape.headD []) ∧ ∀ i, Valid C.shape i → C.get i = mean := by
  obtain ⟨o, F, e, w, b, r, rk, eF, sF, vF⟩ := (C24_like x hx h2 hp).1
  obtain ⟨c, A, C, ec, wc, rc, rkc, bc, eA, eC, sC, vC⟩ := C08_multiply_scalar o w mean
  rw [eF] at eA
  cases eA
  refine ⟨o, c, C, e, ec, wc, bc.trans b, rc.trans r, fun q hq => rk q (rkc ▸ hq), eC, sC.trans sF, fun i hi => ?_⟩
  rw [vC i (sC ▸ hi), vF i (sC ▸ hi), mul_one]

/-- **C82.** For every `TensorTrain` with at least two dimensions the recipe adds `mean` to every entry of the dense form, and every inner TT-rank grows by one. -/
theorem C82_recipe (mean : ℝ) (x : TT ℝ) (hx : x.WF) (hb : x.batch = none) (h2 : 2 ≤ x.ndims)
    (hp : ∀ row ∈ x.rawShape, ∀ n ∈ row, 0 < n) :
    ∃ c X C, recipeMean mean x = Except.ok c ∧ c.WF ∧ c.batch = none ∧ c.rawShape = x.rawShape ∧ full x = Except.ok X ∧ full c = Except.ok C ∧
      C.shape = X.shape ∧ (∀ i, Valid X.shape i → C.get i = mean + X.get i) ∧
      c.ttRanks.length = x.ndims + 1 ∧ c.rank 0 = 1 ∧ c.rank x.ndims = 1 ∧ ∀ k, 1 ≤ k → k < x.ndims → c.rank k = x.rank k + 1 := by
  obtain ⟨o, c, C, eo, ec, wc, bc, rc, rk1, eC, sC, vC⟩ := meanOnes_spec mean x hx h2 hp
  have hnd : c.ndims = x.ndims := by
    obtain ⟨row, hrow⟩ : ∃ row, row ∈ x.rawShape := by
      rcases hx.rows with h | h
      · exact List.exists_mem_of_length_pos (by omega)
      · exact List.exists_mem_of_length_pos (by omega)
    rw [← wc.rows_len row (rc ▸ hrow), ← hx.rows_len row hrow]
  obtain ⟨s, A, B, S, es, eA, eB, eS, s1, s2, v⟩ := C04_add_entries c x wc hx (by omega) rc bc hb
  obtain ⟨s', A', B', C', S', es', ws, rs, -, -, -, -, -, l, r0, rd, rk⟩ := C04_add c x wc hx (by omega) rc (Or.inl ⟨bc, hb⟩)
  rw [es] at es'
  cases es'
  rw [eC] at eA
  cases eA
  have hbs : s.batch = none := by
    obtain ⟨s'', e'', -, -, bt, -⟩ := add_spec wc hx (by omega) rc (Or.inl ⟨bc, hb⟩)
    rw [es] at e''
    cases e''
    exact (bshape_bcast bt).trans (by rw [bc, hb]; rfl)
  refine ⟨s, B, S, ?_, ws, hbs, rs.trans rc, eB, eS, s2, fun i hi => ?_, by rw [l, hnd], r0, by rw [← hnd]; exact rd, fun k hk hk' => ?_⟩
  · simp only [recipeMean, eo, ec, R.ok_bind, es]
  · rw [v i (s2 ▸ hi), vC i (s1 ▸ s2 ▸ hi)]
  · rw [rk k hk (by omega), add_comm]
    congr 1
    have hl := wc.ranks_len
    have : k < c.ttRanks.length := by omega
    unfold TT.rank
    rw [List.getD_eq_getElem _ _ this]
    exact rk1 _ (List.getElem_mem this)

/-- **C82, finding.** For every `TensorTrainBatch` the recipe of the documentation of `random_tensor_batch` and `random_matrix_batch` raises ValueError:
`ones_like` of a batch is a single object, and the sum of a single object and a batch is not supported. -/
theorem C82_batch_fails (mean : ℝ) (x : TT ℝ) (hx : x.WF) (h2 : 2 ≤ x.ndims) (hp : ∀ row ∈ x.rawShape, ∀ n ∈ row, 0 < n)
    (n : ℕ) (hb : x.batch = some n) : recipeMean mean x = Except.error Err.value := by
  obtain ⟨o, c, C, eo, ec, wc, bc, rc, rk1, eC, sC, vC⟩ := meanOnes_spec mean x hx h2 hp
  simp only [recipeMean, eo, ec, R.ok_bind]
  exact C05_add_broken_broadcast c x (Or.inl ⟨bc, n, hb⟩)

/-- **C82.** With the operands in the other order the sum works for batches, except for batches of size one. -/
theorem C82_batch_swapped (mean : ℝ) (x : TT ℝ) (hx : x.WF) (h2 : 2 ≤ x.ndims) (hp : ∀ row ∈ x.rawShape, ∀ n ∈ row, 0 < n)
    (n : ℕ) (hb : x.batch = some n) :
    (n = 1 → recipeMeanSwapped mean x = Except.error Err.value) ∧
    (n ≠ 1 → ∃ c X C, recipeMeanSwapped mean x = Except.ok c ∧ c.WF ∧ c.batch = some n ∧ c.rawShape = x.rawShape ∧ full x = Except.ok X ∧
      full c = Except.ok C ∧ C.shape = X.shape ∧ (∀ i, Valid X.shape i → C.get i = mean + X.get i) ∧
      ∀ k, 1 ≤ k → k < x.ndims → c.rank k = x.rank k + 1) := by
  obtain ⟨o, c, C, eo, ec, wc, bc, rc, rk1, eC, sC, vC⟩ := meanOnes_spec mean x hx h2 hp
  refine ⟨fun h1 => ?_, fun h1 => ?_⟩
  · subst h1
    simp only [recipeMeanSwapped, eo, ec, R.ok_bind]
    exact C05_add_broken_broadcast x c (Or.inr ⟨hb, bc⟩)
  · have hB : AddBatches x.batch c.batch := Or.inr (Or.inr (Or.inr (Or.inr ⟨n, h1, hb, bc⟩)))
    obtain ⟨s, X, B, S, T, es, ws, rs, eX, eB, eS, eT, eqv, l, r0, rd, rk⟩ := C04_add x c hx wc h2 rc.symm hB
    rw [eC] at eB
    cases eB
    have hbs : s.batch = some n := by
      obtain ⟨s'', e'', -, -, bt, -⟩ := add_spec hx wc h2 rc.symm hB
      rw [es] at e''
      cases e''
      exact (bshape_bcast bt).trans (by rw [bc, hb]; rfl)
    obtain ⟨X', eX', sX⟩ := full_dense hx
    rw [eX] at eX'
    cases eX'
    have hX : X.shape = n :: C.shape := by
      rw [sX.1, sC]
      change x.denseShape = _
      rw [denseShape_eq]
      simp only [TT.bpre, hb]
      rfl
    obtain ⟨T', eT', sT, vT⟩ := binop_ok (· + ·) X C X.shape (by
      rw [hX, List.reverse_cons]
      have := bshape_append C.shape.reverse [n] []
      simpa [bshape] using this)
    rw [eT] at eT'
    cases eT'
    refine ⟨s, X, S, ?_, ws, hbs, rs, eX, eS, eqv.1.trans sT, fun i hi => ?_, fun k hk hk' => ?_⟩
    · simp only [recipeMeanSwapped, eo, ec, R.ok_bind, es]
    · rw [eqv.2 i (by rw [eqv.1, sT]; exact hi), vT, bproj_valid hi, add_comm]
      congr 1
      apply vC
      rw [hX] at hi
      obtain ⟨j, i', rfl, hj, hi'⟩ := (valid_cons_iff _ _ _).1 hi
      have := bproj_append (pa := []) (p := [j]) (by simp) hi'
      rw [List.nil_append, List.singleton_append] at this
      rw [this]
      simpa [bproj] using hi'
    · rw [rk k hk hk']
      congr 1
      have hl := wc.ranks_len
      have hnd : c.ndims = x.ndims := by
        obtain ⟨row, hrow⟩ : ∃ row, row ∈ x.rawShape := by
          rcases hx.rows with h | h
          · exact List.exists_mem_of_length_pos (by omega)
          · exact List.exists_mem_of_length_pos (by omega)
        rw [← wc.rows_len row (rc ▸ hrow), ← hx.rows_len row hrow]
      have : k < c.ttRanks.length := by omega
      unfold TT.rank
      rw [List.getD_eq_getElem _ _ this]
      exact rk1 _ (List.getElem_mem this)

/-- A constant added to white noise. -/
theorem noiseAround_of_white {Ω : Type} [MeasurableSpace Ω] {μ : Measure Ω} [IsProbabilityMeasure μ] {F G : Ω → List ℕ → ℝ} {s : List ℕ} {v : ℝ}
    (m : ℝ) (h : WhiteNoise μ F s v) (hG : ∀ ω i, Valid s i → G ω i = m + F ω i) : NoiseAround μ G s m v := by
  intro i hi
  obtain ⟨h1, h2, h3⟩ := h i hi
  have e : (fun ω => G ω i) = fun ω => m + F ω i := funext fun ω => hG ω i hi
  refine ⟨?_, ?_, fun j hj => ?_⟩
  · rw [e]
    exact (memLp_const m).add h1
  · rw [e, integral_add (integrable_const m) (h1.integrable (by norm_num)), h2]
    simp
  · rw [← h3 j hj]
    congr 1
    funext ω
    rw [hG ω i hi, hG ω j hj]
    ring

variable {Ω : Type} [MeasurableSpace Ω] {μ : Measure Ω} [IsProbabilityMeasure μ] {z : Ω → ℕ → List ℕ → ℝ}

/-- **C82.** `random_tensor` followed by the recipe: the entries have the given mean and standard deviation and are uncorrelated, and the inner TT-ranks are those
passed to `random_tensor` plus one. -/
theorem C82_tensor (h : StandardDraws μ z) (shape : List ℤ) (h2 : 2 ≤ shape.length) (hpos : ∀ n ∈ shape, 1 ≤ n)
    (rank : RankArg) (hr : GoodRank shape.length rank) (mean sd : ℝ) (hs : 0 ≤ sd) :
    ∃ (c : Ω → TT ℝ) (F : Ω → Tensor ℝ),
      (∀ ω, (randomTensor (z ω) shape rank 0 sd >>= recipeMean mean) = Except.ok (c ω) ∧ (c ω).WF ∧
        (c ω).rawShape = [shape.map Int.toNat] ∧ (c ω).batch = none ∧
        (∀ k, 1 ≤ k → k < shape.length → (c ω).rank k = (usedRanks shape.length rank).getD k 0 + 1) ∧
        full (c ω) = Except.ok (F ω) ∧ (F ω).shape = shape.map Int.toNat) ∧
      NoiseAround μ (fun ω => (F ω).get) (shape.map Int.toNat) mean (sd ^ 2) := by
  obtain ⟨t, X, ht, hX⟩ := C26_tensor h shape h2 hpos rank hr 0 sd (by norm_num) hs
  have hnd : ∀ ω, (t ω).ndims = shape.length := by
    intro ω
    have := (ht ω).2.1.rows_len (shape.map Int.toNat) (by simp [(ht ω).2.2.1])
    rw [← this, List.length_map]
  have key := fun ω => C82_recipe mean (t ω) (ht ω).2.1 (ht ω).2.2.2.1 (by rw [hnd]; exact h2) (by
    intro row hrow n hn
    rw [(ht ω).2.2.1, List.mem_singleton] at hrow
    subst hrow
    obtain ⟨m, hm, rfl⟩ := List.mem_map.1 hn
    have := hpos m hm
    omega)
  choose c X' F h1 h2' h3 h4 h5 h6 h7 h8 h9 h10 h11 h12 using key
  have hXX : ∀ ω, X' ω = X ω := fun ω => Except.ok.inj ((h5 ω).symm.trans (ht ω).2.2.2.2.2.1)
  refine ⟨c, F, fun ω => ⟨?_, h2' ω, (h4 ω).trans (ht ω).2.2.1, h3 ω, fun k hk hk' => ?_, h6 ω, ?_⟩, noiseAround_of_white mean hX fun ω i hi => ?_⟩
  · rw [(ht ω).1, R.ok_bind, h1]
  · rw [h12 ω k hk (by rw [hnd]; exact hk'), TT.rank, (ht ω).2.2.2.2.1]
  · rw [h7, hXX, (ht ω).2.2.2.2.2.2]
  · rw [h8 ω i (by rw [hXX, (ht ω).2.2.2.2.2.2]; exact hi), hXX]

/-- **C82.** The same for `random_matrix`. -/
theorem C82_matrix (h : StandardDraws μ z) (a b : List ℤ) (h2 : 2 ≤ a.length) (hl : a.length = b.length)
    (ha : ∀ n ∈ a, 1 ≤ n) (hb : ∀ n ∈ b, 1 ≤ n) (rank : RankArg) (hr : GoodRank a.length rank) (mean sd : ℝ) (hs : 0 ≤ sd) :
    ∃ (c : Ω → TT ℝ) (F : Ω → Tensor ℝ),
      (∀ ω, (randomMatrix (z ω) (some a) (some b) rank 0 sd >>= recipeMean mean) = Except.ok (c ω) ∧ (c ω).WF ∧
        (c ω).rawShape = [a.map Int.toNat, b.map Int.toNat] ∧ (c ω).batch = none ∧
        (∀ k, 1 ≤ k → k < a.length → (c ω).rank k = (usedRanks a.length rank).getD k 0 + 1) ∧
        full (c ω) = Except.ok (F ω) ∧ (F ω).shape = [(a.map Int.toNat).prod, (b.map Int.toNat).prod]) ∧
      NoiseAround μ (fun ω => (F ω).get) [(a.map Int.toNat).prod, (b.map Int.toNat).prod] mean (sd ^ 2) := by
  obtain ⟨t, X, ht, hX⟩ := C26_matrix h a b h2 hl ha hb rank hr 0 sd (by norm_num) hs
  have hnd : ∀ ω, (t ω).ndims = a.length := by
    intro ω
    have := (ht ω).2.1.rows_len (a.map Int.toNat) (by simp [(ht ω).2.2.1])
    rw [← this, List.length_map]
  have key := fun ω => C82_recipe mean (t ω) (ht ω).2.1 (ht ω).2.2.2.1 (by rw [hnd]; exact h2) (by
    intro row hrow n hn
    rw [(ht ω).2.2.1] at hrow
    simp only [List.mem_cons, List.not_mem_nil, or_false] at hrow
    rcases hrow with rfl | rfl
    · obtain ⟨m, hm, rfl⟩ := List.mem_map.1 hn
      have := ha m hm
      omega
    · obtain ⟨m, hm, rfl⟩ := List.mem_map.1 hn
      have := hb m hm
      omega)
  choose c X' F h1 h2' h3 h4 h5 h6 h7 h8 h9 h10 h11 h12 using key
  have hXX : ∀ ω, X' ω = X ω := fun ω => Except.ok.inj ((h5 ω).symm.trans (ht ω).2.2.2.2.2.1)
  refine ⟨c, F, fun ω => ⟨?_, h2' ω, (h4 ω).trans (ht ω).2.2.1, h3 ω, fun k hk hk' => ?_, h6 ω, ?_⟩, noiseAround_of_white mean hX fun ω i hi => ?_⟩
  · rw [(ht ω).1, R.ok_bind, h1]
  · rw [h12 ω k hk (by rw [hnd]; exact hk'), TT.rank, (ht ω).2.2.2.2.1]
  · rw [h7, hXX, (ht ω).2.2.2.2.2.2]
  · rw [h8 ω i (by rw [hXX, (ht ω).2.2.2.2.2.2]; exact hi), hXX]

/-- **C82, finding.** `random_tensor_batch` and `random_matrix_batch` followed by the documented recipe raise ValueError, whatever the draws are. -/
theorem C82_random_batch_fails (h : StandardDraws μ z) (shape : List ℤ) (h2 : 2 ≤ shape.length) (hpos : ∀ n ∈ shape, 1 ≤ n) (cols : List ℤ)
    (hl : shape.length = cols.length) (hcol : ∀ n ∈ cols, 1 ≤ n)
    (rank : RankArg) (hr : GoodRank shape.length rank) (bs : ℤ) (hbs : 1 ≤ bs) (mean sd : ℝ) (hs : 0 ≤ sd) (ω : Ω) :
    (randomTensorBatch (z ω) shape rank bs 0 sd >>= recipeMean mean) = Except.error Err.value ∧
    (randomMatrixBatch (z ω) (some shape) (some cols) rank bs 0 sd >>= recipeMean mean) = Except.error Err.value := by
  have hpos' : ∀ l : List ℤ, (∀ n ∈ l, 1 ≤ n) → ∀ n ∈ l.map Int.toNat, 0 < n := by
    intro l hl n hn
    obtain ⟨m, hm, rfl⟩ := List.mem_map.1 hn
    have := hl m hm
    omega
  constructor
  · obtain ⟨t, X, ht, hX⟩ := C26_tensor_batch h shape h2 hpos rank hr bs hbs 0 sd (by norm_num) hs
    have := (ht ω).2.1.rows_len (shape.map Int.toNat) (by simp [(ht ω).2.2.1])
    rw [List.length_map] at this
    rw [(ht ω).1, R.ok_bind]
    refine C82_batch_fails mean (t ω) (ht ω).2.1 (by omega) ?_ _ (ht ω).2.2.2.1
    rw [(ht ω).2.2.1]
    simpa using hpos' shape hpos
  · obtain ⟨t, X, ht, hX⟩ := C26_matrix_batch h shape cols h2 hl hpos hcol rank hr bs hbs 0 sd (by norm_num) hs
    have := (ht ω).2.1.rows_len (shape.map Int.toNat) (by simp [(ht ω).2.2.1])
    rw [List.length_map] at this
    rw [(ht ω).1, R.ok_bind]
    refine C82_batch_fails mean (t ω) (ht ω).2.1 (by omega) ?_ _ (ht ω).2.2.2.1
    rw [(ht ω).2.2.1]
    intro row hrow
    simp only [List.mem_cons, List.not_mem_nil, or_false] at hrow
    rcases hrow with rfl | rfl
    · exact hpos' shape hpos
    · exact hpos' cols hcol

/-- The hypotheses can be met: random 2 x 3 x 4 tensors with mean 7, standard deviation 3 and TT-rank 6. -/
example : ∃ (Ω : Type) (_ : MeasurableSpace Ω) (μ : Measure Ω) (_ : IsProbabilityMeasure μ) (c : Ω → TT ℝ) (F : Ω → Tensor ℝ),
    (∀ ω, full (c ω) = Except.ok (F ω) ∧ (c ω).rank 1 = 6) ∧ NoiseAround μ (fun ω => (F ω).get) [2, 3, 4] 7 9 := by
  obtain ⟨Ω, mΩ, μ, hμ, z, h⟩ := standardDraws_exist
  obtain ⟨c, F, h1, h2⟩ := C82_tensor h [2, 3, 4] (by decide) (by decide) (.num 5) (by decide) 7 3 (by norm_num)
  exact ⟨Ω, mΩ, μ, hμ, c, F, fun ω => ⟨(h1 ω).2.2.2.2.2.1, (h1 ω).2.2.2.2.1 1 le_rfl (by decide)⟩, by norm_num at h2; exact h2⟩

/-- A batch for which the documented sum fails and the swapped sum works. -/
example : ∃ x : TT ℝ, x.batch = some 4 ∧ x.rawShape = [[2, 3]] ∧ recipeMean 7 x = Except.error Err.value ∧ ∃ c, recipeMeanSwapped 7 x = Except.ok c := by
  obtain ⟨Ω, mΩ, μ, hμ, z, h⟩ := standardDraws_exist
  obtain ⟨t, X, ht, -⟩ := C26_tensor_batch h [2, 3] (by decide) (by decide) (.num 2) (by decide) 4 (by decide) 0 1 (by norm_num) (by norm_num)
  obtain ⟨ω⟩ : Nonempty Ω := nonempty_of_isProbabilityMeasure μ
  obtain ⟨-, w, r, b, -⟩ := ht ω
  have hn := w.rows_len [2, 3] (by rw [r]; simp)
  have hp : ∀ row ∈ (t ω).rawShape, ∀ n ∈ row, 0 < n := by rw [r]; decide
  obtain ⟨c, -, -, e, -⟩ := (C82_batch_swapped 7 (t ω) w (by simp at hn; omega) hp 4 b).2 (by decide)
  exact ⟨t ω, b, r, C82_batch_fails 7 (t ω) w (by simp at hn; omega) hp 4 b, c, e⟩

end T3f
