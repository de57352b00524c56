import Verif.Proofs.IntSize
import Verif.Proofs.RandomTT
import Verif.Spec.Draws
import Mathlib.Probability.HasLawExists
import Mathlib.Probability.Distributions.Gaussian.Real

/-!
# C26: scaling of the random initializers

The draws of `tf.random.normal` are independent with mean zero and variance one (`StandardDraws`). `WhiteNoise` of
`Verif/Spec/Draws.lean` says: mean zero, the given variance, different entries uncorrelated.
-/

namespace T3f

open MeasureTheory ProbabilityTheory

variable {Ω : Type} [MeasurableSpace Ω] {μ : Measure Ω} [IsProbabilityMeasure μ] {z : Ω → ℕ → List ℕ → ℝ}

/-- **C26.** The dense value of `random_tensor` has uncorrelated entries with mean zero and variance `stddev²`. -/
theorem C26_tensor (h : StandardDraws μ z) (shape : List ℤ) (h2 : 2 ≤ shape.length) (hpos : ∀ n ∈ shape, 1 ≤ n)
    (rank : RankArg) (hr : GoodRank shape.length rank) (mean sd : ℝ) (hm : |mean| < 1e-8) (hs : 0 ≤ sd) :
    ∃ (t : Ω → TT ℝ) (F : Ω → Tensor ℝ),
      (∀ ω, randomTensor (z ω) shape rank mean sd = Except.ok (t ω) ∧ (t ω).WF ∧ (t ω).rawShape = [shape.map Int.toNat] ∧
        (t ω).batch = none ∧ (t ω).ttRanks = usedRanks shape.length rank ∧
        full (t ω) = Except.ok (F ω) ∧ (F ω).shape = shape.map Int.toNat) ∧
      WhiteNoise μ (fun ω => (F ω).get) (shape.map Int.toNat) (sd ^ 2) := by
  have hd : 0 < shape.length := by omega
  obtain ⟨l, e1, e2, e3⟩ := goodRank_list hd hr
  have hspec := fun ω => (tensorInit_spec (fun i => randomNormal 0 (coreStddev shape.length l sd) (z ω i)) (fun _ _ => rfl) shape h2
    none (.list l)).1 ⟨hpos, by simp, e3⟩
  obtain ⟨F, hF, hW⟩ := scaled_moments h hs hd (rows := [shape.map Int.toNat]) (bs := none) (by simp) (by simp) e3 (by simp)
    fun ω => (hspec ω).2
  refine ⟨fun ω => filled (fun i => randomNormal 0 (coreStddev shape.length l sd) (z ω i)) none [shape.map Int.toNat]
    (l.map Int.toNat) shape.length, F, fun ω => ⟨?_, (hspec ω).2, rfl, rfl, e2, (hF ω).1, (hF ω).2⟩, hW⟩
  have hv : validateTensor shape none (some rank) = Except.ok () := by
    rw [validateTensor, require_bind_ok _ hpos, validateRest_ok hd (by simp) ((goodRank_iff hd _).1 hr).1]
  have := (hspec ω).1
  simp only [randomTensor, hv, e1, R.ok_bind]
  have e : tensorWithRandomCores (z ω) shape (.list l) 0 (coreStddev shape.length l sd) = _ := this
  rw [e, R.ok_bind, checkMean_ok hm]
  rfl

/-- **C26.** The same for `random_tensor_batch`: also entries of different batch elements are uncorrelated. -/
theorem C26_tensor_batch (h : StandardDraws μ z) (shape : List ℤ) (h2 : 2 ≤ shape.length) (hpos : ∀ n ∈ shape, 1 ≤ n)
    (rank : RankArg) (hr : GoodRank shape.length rank) (bs : ℤ) (hb : 1 ≤ bs) (mean sd : ℝ) (hm : |mean| < 1e-8) (hs : 0 ≤ sd) :
    ∃ (t : Ω → TT ℝ) (F : Ω → Tensor ℝ),
      (∀ ω, randomTensorBatch (z ω) shape rank bs mean sd = Except.ok (t ω) ∧ (t ω).WF ∧ (t ω).rawShape = [shape.map Int.toNat] ∧
        (t ω).batch = some bs.toNat ∧ (t ω).ttRanks = usedRanks shape.length rank ∧
        full (t ω) = Except.ok (F ω) ∧ (F ω).shape = bs.toNat :: shape.map Int.toNat) ∧
      WhiteNoise μ (fun ω => (F ω).get) (bs.toNat :: shape.map Int.toNat) (sd ^ 2) := by
  have hd : 0 < shape.length := by omega
  obtain ⟨l, e1, e2, e3⟩ := goodRank_list hd hr
  have hspec := fun ω => (tensorInit_spec (fun i => randomNormal 0 (coreStddev shape.length l sd) (z ω i)) (fun _ _ => rfl) shape h2
    (some bs) (.list l)).1 ⟨hpos, by simpa using hb, e3⟩
  obtain ⟨F, hF, hW⟩ := scaled_moments h hs hd (rows := [shape.map Int.toNat]) (bs := some bs.toNat) (by simp) (by simp) e3
    (by simp; omega) fun ω => (hspec ω).2
  refine ⟨fun ω => filled (fun i => randomNormal 0 (coreStddev shape.length l sd) (z ω i)) (some bs.toNat) [shape.map Int.toNat]
    (l.map Int.toNat) shape.length, F, fun ω => ⟨?_, (hspec ω).2, rfl, rfl, e2, (hF ω).1, (hF ω).2⟩, hW⟩
  have hv : validateTensor shape (some bs) (some rank) = Except.ok () := by
    rw [validateTensor, require_bind_ok _ hpos, validateRest_ok hd (by simpa using hb) ((goodRank_iff hd _).1 hr).1]
  have := (hspec ω).1
  simp only [randomTensorBatch, hv, e1, R.ok_bind]
  have e : tensorBatchWithRandomCores (z ω) shape (.list l) bs 0 (coreStddev shape.length l sd) = _ := this
  rw [e, R.ok_bind, checkMean_ok hm]
  rfl

/-- **C26.** The same for `random_matrix`. -/
theorem C26_matrix (h : StandardDraws μ z) (a b : List ℤ) (h2 : 2 ≤ a.length) (hl : a.length = b.length)
    (ha : ∀ n ∈ a, 1 ≤ n) (hb : ∀ n ∈ b, 1 ≤ n)
    (rank : RankArg) (hr : GoodRank a.length rank) (mean sd : ℝ) (hm : |mean| < 1e-8) (hs : 0 ≤ sd) :
    ∃ (t : Ω → TT ℝ) (F : Ω → Tensor ℝ),
      (∀ ω, randomMatrix (z ω) (some a) (some b) rank mean sd = Except.ok (t ω) ∧ (t ω).WF ∧
        (t ω).rawShape = [a.map Int.toNat, b.map Int.toNat] ∧ (t ω).batch = none ∧ (t ω).ttRanks = usedRanks a.length rank ∧
        full (t ω) = Except.ok (F ω) ∧ (F ω).shape = [(a.map Int.toNat).prod, (b.map Int.toNat).prod]) ∧
      WhiteNoise μ (fun ω => (F ω).get) [(a.map Int.toNat).prod, (b.map Int.toNat).prod] (sd ^ 2) := by
  have hd : 0 < a.length := by omega
  obtain ⟨l, e1, e2, e3⟩ := goodRank_list hd hr
  have hpos : ∀ n ∈ a ++ b, 1 ≤ n := fun n hn => (List.mem_append.1 hn).elim (ha n) (hb n)
  have hspec := fun ω => (matrixInit_spec (fun i => randomNormal 0 (coreStddev a.length l sd) (z ω i)) (fun _ _ => rfl) a b h2
    none (.list l)).1 ⟨hl, hpos, by simp, e3⟩
  obtain ⟨F, hF, hW⟩ := scaled_moments h hs hd (rows := [a.map Int.toNat, b.map Int.toNat]) (bs := none) (by simp)
    (by simp [hl]) e3 (by simp) fun ω => (hspec ω).2
  refine ⟨fun ω => filled (fun i => randomNormal 0 (coreStddev a.length l sd) (z ω i)) none [a.map Int.toNat, b.map Int.toNat]
    (l.map Int.toNat) a.length, F, fun ω => ⟨?_, (hspec ω).2, rfl, rfl, e2, (hF ω).1, (hF ω).2⟩, hW⟩
  have hv : validateMatrix a b none (some rank) = Except.ok () := by
    rw [validateMatrix, require_bind_ok _ hl, require_bind_ok _ hpos, validateRest_ok hd (by simp) ((goodRank_iff hd _).1 hr).1]
  have := (hspec ω).1
  simp only [randomMatrix, fillShape, R.pure_eq, hv, e1, R.ok_bind]
  have e : matrixWithRandomCores (z ω) (some a) (some b) (.list l) 0 (coreStddev a.length l sd) = _ := this
  rw [e, R.ok_bind, checkMean_ok hm]
  rfl

/-- **C26.** The same for `random_matrix_batch`. -/
theorem C26_matrix_batch (h : StandardDraws μ z) (a b : List ℤ) (h2 : 2 ≤ a.length) (hl : a.length = b.length)
    (ha : ∀ n ∈ a, 1 ≤ n) (hb : ∀ n ∈ b, 1 ≤ n)
    (rank : RankArg) (hr : GoodRank a.length rank) (bs : ℤ) (hbs : 1 ≤ bs) (mean sd : ℝ) (hm : |mean| < 1e-8) (hs : 0 ≤ sd) :
    ∃ (t : Ω → TT ℝ) (F : Ω → Tensor ℝ),
      (∀ ω, randomMatrixBatch (z ω) (some a) (some b) rank bs mean sd = Except.ok (t ω) ∧ (t ω).WF ∧
        (t ω).rawShape = [a.map Int.toNat, b.map Int.toNat] ∧ (t ω).batch = some bs.toNat ∧
        (t ω).ttRanks = usedRanks a.length rank ∧
        full (t ω) = Except.ok (F ω) ∧ (F ω).shape = [bs.toNat, (a.map Int.toNat).prod, (b.map Int.toNat).prod]) ∧
      WhiteNoise μ (fun ω => (F ω).get) [bs.toNat, (a.map Int.toNat).prod, (b.map Int.toNat).prod] (sd ^ 2) := by
  have hd : 0 < a.length := by omega
  obtain ⟨l, e1, e2, e3⟩ := goodRank_list hd hr
  have hpos : ∀ n ∈ a ++ b, 1 ≤ n := fun n hn => (List.mem_append.1 hn).elim (ha n) (hb n)
  have hspec := fun ω => (matrixInit_spec (fun i => randomNormal 0 (coreStddev a.length l sd) (z ω i)) (fun _ _ => rfl) a b h2
    (some bs) (.list l)).1 ⟨hl, hpos, by simpa using hbs, e3⟩
  obtain ⟨F, hF, hW⟩ := scaled_moments h hs hd (rows := [a.map Int.toNat, b.map Int.toNat]) (bs := some bs.toNat) (by simp)
    (by simp [hl]) e3 (by simp; omega) fun ω => (hspec ω).2
  refine ⟨fun ω => filled (fun i => randomNormal 0 (coreStddev a.length l sd) (z ω i)) (some bs.toNat)
    [a.map Int.toNat, b.map Int.toNat] (l.map Int.toNat) a.length, F,
    fun ω => ⟨?_, (hspec ω).2, rfl, rfl, e2, (hF ω).1, (hF ω).2⟩, hW⟩
  have hv : validateMatrix a b (some bs) (some rank) = Except.ok () := by
    rw [validateMatrix, require_bind_ok _ hl, require_bind_ok _ hpos,
      validateRest_ok hd (by simpa using hbs) ((goodRank_iff hd _).1 hr).1]
  have := (hspec ω).1
  simp only [randomMatrixBatch, fillShape, R.pure_eq, hv, e1, R.ok_bind]
  have e : matrixBatchWithRandomCores (z ω) (some a) (some b) (.list l) bs 0 (coreStddev a.length l sd) = _ := this
  rw [e, R.ok_bind, checkMean_ok hm]
  rfl

/-- The initializers for neural networks with `m` rows and `n` columns, for all sizes: `w` is congruent to the number from which the variance
is computed. -/
theorem nn_variance (h : StandardDraws μ z) (a b : List ℤ) (h2 : 2 ≤ a.length) (hl : a.length = b.length)
    (ha : ∀ n ∈ a, 1 ≤ n) (hb : ∀ n ∈ b, 1 ≤ n) (rank : RankArg) (hr : GoodRank a.length rank) :
    let m : ℕ := (a.map Int.toNat).prod
    let n : ℕ := (b.map Int.toNat).prod
    ∀ (init : (ℕ → List ℕ → ℝ) → Option (List ℤ) → Option (List ℤ) → RankArg → R (TT ℝ)) (v : ℝ) (w : ℤ), 0 ≤ w → w < 2 ^ 63 →
      (init = glorotInitializer ∧ w ≡ m + n [ZMOD 2 ^ 64] ∧ v = 2 / w) ∨ (init = heInitializer ∧ w ≡ m [ZMOD 2 ^ 64] ∧ v = 2 / w) ∨
        (init = lecunInitializer ∧ w ≡ m [ZMOD 2 ^ 64] ∧ v = 1 / w) →
    ∃ (t : Ω → TT ℝ) (F : Ω → Tensor ℝ),
      (∀ ω, init (z ω) (some a) (some b) rank = Except.ok (t ω) ∧ (t ω).WF ∧
        (t ω).rawShape = [a.map Int.toNat, b.map Int.toNat] ∧ (t ω).batch = none ∧ (t ω).ttRanks = usedRanks a.length rank ∧
        full (t ω) = Except.ok (F ω) ∧ (F ω).shape = [m, n]) ∧
      WhiteNoise μ (fun ω => (F ω).get) [m, n] v := by
  intro m n init v w hw0 hw1 hv
  have hd : 0 < a.length := by omega
  have hpos : ∀ n ∈ a ++ b, 1 ≤ n := fun n hn => (List.mem_append.1 hn).elim (ha n) (hb n)
  have hval : validateMatrix a b none (some rank) = Except.ok () := by
    rw [validateMatrix, require_bind_ok _ hl, require_bind_ok _ hpos, validateRest_ok hd (by simp) ((goodRank_iff hd _).1 hr).1]
  have hcast : ∀ l : List ℤ, (∀ n ∈ l, 1 ≤ n) → l.prod = (((l.map Int.toNat).prod : ℕ) : ℤ) := by
    intro l hl
    induction l with
    | nil => rfl
    | cons x l ih =>
      rw [List.prod_cons, List.map_cons, List.prod_cons, ih fun n hn => hl n (by simp [hn]), Nat.cast_mul,
        Int.toNat_of_nonneg (by have := hl x (by simp); omega)]
  have key : ∀ lamb : ℤ → ℤ → ℝ, 0 ≤ lamb (int64 m) (int64 n) → ∃ (t : Ω → TT ℝ) (F : Ω → Tensor ℝ),
      (∀ ω, nnInitializer lamb (z ω) (some a) (some b) rank = Except.ok (t ω) ∧ (t ω).WF ∧
        (t ω).rawShape = [a.map Int.toNat, b.map Int.toNat] ∧ (t ω).batch = none ∧ (t ω).ttRanks = usedRanks a.length rank ∧
        full (t ω) = Except.ok (F ω) ∧ (F ω).shape = [m, n]) ∧
      WhiteNoise μ (fun ω => (F ω).get) [m, n] (lamb (int64 m) (int64 n)) := by
    intro lamb hlamb
    obtain ⟨t, F, h1, h3⟩ := C26_matrix h a b h2 hl ha hb rank hr 0 (Real.sqrt (lamb (int64 m) (int64 n))) (by norm_num) (Real.sqrt_nonneg _)
    rw [Real.sq_sqrt hlamb] at h3
    refine ⟨t, F, fun ω => ⟨?_, (h1 ω).2⟩, h3⟩
    rw [← (h1 ω).1]
    simp only [nnInitializer, fillShape, R.pure_eq, R.ok_bind, hval, hcast a ha, hcast b hb]
    rfl
  have hwr : (0 : ℝ) ≤ (w : ℝ) := by exact_mod_cast hw0
  rcases hv with ⟨rfl, hw, rfl⟩ | ⟨rfl, hw, rfl⟩ | ⟨rfl, hw, rfl⟩
  · have e : int64 (int64 m + int64 n) = w := (int64_add _ _).trans (int64_eq (by omega) hw1 hw)
    have := key (fun nin nout => 2 / (int64 (nin + nout) : ℤ)) (by simp only [e]; positivity)
    simp only [e] at this
    exact this
  · have e : int64 m = w := int64_eq (by omega) hw1 hw
    have := key (fun nin _ => 2 / (nin : ℤ)) (by simp only [e]; positivity)
    simp only [e] at this
    exact this
  · have e : int64 m = w := int64_eq (by omega) hw1 hw
    have := key (fun nin _ => 1 / (nin : ℤ)) (by simp only [e]; positivity)
    simp only [e] at this
    exact this

/-- **C26.** The initializers for neural networks: with `m` rows and `n` columns the variance is `2 / (m + n)` for
`glorot_initializer`, `2 / m` for `he_initializer`, `1 / m` for `lecun_initializer`, if these sizes are below `2 ^ 63`. -/
theorem C26_nn (h : StandardDraws μ z) (a b : List ℤ) (h2 : 2 ≤ a.length) (hl : a.length = b.length)
    (ha : ∀ n ∈ a, 1 ≤ n) (hb : ∀ n ∈ b, 1 ≤ n) (rank : RankArg) (hr : GoodRank a.length rank) :
    let m : ℕ := (a.map Int.toNat).prod
    let n : ℕ := (b.map Int.toNat).prod
    ∀ (init : (ℕ → List ℕ → ℝ) → Option (List ℤ) → Option (List ℤ) → RankArg → R (TT ℝ)) (v : ℝ),
      (init = glorotInitializer ∧ m + n < 2 ^ 63 ∧ v = 2 / (m + n)) ∨ (init = heInitializer ∧ m < 2 ^ 63 ∧ v = 2 / m) ∨
        (init = lecunInitializer ∧ m < 2 ^ 63 ∧ v = 1 / m) →
    ∃ (t : Ω → TT ℝ) (F : Ω → Tensor ℝ),
      (∀ ω, init (z ω) (some a) (some b) rank = Except.ok (t ω) ∧ (t ω).WF ∧
        (t ω).rawShape = [a.map Int.toNat, b.map Int.toNat] ∧ (t ω).batch = none ∧ (t ω).ttRanks = usedRanks a.length rank ∧
        full (t ω) = Except.ok (F ω) ∧ (F ω).shape = [m, n]) ∧
      WhiteNoise μ (fun ω => (F ω).get) [m, n] v := by
  intro m n init v hv
  rcases hv with ⟨hi, hm, rfl⟩ | ⟨hi, hm, rfl⟩ | ⟨hi, hm, rfl⟩
  · exact nn_variance h a b h2 hl ha hb rank hr init _ ((m + n : ℕ) : ℤ) (by omega) (by omega)
      (Or.inl ⟨hi, by rw [Nat.cast_add], by push_cast; rfl⟩)
  · exact nn_variance h a b h2 hl ha hb rank hr init _ (m : ℤ) (by omega) (by omega) (Or.inr (Or.inl ⟨hi, rfl, by rw [Int.cast_natCast]⟩))
  · exact nn_variance h a b h2 hl ha hb rank hr init _ (m : ℤ) (by omega) (by omega) (Or.inr (Or.inr ⟨hi, rfl, by rw [Int.cast_natCast]⟩))

/-- **C26.** A mean of absolute value at least `1e-8` raises NotImplementedError for otherwise admissible arguments. -/
theorem C26_mean_tensor (z : ℕ → List ℕ → ℝ) (shape : List ℤ) (h2 : 2 ≤ shape.length) (hpos : ∀ n ∈ shape, 1 ≤ n)
    (rank : RankArg) (hr : GoodRank shape.length rank) (mean sd : ℝ) (hm : 1e-8 ≤ |mean|) (bs : ℤ) (hb : 1 ≤ bs) :
    randomTensor z shape rank mean sd = Except.error Err.notImpl ∧
    randomTensorBatch z shape rank bs mean sd = Except.error Err.notImpl := by
  have hd : 0 < shape.length := by omega
  obtain ⟨l, e1, e2, e3⟩ := goodRank_list hd hr
  have hsyn := ((goodRank_iff hd _).1 hr).1
  have hm' : ¬ |mean| < 1e-8 := not_lt.2 hm
  constructor
  · have := ((tensorInit_spec (fun i => randomNormal 0 (coreStddev shape.length l sd) (z i)) (fun _ _ => rfl) shape h2
      none (.list l)).1 ⟨hpos, by simp, e3⟩).1
    have e : tensorWithRandomCores z shape (.list l) 0 (coreStddev shape.length l sd) = _ := this
    simp only [randomTensor, validateTensor, require_bind_ok _ hpos, validateRest_ok hd (show ∀ b ∈ (none : Option ℤ), 1 ≤ b by simp) hsyn,
      e1, R.ok_bind]
    rw [e, R.ok_bind, checkMean_error hm']
  · have hb' : ∀ b ∈ some bs, 1 ≤ b := by simpa using hb
    have := ((tensorInit_spec (fun i => randomNormal 0 (coreStddev shape.length l sd) (z i)) (fun _ _ => rfl) shape h2
      (some bs) (.list l)).1 ⟨hpos, hb', e3⟩).1
    have e : tensorBatchWithRandomCores z shape (.list l) bs 0 (coreStddev shape.length l sd) = _ := this
    simp only [randomTensorBatch, validateTensor, require_bind_ok _ hpos, validateRest_ok hd hb' hsyn, e1, R.ok_bind]
    rw [e, R.ok_bind, checkMean_error hm']

/-- **C26.** The same for TT-matrices. -/
theorem C26_mean_matrix (z : ℕ → List ℕ → ℝ) (a b : List ℤ) (h2 : 2 ≤ a.length) (hl : a.length = b.length)
    (ha : ∀ n ∈ a, 1 ≤ n) (hb : ∀ n ∈ b, 1 ≤ n)
    (rank : RankArg) (hr : GoodRank a.length rank) (mean sd : ℝ) (hm : 1e-8 ≤ |mean|) (bs : ℤ) (hbs : 1 ≤ bs) :
    randomMatrix z (some a) (some b) rank mean sd = Except.error Err.notImpl ∧
    randomMatrixBatch z (some a) (some b) rank bs mean sd = Except.error Err.notImpl := by
  have hd : 0 < a.length := by omega
  obtain ⟨l, e1, e2, e3⟩ := goodRank_list hd hr
  have hpos : ∀ n ∈ a ++ b, 1 ≤ n := fun n hn => (List.mem_append.1 hn).elim (ha n) (hb n)
  have hsyn := ((goodRank_iff hd _).1 hr).1
  have hm' : ¬ |mean| < 1e-8 := not_lt.2 hm
  have hv : ∀ bs : Option ℤ, (∀ b ∈ bs, 1 ≤ b) → validateMatrix a b bs (some rank) = Except.ok () := by
    intro bs hbs
    rw [validateMatrix, require_bind_ok _ hl, require_bind_ok _ hpos, validateRest_ok hd hbs hsyn]
  constructor
  · have := ((matrixInit_spec (fun i => randomNormal 0 (coreStddev a.length l sd) (z i)) (fun _ _ => rfl) a b h2
      none (.list l)).1 ⟨hl, hpos, by simp, e3⟩).1
    have e : matrixWithRandomCores z (some a) (some b) (.list l) 0 (coreStddev a.length l sd) = _ := this
    simp only [randomMatrix, fillShape, R.pure_eq, hv none (by simp), e1, R.ok_bind]
    rw [e, R.ok_bind, checkMean_error hm']
  · have hb' : ∀ b ∈ some bs, 1 ≤ b := by simpa using hbs
    have := ((matrixInit_spec (fun i => randomNormal 0 (coreStddev a.length l sd) (z i)) (fun _ _ => rfl) a b h2
      (some bs) (.list l)).1 ⟨hl, hpos, hb', e3⟩).1
    have e : matrixBatchWithRandomCores z (some a) (some b) (.list l) bs 0 (coreStddev a.length l sd) = _ := this
    simp only [randomMatrixBatch, fillShape, R.pure_eq, hv _ hb', e1, R.ok_bind]
    rw [e, R.ok_bind, checkMean_error hm']

/-- **C26, finding.** The documentation calls the entries i.i.d.; they are not independent. Already the four entries of a
random 2 x 2 tensor of TT-rank one are dependent. -/
theorem C26_not_independent (h : StandardDraws μ z) (sd : ℝ) (hs : 0 < sd) {t : Ω → TT ℝ} {F : Ω → Tensor ℝ}
    (ht : ∀ ω, randomTensor (z ω) [2, 2] (.num 1) 0 sd = Except.ok (t ω)) (hF : ∀ ω, full (t ω) = Except.ok (F ω)) :
    ¬ iIndepFun (fun (i : Fin 2 × Fin 2) ω => (F ω).get [i.1, i.2]) μ := by
  intro hind
  have hspec := fun ω => (tensorInit_spec (fun i => randomNormal 0 (coreStddev 2 [1, 1, 1] sd) (z ω i)) (fun _ _ => rfl) [2, 2]
    (by simp) none (.list [1, 1, 1])).1 ⟨by simp, by simp, by decide⟩
  have htω : ∀ ω, t ω = filled (fun i => randomNormal 0 (coreStddev 2 [1, 1, 1] sd) (z ω i)) none [[2, 2]] [1, 1, 1] 2 := by
    intro ω
    have e : tensorWithRandomCores (z ω) [2, 2] (.list [1, 1, 1]) 0 (coreStddev 2 [1, 1, 1] sd) = _ := (hspec ω).1
    have hv : validateTensor [2, 2] none (some (.num 1)) = Except.ok () := rfl
    have := ht ω
    simp only [randomTensor, hv, R.ok_bind, show expandRank [(2 : ℤ), 2].length (.num 1) = Except.ok [1, 1, 1] from rfl] at this
    have e' : tensorWithRandomCores (z ω) [2, 2] (.list [1, 1, 1]) 0 (coreStddev [(2 : ℤ), 2].length [1, 1, 1] sd) = _ := e
    rw [e', R.ok_bind, checkMean_ok (by norm_num)] at this
    exact (Except.ok.inj this).symm
  have hval : ∀ ω (x y : ℕ), x < 2 → y < 2 → (F ω).get [x, y] = (coreStddev 2 [1, 1, 1] sd * z ω 0 [0, x, 0]) *
      (coreStddev 2 [1, 1, 1] sd * z ω 1 [0, y, 0]) := by
    intro ω x y hx hy
    have hw := (hspec ω).2
    have e := hF ω
    rw [htω] at e
    obtain ⟨-, v⟩ := full_get hw e
    have := v [] [x, y] ((valid_nil_iff _).2 rfl) ((valid_pair _ _ _).2 ⟨x, y, rfl, hx, hy⟩)
    rw [List.nil_append] at this
    rw [this]
    change TT.entry (filled _ none [[2, 2]] [1, 1, 1] 2) [] _ = _
    rw [filled_entry (fun _ _ => rfl) (by simp) (by simp) (by simp) (by simp) (by simp) rfl rfl (by simp),
      lprod_rank_one_zero _ _ _ (by decide)]
    simp [Finset.prod_range_succ, randomNormal, filled, restModes, tIdx]
  obtain ⟨t', F', h1, hW⟩ := C26_tensor h [2, 2] (by simp) (by simp) (.num 1) (by decide) 0 sd (by norm_num) hs.le
  have hFF : F' = F := by
    funext ω
    have e1 := (h1 ω).1
    rw [ht ω] at e1
    have := (h1 ω).2.2.2.2.2.1
    rw [← Except.ok.inj e1, hF ω] at this
    exact (Except.ok.inj this).symm
  subst hFF
  set X : Fin 2 × Fin 2 → Ω → ℝ := fun i ω => (F' ω).get [i.1, i.2] with hX
  have hvalid : ∀ i : Fin 2 × Fin 2, Valid [2, 2] [(i.1 : ℕ), (i.2 : ℕ)] := fun i =>
    (valid_pair _ _ _).2 ⟨_, _, rfl, i.1.isLt, i.2.isLt⟩
  have hW' : ∀ i, MemLp (X i) 2 μ := fun i => (hW _ (hvalid i)).1
  have hdet : X (0, 0) * X (1, 1) = X (0, 1) * X (1, 0) := by
    funext ω
    simp only [Pi.mul_apply, hX]
    rw [hval ω _ _ (by simp) (by simp), hval ω _ _ (by simp) (by simp), hval ω _ _ (by simp) (by simp), hval ω _ _ (by simp) (by simp)]
    ring
  have hae : ∀ i, AEMeasurable (X i) μ := fun i => (hW' i).aestronglyMeasurable.aemeasurable
  have i1 : IndepFun (X (0, 0) * X (1, 1)) (X (0, 1) * X (1, 0)) μ :=
    hind.indepFun_mul_mul₀ hae _ _ _ _ (by decide) (by decide) (by decide) (by decide)
  have hm : ∀ i j, AEStronglyMeasurable (X i * X j) μ := fun i j => ((hae i).mul (hae j)).aestronglyMeasurable
  have e1 := i1.integral_mul_eq_mul_integral (hm _ _) (hm _ _)
  have e2 : ∫ ω, (X (0, 0) * X (1, 1)) ω ∂μ = 0 := by
    have := (hW _ (hvalid (0, 0))).2.2 _ (hvalid (1, 1))
    simpa [hX] using this
  rw [e2, zero_mul, ← hdet] at e1
  have i2 : IndepFun (fun ω => X (0, 0) ω ^ 2) (fun ω => X (1, 1) ω ^ 2) μ :=
    (hind.indepFun (show ((0, 0) : Fin 2 × Fin 2) ≠ (1, 1) by decide)).comp (φ := fun x => x ^ 2) (ψ := fun x => x ^ 2)
      (measurable_id.pow_const 2) (measurable_id.pow_const 2)
  have e3 := i2.integral_mul_eq_mul_integral ((hae _).pow_const 2).aestronglyMeasurable ((hae _).pow_const 2).aestronglyMeasurable
  have e4 : ∀ i, ∫ ω, X i ω ^ 2 ∂μ = sd ^ 2 := by
    intro i
    have := (hW _ (hvalid i)).2.2 _ (hvalid i)
    rw [if_pos rfl] at this
    simpa only [sq] using this
  rw [e4, e4] at e3
  have e5 : ((fun ω => X (0, 0) ω ^ 2) * fun ω => X (1, 1) ω ^ 2) = X (0, 0) * X (1, 1) * (X (0, 0) * X (1, 1)) := by
    funext ω
    simp only [Pi.mul_apply]
    ring
  rw [e5, e1] at e3
  have : 0 < sd ^ 2 * sd ^ 2 := by positivity
  linarith

/-- Independent standard normal draws exist. -/
theorem standardDraws_exist : ∃ (Ω : Type) (_ : MeasurableSpace Ω) (μ : Measure Ω) (_ : IsProbabilityMeasure μ)
    (z : Ω → ℕ → List ℕ → ℝ), StandardDraws μ z := by
  obtain ⟨Ω, mΩ, P, X, hX, hlaw, hind, hP⟩ := exists_iid (ℕ × List ℕ) (gaussianReal 0 1)
  refine ⟨Ω, mΩ, P, hP, fun ω k i => X (k, i) ω, fun k i => hX _, hind, fun k i => ?_, fun k i => ?_, fun k i => ?_⟩
  · have := memLp_id_gaussianReal' (μ := 0) (v := 1) 2 (by simp)
    rw [← (hlaw (k, i)).map_eq] at this
    exact this.comp_of_map (hX _).aemeasurable
  · rw [(hlaw (k, i)).integral_eq, integral_id_gaussianReal]
  · have h0 : ∫ ω, X (k, i) ω ∂P = 0 := by rw [(hlaw (k, i)).integral_eq, integral_id_gaussianReal]
    have hv : Var[X (k, i); P] = 1 := by rw [(hlaw (k, i)).variance_eq, variance_id_gaussianReal]; rfl
    rwa [variance_of_integral_eq_zero (hX _).aemeasurable h0] at hv

/-- The hypotheses of C26 can be met. -/
example : ∃ (Ω : Type) (_ : MeasurableSpace Ω) (μ : Measure Ω) (_ : IsProbabilityMeasure μ)
    (t : Ω → TT ℝ) (F : Ω → Tensor ℝ),
    (∀ ω, full (t ω) = Except.ok (F ω) ∧ (t ω).ttRanks = [1, 5, 5, 1]) ∧ WhiteNoise μ (fun ω => (F ω).get) [2, 3, 4] 9 := by
  obtain ⟨Ω, mΩ, μ, hμ, z, h⟩ := standardDraws_exist
  obtain ⟨t, F, h1, h2⟩ := C26_tensor h [2, 3, 4] (by decide) (by decide) (.num 5) (by decide) 0 3 (by norm_num) (by norm_num)
  exact ⟨Ω, mΩ, μ, hμ, t, F, fun ω => ⟨(h1 ω).2.2.2.2.2.1, (h1 ω).2.2.2.2.1⟩, by norm_num at h2; exact h2⟩

end T3f
