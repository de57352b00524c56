import Verif.Proofs.ConstInit
import Verif.Spec.Examples

/-!
# C24, C25: constant initializers, argument checks of the random initializers
-/

namespace T3f

variable {K : Type} [CommRing K]

/-! ## C24 -/

/-- The result `t` is a non-batch object with the given raw shape and ranks one, `full t` has shape `s` and the entries `v`. -/
def Constant (x : R (TT K)) (rows : List (List ℕ)) (s : List ℕ) (v : K) : Prop :=
  ∃ t F, x = Except.ok t ∧ t.WF ∧ t.batch = none ∧ t.rawShape = rows ∧ (∀ r ∈ t.ttRanks, r = 1) ∧ full t = Except.ok F ∧
    F.shape = s ∧ ∀ i, Valid F.shape i → F.get i = v

/-- **C24.** `tensor_ones`, `tensor_zeros`: all entries are one (zero). -/
theorem C24_tensor (shape : List ℤ) (h2 : 2 ≤ shape.length) (hp : ∀ n ∈ shape, 1 ≤ n) :
    Constant (tensorOnes shape) [shape.map Int.toNat] (shape.map Int.toNat) (1 : K) ∧
    Constant (tensorZeros shape) [shape.map Int.toNat] (shape.map Int.toNat) (0 : K) := by
  have key : ∀ c : K, Constant (tensorConst (fun s => ⟨s, fun _ => c⟩) shape) [shape.map Int.toNat] (shape.map Int.toNat)
      (c ^ (shape.map Int.toNat).length) := by
    intro c
    obtain ⟨t, F, e, h1, h2, h3, h4, h5, h6, h7⟩ := const_spec c (shape.map Int.toNat).length (by simp; omega) [shape.map Int.toNat]
      (Or.inl rfl) (by simp) (sh := .flat (shape.map Int.toNat)) (clean_flat (by simpa using h2))
    refine ⟨t, F, ?_, h1, h2, h3, fun r hr => List.eq_of_mem_replicate (h4 ▸ hr), h5, h6, h7⟩
    simp only [tensorConst, validateTensor, require_bind_ok _ hp]
    exact e
  refine ⟨?_, ?_⟩
  · have := key 1
    rwa [one_pow] at this
  · have := key 0
    rwa [zero_pow (by simp; rintro rfl; simp at h2)] at this

/-- **C24.** `matrix_ones`, `matrix_zeros`; an omitted row or column shape is all ones. -/
theorem C24_matrix (a b : Option (List ℤ)) (hab : a ≠ none ∨ b ≠ none)
    (h2 : 2 ≤ (fillWith a b).length) (hl : (fillWith a b).length = (fillWith b a).length)
    (ha : ∀ n ∈ fillWith a b, 1 ≤ n) (hb : ∀ n ∈ fillWith b a, 1 ≤ n) :
    let I := (fillWith a b).map Int.toNat
    let J := (fillWith b a).map Int.toNat
    Constant (matrixOnes a b) [I, J] [I.prod, J.prod] (1 : K) ∧
    Constant (matrixZeros a b) [I, J] [I.prod, J.prod] (0 : K) := by
  intro I J
  have hf : fillShape a b = Except.ok (fillWith a b, fillWith b a) := by
    rcases a with _ | a <;> rcases b with _ | b
    · simp at hab
    · simp [fillShape, fillWith, R.pure_eq]
    · simp [fillShape, fillWith, R.pure_eq]
    · rfl
  have key : ∀ c : K, Constant (matrixConst (fun s => ⟨s, fun _ => c⟩) a b) [I, J] [I.prod, J.prod]
      (c ^ (fillWith a b).length) := by
    intro c
    obtain ⟨t, F, e, h1, h2, h3, h4, h5, h6, h7⟩ := const_spec c (fillWith a b).length (by omega) [I, J]
      (Or.inr rfl) (by simp [I, J, hl]) (sh := .nested [I, J]) (clean_nested (by simpa [I] using h2) (by simpa [I, J] using hl))
    refine ⟨t, F, ?_, h1, h2, h3, fun r hr => List.eq_of_mem_replicate (h4 ▸ hr), h5, h6, h7⟩
    simp only [matrixConst, hf, R.ok_bind, validateMatrix, require_bind_ok _ hl,
      require_bind_ok _ (show ∀ n ∈ fillWith a b ++ fillWith b a, 1 ≤ n from fun n hn => (List.mem_append.1 hn).elim (ha n) (hb n))]
    exact e
  refine ⟨?_, ?_⟩
  · have := key 1
    rwa [one_pow] at this
  · have := key 0
    rwa [zero_pow (by omega)] at this

/-- **C24.** `eye` is the identity matrix. -/
theorem C24_eye (shape : List ℤ) (h2 : 2 ≤ shape.length) (hp : ∀ n ∈ shape, 1 ≤ n) :
    let s := shape.map Int.toNat
    ∃ (t : TT K) (F : Tensor K), eye shape = Except.ok t ∧ t.WF ∧ t.batch = none ∧ t.rawShape = [s, s] ∧
      (∀ r ∈ t.ttRanks, r = 1) ∧ full t = Except.ok F ∧ F.shape = [s.prod, s.prod] ∧
      ∀ x < s.prod, ∀ y < s.prod, F.get [x, y] = if x = y then 1 else 0 := by
  intro s
  obtain ⟨t, F, e, h1, h2, h3, h4, h5⟩ := eye_spec (K := K) s (by simpa [s] using h2) (toNat_pos hp)
  refine ⟨t, F, ?_, h1, h2, h3, fun r hr => List.eq_of_mem_replicate (h4 ▸ hr), h5⟩
  simp only [eye, validateTensor, require_bind_ok _ hp]
  exact e

/-- **C24.** `ones_like`, `zeros_like`: the shape of `t`, or of one element if `t` is a batch. -/
theorem C24_like (t : TT K) (h : t.WF) (h2 : 2 ≤ t.ndims) (hp : ∀ row ∈ t.rawShape, ∀ n ∈ row, 0 < n) :
    let s := if t.isMatrix then t.rawShape.map List.prod else t.rawShape.headD []
    Constant (onesLike t) t.rawShape s (1 : K) ∧ Constant (zerosLike t) t.rawShape s (0 : K) := by
  intro s
  have hcast : ∀ row : List ℕ, (row.map Int.ofNat).map Int.toNat = row := fun row => by
    rw [List.map_map]; simp [Function.comp_def]
  have hpos : ∀ row ∈ t.rawShape, ∀ n ∈ row.map Int.ofNat, 1 ≤ n := by
    intro row hrow n hn
    obtain ⟨m, hm, rfl⟩ := List.mem_map.1 hn
    have := hp row hrow m hm
    simp; omega
  rcases h.rows with h1 | h1
  · obtain ⟨row, hrow⟩ := List.length_eq_one_iff.1 h1
    have hm : ¬ t.isMatrix := by unfold TT.isMatrix; omega
    have hl : row.length = t.ndims := h.rows_len row (by simp [hrow])
    have := C24_tensor (K := K) (row.map Int.ofNat) (by simpa [hl] using h2) (hpos row (by simp [hrow]))
    rw [hcast] at this
    simp only [onesLike, zerosLike, constLike, s, if_neg hm, hrow, pyGet, List.getElem?_cons_zero, R.ok_bind]
    exact this
  · obtain ⟨row, row', hrow⟩ := List.length_eq_two.1 h1
    have hm : t.isMatrix := h1
    have hl : row.length = t.ndims := h.rows_len row (by simp [hrow])
    have hl' : row'.length = t.ndims := h.rows_len row' (by simp [hrow])
    have := C24_matrix (K := K) (some (row.map Int.ofNat)) (some (row'.map Int.ofNat)) (by simp) (by simpa [fillWith, hl] using h2)
      (by simp [fillWith, hl, hl']) (hpos row (by simp [hrow])) (hpos row' (by simp [hrow]))
    simp only [fillWith, hcast] at this
    simp only [onesLike, zerosLike, constLike, s, if_pos hm, hrow, pyGet, List.getElem?_cons_zero, List.getElem?_cons_succ,
      R.ok_bind, List.map_cons, List.map_nil]
    exact this

/-- **C24, findings.** With one dimension, `tensor_ones` and `tensor_zeros` raise TypeError, and `matrix_ones`,
`matrix_zeros` and `eye` return an object that is no TT-matrix. -/
theorem C24_one_dim (m n : ℤ) (hm : 1 ≤ m) (hn : 1 ≤ n) :
    tensorOnes (K := K) [n] = Except.error Err.type ∧ tensorZeros (K := K) [n] = Except.error Err.type ∧
    (∃ t : TT K, matrixOnes (some [m]) (some [n]) = Except.ok t ∧ ¬ t.isMatrix ∧ t.rawShape = [[m.toNat, n.toNat]]) ∧
    (∃ t : TT K, matrixZeros (some [m]) (some [n]) = Except.ok t ∧ ¬ t.isMatrix ∧ t.rawShape = [[m.toNat, n.toNat]]) ∧
    (∃ t : TT K, eye [n] = Except.ok t ∧ ¬ t.isMatrix ∧ t.rawShape = [[n.toNat, n.toNat]]) := by
  have hn' : ∀ x ∈ [n], 1 ≤ x := by simpa using hn
  have hmn : ∀ x ∈ [m] ++ [n], 1 ≤ x := by simp [hm, hn]
  have key : ∀ g : List ℕ → Tensor K, (∀ s, (g s).shape = s) → ∃ t : TT K, matrixConst g (some [m]) (some [n]) = Except.ok t ∧
      ¬ t.isMatrix ∧ t.rawShape = [[m.toNat, n.toNat]] := by
    intro g hg
    refine ⟨⟨[g [1, m.toNat, n.toNat, 1]], [[m.toNat, n.toNat]], [1, 1], none⟩, ?_, by simp [TT.isMatrix], rfl⟩
    simp only [matrixConst, fillShape, R.pure_eq, R.ok_bind, validateMatrix,
      require_bind_ok _ (show [m].length = [n].length from rfl), require_bind_ok _ hmn, validateRest, validateBatch, validateRank]
    rw [fillCores_eq _ _ _ _ _ (by simp) (by simp), R.ok_bind]
    simp [mkTT, cleanRawShape, coresValid, coreCheck, allRange, andR, eqR, pyGet, pyLast, hg, List.getD]
  refine ⟨?_, ?_, key _ fun _ => rfl, key _ fun _ => rfl, ?_⟩
  · simp only [tensorOnes, tensorConst, validateTensor, require_bind_ok _ hn', validateRest, validateBatch, validateRank, R.pure_eq,
      R.ok_bind]
    rw [fillCores_eq _ _ _ _ _ (by simp) (by simp), R.ok_bind]
    rfl
  · simp only [tensorZeros, tensorConst, validateTensor, require_bind_ok _ hn', validateRest, validateBatch, validateRank, R.pure_eq,
      R.ok_bind]
    rw [fillCores_eq _ _ _ _ _ (by simp) (by simp), R.ok_bind]
    rfl
  · obtain ⟨C, eC, sC, -⟩ := reshape_spec (eyeT n.toNat : Tensor K) [some 1, some n.toNat, some n.toNat, some 1]
      [1, n.toNat, n.toNat, 1] (by simp [resolveShape, knownProd, eyeT])
    refine ⟨⟨[C], [[n.toNat, n.toNat]], [1, 1], none⟩, ?_, by simp [TT.isMatrix], rfl⟩
    simp only [eye, validateTensor, require_bind_ok _ hn', validateRest, validateBatch, validateRank, R.pure_eq, R.ok_bind]
    simp [mapRange, eC, pyGet, mkTT, cleanRawShape, coresValid, coreCheck, allRange, andR, eqR, pyLast, sC]

/-- **C24.** Non-positive dimensions raise ValueError. -/
theorem C24_errors (shape : List ℤ) (h : ∃ n ∈ shape, n < 1) :
    tensorOnes (K := K) shape = Except.error Err.value ∧ tensorZeros (K := K) shape = Except.error Err.value ∧
    eye (K := K) shape = Except.error Err.value ∧
    ∀ b : List ℤ, matrixOnes (K := K) (some shape) (some b) = Except.error Err.value ∧
      matrixZeros (K := K) (some shape) (some b) = Except.error Err.value := by
  have h' : ¬ ∀ n ∈ shape, 1 ≤ n := by
    obtain ⟨n, hn, hlt⟩ := h
    intro hc
    have := hc n hn
    omega
  have key : ∀ (g : List ℕ → Tensor K) (b : List ℤ), matrixConst g (some shape) (some b) = Except.error Err.value := by
    intro g b
    simp only [matrixConst, fillShape, R.pure_eq, R.ok_bind, validateMatrix]
    by_cases hl : shape.length = b.length
    · rw [require_bind_ok _ hl, require_bind_error _ (fun hc => h' fun n hn => hc n (by simp [hn]))]
      rfl
    · rw [require_bind_error _ hl]; rfl
  refine ⟨?_, ?_, ?_, fun b => ⟨key _ b, key _ b⟩⟩ <;>
  · simp only [tensorOnes, tensorZeros, tensorConst, eye, validateTensor, require_bind_error _ h']
    rfl

example : (tensorOnes [2, 3] >>= full (K := ℤ)).map (fun F => (F.shape, F.get [1, 2])) = Except.ok ([2, 3], 1) := by decide
example : (eye [2, 3] >>= full (K := ℤ)).map (fun F => (F.shape, F.get [4, 4], F.get [4, 3])) = Except.ok ([6, 6], 1, 0) := by
  decide
example : (matrixZeros (some [2, 3]) none >>= full (K := ℤ)).map (fun F => (F.shape, F.get [4, 0])) = Except.ok ([6, 1], 0) := by
  decide
example : exBatchMatrix.WF ∧ 2 ≤ exBatchMatrix.ndims ∧ ∀ row ∈ exBatchMatrix.rawShape, ∀ n ∈ row, 0 < n := by decide

/-! ## C25 -/

/-- **C25.** Random cores for a TT-tensor with at least two dimensions: ValueError exactly for a non-positive
dimension or an inadmissible rank; otherwise a well-formed object with the given shape and ranks. -/
theorem C25_tensor (z : ℕ → List ℕ → ℝ) (shape : List ℤ) (h2 : 2 ≤ shape.length) (rank : RankArg) (mean sd : ℝ) :
    ((∀ n ∈ shape, 1 ≤ n) ∧ GoodRank shape.length rank → ∃ t, tensorWithRandomCores z shape rank mean sd = Except.ok t ∧
      t.WF ∧ t.batch = none ∧ t.rawShape = [shape.map Int.toNat] ∧ t.ttRanks = usedRanks shape.length rank) ∧
    (¬ ((∀ n ∈ shape, 1 ≤ n) ∧ GoodRank shape.length rank) →
      tensorWithRandomCores z shape rank mean sd = Except.error Err.value) := by
  have := tensorInit_spec (fun i => randomNormal mean sd (z i)) (fun _ _ => rfl) shape h2 none rank
  constructor
  · intro h
    obtain ⟨e, w⟩ := this.1 ⟨h.1, by simp, h.2⟩
    exact ⟨_, e, w, rfl, rfl, rfl⟩
  · intro h
    exact this.2 fun h' => h ⟨h'.1, h'.2.2⟩

/-- **C25.** The same for batches of TT-tensors. -/
theorem C25_tensor_batch (z : ℕ → List ℕ → ℝ) (shape : List ℤ) (h2 : 2 ≤ shape.length) (rank : RankArg) (bs : ℤ)
    (mean sd : ℝ) :
    ((∀ n ∈ shape, 1 ≤ n) ∧ 1 ≤ bs ∧ GoodRank shape.length rank →
      ∃ t, tensorBatchWithRandomCores z shape rank bs mean sd = Except.ok t ∧
      t.WF ∧ t.batch = some bs.toNat ∧ t.rawShape = [shape.map Int.toNat] ∧ t.ttRanks = usedRanks shape.length rank) ∧
    (¬ ((∀ n ∈ shape, 1 ≤ n) ∧ 1 ≤ bs ∧ GoodRank shape.length rank) →
      tensorBatchWithRandomCores z shape rank bs mean sd = Except.error Err.value) := by
  have := tensorInit_spec (fun i => randomNormal mean sd (z i)) (fun _ _ => rfl) shape h2 (some bs) rank
  constructor
  · intro h
    obtain ⟨e, w⟩ := this.1 ⟨h.1, by simpa using h.2.1, h.2.2⟩
    exact ⟨_, e, w, rfl, rfl, rfl⟩
  · intro h
    exact this.2 fun h' => h ⟨h'.1, by simpa using h'.2.1, h'.2.2⟩

/-- The arguments are admissible for a TT-matrix. -/
def MatrixArgs (a b : List ℤ) (rank : RankArg) : Prop :=
  a.length = b.length ∧ (∀ n ∈ a, 1 ≤ n) ∧ (∀ n ∈ b, 1 ≤ n) ∧ GoodRank a.length rank

/-- **C25.** Random cores for a TT-matrix: additionally the two shapes must have the same length. -/
theorem C25_matrix (z : ℕ → List ℕ → ℝ) (a b : List ℤ) (h2 : 2 ≤ a.length) (rank : RankArg) (mean sd : ℝ) :
    (MatrixArgs a b rank → ∃ t, matrixWithRandomCores z (some a) (some b) rank mean sd = Except.ok t ∧
      t.WF ∧ t.batch = none ∧ t.rawShape = [a.map Int.toNat, b.map Int.toNat] ∧ t.ttRanks = usedRanks a.length rank) ∧
    (¬ MatrixArgs a b rank → matrixWithRandomCores z (some a) (some b) rank mean sd = Except.error Err.value) := by
  have := matrixInit_spec (fun i => randomNormal mean sd (z i)) (fun _ _ => rfl) a b h2 none rank
  constructor
  · intro h
    obtain ⟨e, w⟩ := this.1 ⟨h.1, fun n hn => (List.mem_append.1 hn).elim (h.2.1 n) (h.2.2.1 n), by simp, h.2.2.2⟩
    exact ⟨_, e, w, rfl, rfl, rfl⟩
  · intro h
    exact this.2 fun h' => h ⟨h'.1, fun n hn => h'.2.1 n (by simp [hn]), fun n hn => h'.2.1 n (by simp [hn]), h'.2.2.2⟩

/-- **C25.** The same for batches of TT-matrices. -/
theorem C25_matrix_batch (z : ℕ → List ℕ → ℝ) (a b : List ℤ) (h2 : 2 ≤ a.length) (rank : RankArg) (bs : ℤ) (mean sd : ℝ) :
    (MatrixArgs a b rank ∧ 1 ≤ bs → ∃ t, matrixBatchWithRandomCores z (some a) (some b) rank bs mean sd = Except.ok t ∧
      t.WF ∧ t.batch = some bs.toNat ∧ t.rawShape = [a.map Int.toNat, b.map Int.toNat] ∧ t.ttRanks = usedRanks a.length rank) ∧
    (¬ (MatrixArgs a b rank ∧ 1 ≤ bs) → matrixBatchWithRandomCores z (some a) (some b) rank bs mean sd = Except.error Err.value) := by
  have := matrixInit_spec (fun i => randomNormal mean sd (z i)) (fun _ _ => rfl) a b h2 (some bs) rank
  constructor
  · intro h
    obtain ⟨e, w⟩ := this.1 ⟨h.1.1, fun n hn => (List.mem_append.1 hn).elim (h.1.2.1 n) (h.1.2.2.1 n), by simpa using h.2, h.1.2.2.2⟩
    exact ⟨_, e, w, rfl, rfl, rfl⟩
  · intro h
    exact this.2 fun h' => h ⟨⟨h'.1, fun n hn => h'.2.1 n (by simp [hn]), fun n hn => h'.2.1 n (by simp [hn]), h'.2.2.2⟩,
      by simpa using h'.2.2.1⟩

/-- **C25.** Omitted row or column shapes are all ones; omitting both raises TypeError. -/
theorem C25_omitted (z : ℕ → List ℕ → ℝ) (a : List ℤ) (rank : RankArg) (mean sd : ℝ) :
    matrixWithRandomCores z (some a) none rank mean sd =
      matrixWithRandomCores z (some a) (some (a.map fun _ => 1)) rank mean sd ∧
    matrixWithRandomCores z none (some a) rank mean sd =
      matrixWithRandomCores z (some (a.map fun _ => 1)) (some a) rank mean sd ∧
    matrixWithRandomCores z none none rank mean sd = Except.error Err.type := by
  simp [matrixWithRandomCores, fillShape]

/-- **C25, finding.** One-dimensional random tensors cannot be made: with valid arguments the result is TypeError. -/
theorem C25_one_dim (z : ℕ → List ℕ → ℝ) (n r : ℤ) (hn : 1 ≤ n) (hr : 1 ≤ r) (mean sd : ℝ) :
    tensorWithRandomCores z [n] (.num r) mean sd = Except.error Err.type := by
  simp only [tensorWithRandomCores, validateTensor, require_bind_ok _ (show ∀ x ∈ [n], 1 ≤ x by simpa using hn)]
  rw [show [n].length = 1 from rfl, validateRest_ok (by omega) (by simp) (show SynRank 1 (.num r) from hr), R.ok_bind]
  simp only [expandRank, one_ne_zero, if_false, R.pure_eq, R.ok_bind]
  rw [fillCores_eq _ _ _ _ _ (by simp) (by simp)]
  rfl

example : GoodRank 3 (.num 4) ∧ GoodRank 3 (.list [1, 2, 5, 1]) ∧ ¬ GoodRank 3 (.list [1, 2, 1]) ∧ ¬ GoodRank 3 (.num 0) ∧
    ¬ GoodRank 3 (.list [2, 2, 5, 1]) ∧ usedRanks 3 (.num 4) = [1, 4, 4, 1] := by decide

end T3f
