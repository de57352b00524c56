import Verif.Proofs.ToTTMatrix
import Verif.Spec.Kron

/-!
# C33: from dense tensors and matrices to tensor trains

`svd` is an arbitrary routine that returns singular value decompositions. `b k` is the bound `max_tt_rank` gives for the `k`-th TT-rank.
`X.distSq Y [] s` is the squared Frobenius distance of two dense tensors of shape `s`.
-/

namespace T3f

/-- C33: the tensor train has the shape of the dense tensor and TT-ranks within the bounds. -/
theorem C33_tensor_ranks {svd : SVDRoutine} (hsvd : svd.Correct) {X : Tensor ℝ} (hd : 2 ≤ X.shape.length) (hs : ∀ n ∈ X.shape, 0 < n)
    {m : MaxRank} {b : ℕ → ℕ} (hb : m.Bounds X.shape.length b) {eps : Option ℝ} (he : ∀ e ∈ eps, 0 ≤ e) :
    ∃ x, toTTTensor svd X m eps = Except.ok x ∧ x.WF ∧ x.rawShape = [X.shape] ∧ x.batch = none ∧
      ∀ k, 0 < k → k < X.shape.length → x.rank k ≤ b k := by
  obtain ⟨x, e, f⟩ := toTTTensor_fit hsvd hd hs hb he
  exact ⟨x, e, f.wf, by rw [f.rows, xTT_rawShape], f.batch, fun k h0 hk => f.rank k h0 (by rw [xTT_ndims]; exact hk)⟩

/-- A dense tensor of shape `(2, 3, 2)`. -/
def exDense : Tensor ℝ := ⟨[2, 3, 2], fun i => i.getD 0 0 + 2 * i.getD 1 0 * i.getD 2 0⟩

example : (∃ svd : SVDRoutine, svd.Correct) ∧ 2 ≤ exDense.shape.length ∧ (∀ n ∈ exDense.shape, 0 < n) ∧
    (MaxRank.list [1, 1, 2, 1]).Bounds exDense.shape.length (fun k => [1, 1, 2, 1].getD k 0) :=
  ⟨svdRoutine_exists, by simp [exDense], by simp [exDense], Or.inr ⟨[1, 1, 2, 1], rfl, rfl, by simp, fun _ _ => rfl⟩⟩

/-- C33: the error is orthogonal to the result: `‖X - Y‖² = ‖X‖² - ‖Y‖²`. It is at most the sum over the cuts of the errors of any
approximations within the bound for that cut. -/
theorem C33_tensor_error {svd : SVDRoutine} (hsvd : svd.Correct) {X : Tensor ℝ} (hd : 2 ≤ X.shape.length) (hs : ∀ n ∈ X.shape, 0 < n)
    {m : MaxRank} {b : ℕ → ℕ} (hb : m.Bounds X.shape.length b) {eps : Option ℝ} (he : ∀ e ∈ eps, 0 ≤ e) :
    ∃ x Y, toTTTensor svd X m eps = Except.ok x ∧ full x = Except.ok Y ∧ Y.shape = X.shape ∧
      X.distSq Y [] X.shape = X.normSq [] X.shape - Y.normSq [] X.shape ∧
      ∀ (S : ℕ → TT ℝ) (F : ℕ → Tensor ℝ), (∀ k, 0 < k → k < X.shape.length → (S k).WF ∧ (S k).rawShape = [X.shape] ∧ (S k).batch = none ∧
          (S k).rank k ≤ b k ∧ full (S k) = Except.ok (F k)) →
        X.distSq Y [] X.shape ≤ ∑ k ∈ Finset.Ico 1 X.shape.length, X.distSq (F k) [] X.shape := by
  obtain ⟨x, e, f⟩ := toTTTensor_fit hsvd hd hs hb he
  have hw := xTT_wf (X := X) (by omega) hs
  obtain ⟨Z, eZ, hZ⟩ := xTT_full (X := X) (by omega) hs
  obtain ⟨Y, eY, h1, h2⟩ := f.dense_error hw rfl eZ hZ
  rw [xTT_ndims, xTT_rawShape] at h2
  exact ⟨x, Y, e, eY, h1, h2⟩

/-- C33: the squared error is at most `d - 1` times that of any tensor train within the bounds. -/
theorem C33_tensor_quasi_optimal {svd : SVDRoutine} (hsvd : svd.Correct) {X : Tensor ℝ} (hd : 2 ≤ X.shape.length) (hs : ∀ n ∈ X.shape, 0 < n)
    {m : MaxRank} {b : ℕ → ℕ} (hb : m.Bounds X.shape.length b) {eps : Option ℝ} (he : ∀ e ∈ eps, 0 ≤ e)
    {S : TT ℝ} (hS : S.WF) (hrs : S.rawShape = [X.shape]) (hSb : S.batch = none) (hr : ∀ k, 0 < k → k < X.shape.length → S.rank k ≤ b k) :
    ∃ x Y F, toTTTensor svd X m eps = Except.ok x ∧ full x = Except.ok Y ∧ full S = Except.ok F ∧ Y.shape = X.shape ∧ F.shape = X.shape ∧
      X.distSq Y [] X.shape ≤ (X.shape.length - 1 : ℕ) * X.distSq F [] X.shape := by
  obtain ⟨x, Y, e, eY, sY, -, h⟩ := C33_tensor_error hsvd hd hs hb he
  obtain ⟨F, eF, sF, -⟩ := full_ok hS
  rw [bpre_none hSb, hrs] at sF
  refine ⟨x, Y, F, e, eY, eF, sY, sF, ?_⟩
  have := h (fun _ => S) (fun _ => F) fun k h0 hk => ⟨hS, hrs, hSb, hr k h0 hk, eF⟩
  rwa [Finset.sum_const, Nat.card_Ico, nsmul_eq_mul] at this

/-- C33: a tensor that has a tensor train representation within the bounds is represented exactly. -/
theorem C33_tensor_exact {svd : SVDRoutine} (hsvd : svd.Correct) {X : Tensor ℝ} (hd : 2 ≤ X.shape.length) (hs : ∀ n ∈ X.shape, 0 < n)
    {m : MaxRank} {b : ℕ → ℕ} (hb : m.Bounds X.shape.length b) {eps : Option ℝ} (he : ∀ e ∈ eps, 0 ≤ e)
    {S : TT ℝ} (hS : S.WF) (hrs : S.rawShape = [X.shape]) (hSb : S.batch = none) (hr : ∀ k, 0 < k → k < X.shape.length → S.rank k ≤ b k)
    {F : Tensor ℝ} (hF : full S = Except.ok F) (hFX : F ≃ₜ X) :
    ∃ x Y, toTTTensor svd X m eps = Except.ok x ∧ full x = Except.ok Y ∧ Y ≃ₜ X := by
  obtain ⟨x, Y, F', e, eY, eF, sY, sF, h⟩ := C33_tensor_quasi_optimal hsvd hd hs hb he hS hrs hSb hr
  obtain rfl : F' = F := Except.ok.inj (eF.symm.trans hF)
  refine ⟨x, Y, e, eY, (distSq_zero (pre := []) rfl sY).1 fun p hp => ?_⟩
  obtain rfl := (valid_nil_iff p).1 hp
  rw [(distSq_zero (pre := []) rfl sF).2 hFX [] hp, mul_zero] at h
  exact le_antisymm h (Finset.sum_nonneg fun _ _ => sq_nonneg _)

example : ∃ (X : Tensor ℝ) (S : TT ℝ) (F : Tensor ℝ), 2 ≤ X.shape.length ∧ (∀ n ∈ X.shape, 0 < n) ∧
    (MaxRank.num 3).Bounds X.shape.length (fun _ => 3) ∧ S.WF ∧ S.rawShape = [X.shape] ∧ S.batch = none ∧
    (∀ k, 0 < k → k < X.shape.length → S.rank k ≤ 3) ∧ full S = Except.ok F ∧ F ≃ₜ X := by
  have hS : exTensor3.toReal.WF := TT.WF.toReal (by decide)
  obtain ⟨F, e, s, -⟩ := full_ok hS
  have s' : F.shape = [2, 2, 3] := s
  refine ⟨F, exTensor3.toReal, F, by simp [s'], by simp [s'], Or.inl ⟨3, by omega, Or.inl rfl, fun _ => rfl⟩, hS, by rw [s']; rfl, rfl,
    fun k h0 hk => ?_, e, ⟨rfl, fun _ _ => rfl⟩⟩
  have : k < 3 := by simpa [s'] using hk
  interval_cases k <;> simp [TT.rank, TT.toReal, exTensor3]

/-- C33: with `max_tt_rank[k]` at least `n_k ... n_{d-1}` for all `k`, every tensor is represented exactly. -/
theorem C33_tensor_lossless {svd : SVDRoutine} (hsvd : svd.Correct) {X : Tensor ℝ} (hd : 2 ≤ X.shape.length) (hs : ∀ n ∈ X.shape, 0 < n)
    {m : MaxRank} {b : ℕ → ℕ} (hb : m.Bounds X.shape.length b) {eps : Option ℝ} (he : ∀ e ∈ eps, 0 ≤ e)
    (hr : ∀ k, 0 < k → k < X.shape.length → (X.shape.drop k).prod ≤ b k) :
    ∃ x Y, toTTTensor svd X m eps = Except.ok x ∧ full x = Except.ok Y ∧ Y ≃ₜ X := by
  obtain ⟨Z, eZ, hZ⟩ := xTT_full (X := X) (by omega) hs
  refine C33_tensor_exact hsvd hd hs hb he (xTT_wf (by omega) hs) xTT_rawShape rfl (fun k h0 hk => ?_) eZ hZ
  rw [xTT_rank (by omega), xRank, if_neg (by omega)]
  exact hr k h0 hk

example : (MaxRank.list [1, 6, 2, 1]).Bounds exDense.shape.length (fun k => [1, 6, 2, 1].getD k 0) ∧
    ∀ k, 0 < k → k < exDense.shape.length → (exDense.shape.drop k).prod ≤ [1, 6, 2, 1].getD k 0 :=
  ⟨Or.inr ⟨[1, 6, 2, 1], rfl, rfl, by simp, fun _ _ => rfl⟩, fun k h0 hk => by
    have : k < 3 := hk
    interval_cases k <;> simp [exDense]⟩

/-- C33: a vector (a tensor with one axis) is a TypeError, a scalar an IndexError. -/
theorem C33_tensor_small (svd : SVDRoutine) {X : Tensor ℝ} {m : MaxRank} {b : ℕ → ℕ} (hb : m.Bounds X.shape.length b) {eps : Option ℝ}
    (he : ∀ e ∈ eps, 0 ≤ e) :
    (X.shape.length = 1 → toTTTensor svd X m eps = Except.error Err.type) ∧
    (X.shape.length = 0 → toTTTensor svd X m eps = Except.error Err.index) := by
  obtain ⟨l, el, -⟩ := maxRanks_ok hb he
  constructor
  · intro h1
    obtain ⟨n, hn⟩ := List.length_eq_one_iff.1 h1
    have el' : maxRanks [n].length m eps = Except.ok l := by rw [← hn]; exact el
    obtain ⟨Y, eY, -⟩ := reshape_flat X [some 1, some n, some 1] [1, n, 1] (resolveShape_some [1, n, 1] _ (by rw [hn]; simp))
    unfold toTTTensor
    simp only [hn, el', R.ok_bind]
    exact (congrArg (fun z => z >>= fun last => mkTT ([] ++ [last]) (ShapeArg.flat [n]) (some [1, 1])) eY).trans rfl
  · intro h1
    have h0 := List.length_eq_zero_iff.1 h1
    have el' : maxRanks ([] : List ℕ).length m eps = Except.ok l := by rw [← h0]; exact el
    unfold toTTTensor
    simp only [h0, el', R.ok_bind]
    rfl

theorem RowArgs.fill {a b : List ℕ} {ra rb : Option (List ℕ)} (h : RowArgs a b ra rb) : fillRows ra rb = Except.ok (a, b) := by
  rcases h with ⟨rfl, rfl⟩ | ⟨rfl, rfl, rfl⟩ | ⟨rfl, rfl, rfl⟩ <;> rfl

/-- C33: `to_tt_matrix` gives a TT-matrix of the requested shape with TT-ranks within the bounds. The matrix may be given flat: `X` is any tensor
with the right number of elements, `A` the matrix with these elements row by row. `‖A - Y‖² = ‖A‖² - ‖Y‖²`, and the error is at most the sum over
the cuts of the errors of any approximations within the bound for that cut. -/
theorem C33_matrix_error {svd : SVDRoutine} (hsvd : svd.Correct) {X A : Tensor ℝ} {a b : List ℕ} (hX : X.shape.prod = a.prod * b.prod)
    (hab : a.length = b.length) (hd : 2 ≤ a.length) (ha : ∀ n ∈ a, 0 < n) (hb0 : ∀ n ∈ b, 0 < n) {ra rb : Option (List ℕ)}
    (hf : RowArgs a b ra rb) (hA : A.shape = [a.prod, b.prod])
    (hAX : ∀ x < a.prod, ∀ y < b.prod, A.get [x, y] = X.get (unravel X.shape (x * b.prod + y)))
    {m : MaxRank} {bd : ℕ → ℕ} (hb : m.Bounds a.length bd) {eps : Option ℝ} (he : ∀ e ∈ eps, 0 ≤ e) :
    ∃ x Y, toTTMatrix svd X ra rb m eps = Except.ok x ∧ x.WF ∧ x.rawShape = [a, b] ∧ x.batch = none ∧
      (∀ k, 0 < k → k < a.length → x.rank k ≤ bd k) ∧ full x = Except.ok Y ∧ Y.shape = A.shape ∧
      A.distSq Y [] A.shape = A.normSq [] A.shape - Y.normSq [] A.shape ∧
      ∀ (S : ℕ → TT ℝ) (F : ℕ → Tensor ℝ), (∀ k, 0 < k → k < a.length → (S k).WF ∧ (S k).rawShape = [a, b] ∧ (S k).batch = none ∧
          (S k).rank k ≤ bd k ∧ full (S k) = Except.ok (F k)) →
        A.distSq Y [] A.shape ≤ ∑ k ∈ Finset.Ico 1 a.length, A.distSq (F k) [] A.shape := by
  obtain ⟨x, z, Z, e, hw, hr, hb', eZ, sZ, vZ, f⟩ := toTTMatrix_fit hsvd hX hab hd ha hb0 hf.fill hb he
  have hZA : Z ≃ₜ A := by
    refine ⟨by rw [sZ, hA], fun i hi => ?_⟩
    rw [sZ] at hi
    obtain ⟨u, v, rfl, hu, hv⟩ := (valid_pair _ _ _).1 hi
    rw [vZ u hu v hv, hAX u hu v hv]; rfl
  have hn : z.ndims = a.length := (hw.rows_len a (by rw [hr]; simp)).symm
  obtain ⟨Y, eY, h1, h2⟩ := f.dense_error hw hb' eZ hZA
  rw [hn, hr] at h2
  exact ⟨x, Y, e, f.wf, by rw [f.rows, hr], f.batch, fun k h0 hk => f.rank k h0 (by omega), eY, h1, h2⟩

/-- A vector with eight elements. -/
def exLine : Tensor ℝ := ⟨[8], fun i => i.getD 0 0⟩

example : exLine.shape.prod = [2, 2, 2].prod * [1, 1, 1].prod ∧ RowArgs [2, 2, 2] [1, 1, 1] (some [2, 2, 2]) none ∧
    (∀ x < [2, 2, 2].prod, ∀ y < [1, 1, 1].prod,
      (⟨[8, 1], fun i => i.getD 0 0⟩ : Tensor ℝ).get [x, y] = exLine.get (unravel exLine.shape (x * [1, 1, 1].prod + y))) ∧
    (MaxRank.num 2).Bounds 3 (fun _ => 2) := by
  refine ⟨by simp [exLine], Or.inr (Or.inl ⟨rfl, rfl, rfl⟩), fun x hx y hy => ?_, Or.inl ⟨2, by omega, Or.inl rfl, fun _ => rfl⟩⟩
  have : y = 0 := by simpa using hy
  subst this
  simp [exLine, unravel]

/-- C33: the squared error is at most `d - 1` times that of any TT-matrix within the bounds. -/
theorem C33_matrix_quasi_optimal {svd : SVDRoutine} (hsvd : svd.Correct) {X A : Tensor ℝ} {a b : List ℕ} (hX : X.shape.prod = a.prod * b.prod)
    (hab : a.length = b.length) (hd : 2 ≤ a.length) (ha : ∀ n ∈ a, 0 < n) (hb0 : ∀ n ∈ b, 0 < n) {ra rb : Option (List ℕ)}
    (hf : RowArgs a b ra rb) (hA : A.shape = [a.prod, b.prod])
    (hAX : ∀ x < a.prod, ∀ y < b.prod, A.get [x, y] = X.get (unravel X.shape (x * b.prod + y)))
    {m : MaxRank} {bd : ℕ → ℕ} (hb : m.Bounds a.length bd) {eps : Option ℝ} (he : ∀ e ∈ eps, 0 ≤ e)
    {S : TT ℝ} (hS : S.WF) (hrs : S.rawShape = [a, b]) (hSb : S.batch = none) (hr : ∀ k, 0 < k → k < a.length → S.rank k ≤ bd k) :
    ∃ x Y F, toTTMatrix svd X ra rb m eps = Except.ok x ∧ full x = Except.ok Y ∧ full S = Except.ok F ∧ Y.shape = A.shape ∧ F.shape = A.shape ∧
      A.distSq Y [] A.shape ≤ (a.length - 1 : ℕ) * A.distSq F [] A.shape := by
  obtain ⟨x, Y, e, -, -, -, -, eY, sY, -, h⟩ := C33_matrix_error hsvd hX hab hd ha hb0 hf hA hAX hb he
  obtain ⟨F, eF, sF, -⟩ := full_ok hS
  rw [bpre_none hSb, hrs] at sF
  refine ⟨x, Y, F, e, eY, eF, sY, sF.trans hA.symm, ?_⟩
  have := h (fun _ => S) (fun _ => F) fun k h0 hk => ⟨hS, hrs, hSb, hr k h0 hk, eF⟩
  rwa [Finset.sum_const, Nat.card_Ico, nsmul_eq_mul] at this

/-- C33: a matrix that has a TT-matrix representation within the bounds is represented exactly. -/
theorem C33_matrix_exact {svd : SVDRoutine} (hsvd : svd.Correct) {X A : Tensor ℝ} {a b : List ℕ} (hX : X.shape.prod = a.prod * b.prod)
    (hab : a.length = b.length) (hd : 2 ≤ a.length) (ha : ∀ n ∈ a, 0 < n) (hb0 : ∀ n ∈ b, 0 < n) {ra rb : Option (List ℕ)}
    (hf : RowArgs a b ra rb) (hA : A.shape = [a.prod, b.prod])
    (hAX : ∀ x < a.prod, ∀ y < b.prod, A.get [x, y] = X.get (unravel X.shape (x * b.prod + y)))
    {m : MaxRank} {bd : ℕ → ℕ} (hb : m.Bounds a.length bd) {eps : Option ℝ} (he : ∀ e ∈ eps, 0 ≤ e)
    {S : TT ℝ} (hS : S.WF) (hrs : S.rawShape = [a, b]) (hSb : S.batch = none) (hr : ∀ k, 0 < k → k < a.length → S.rank k ≤ bd k)
    {F : Tensor ℝ} (hF : full S = Except.ok F) (hFA : F ≃ₜ A) :
    ∃ x Y, toTTMatrix svd X ra rb m eps = Except.ok x ∧ full x = Except.ok Y ∧ Y ≃ₜ A := by
  obtain ⟨x, Y, F', e, eY, eF, sY, sF, h⟩ := C33_matrix_quasi_optimal hsvd hX hab hd ha hb0 hf hA hAX hb he hS hrs hSb hr
  obtain rfl : F' = F := Except.ok.inj (eF.symm.trans hF)
  refine ⟨x, Y, e, eY, (distSq_zero (pre := []) rfl sY).1 fun p hp => ?_⟩
  obtain rfl := (valid_nil_iff p).1 hp
  rw [(distSq_zero (pre := []) rfl sF).2 hFA [] hp, mul_zero] at h
  exact le_antisymm h (Finset.sum_nonneg fun _ _ => sq_nonneg _)

/-- C33: a matrix with the wrong number of elements is an InvalidArgumentError; different numbers of row and column sizes are a ValueError. -/
theorem C33_matrix_errors (svd : SVDRoutine) (X : Tensor ℝ) (a b : List ℕ) (m : MaxRank) (eps : Option ℝ) :
    (a.length ≠ b.length → toTTMatrix svd X (some a) (some b) m eps = Except.error Err.value) ∧
    (a.length = b.length → X.shape.prod ≠ a.prod * b.prod → toTTMatrix svd X (some a) (some b) m eps = Except.error Err.tf) := by
  constructor
  · intro h
    simp only [toTTMatrix, fillRows, R.pure_eq, R.ok_bind, require, if_neg h]; rfl
  · intro h1 h2
    simp only [toTTMatrix, fillRows, R.pure_eq, R.ok_bind, require, if_pos h1]
    have : reshape X ((a ++ b).map some) = Except.error Err.tf := by
      unfold reshape resolveShape
      simp only [count_none_map, knownProd_map, List.prod_append]
      rw [if_neg (Ne.symm h2)]
      rfl
    rw [this]; rfl

end T3f
