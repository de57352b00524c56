import Verif.Proofs.ToTTErrMatrix
import Verif.Props.C79RoundAccuracy
import Verif.Props.C33ToTT

/-!
# C81: decomposing dense tensors and matrices in floating point arithmetic

`F` computes matrix products with the arithmetic `A` of unit roundoff `u`; `svd` computes singular value decompositions with a backward error of `ε`.
`size` bounds the sizes of the matrices. `m` is the argument `max_tt_rank` and `b k` the bound it gives for the `k`-th TT-rank.
-/

namespace T3f

/-! ## Lemmas -/

theorem svdGrowth_prod (A : Arith) (ε : ℝ) (r : ℕ → ℕ) (d : ℕ) : ∏ k ∈ Finset.range (d - 1), svdGrowth A ε (r (k + 1)) =
    (1 + ε) ^ (2 * (d - 1)) * (1 + A.u) ^ (∑ k ∈ Finset.Ico 1 d, r k) := by
  unfold svdGrowth
  rw [Finset.prod_mul_distrib, Finset.prod_const, Finset.card_range, ← pow_mul, Finset.prod_pow_eq_pow_sum, Finset.sum_Ico_eq_sum_range]
  congr 2
  exact Finset.sum_congr rfl fun k _ => by rw [Nat.add_comm]

theorem FitF.bound {A : Arith} {ε : ℝ} (hε : 0 ≤ ε) {z x : TT ℝ} {b : ℕ → ℕ} (f : FitF A ε z x b) {S : TT ℝ} (hS : S.WF) (hr : S.rawShape = z.rawShape)
    (hb : ∀ k, 0 < k → k < z.ndims → S.rank k ≤ b k) :
    √(entryDist z x []) ≤ √(z.ndims - 1 : ℕ) * √(entryDist z S []) +
      (√(z.ndims - 1 : ℕ) + 1) * ((1 + ε) ^ (3 * (z.ndims - 1)) * (1 + A.u) ^ (∑ k ∈ Finset.Ico 1 z.ndims, x.rank k) - 1) * √(entryDot z z []) := by
  have h1 := f.error S hS hr hb
  rw [svdGrowth_prod, ← mul_assoc, ← pow_add, show z.ndims - 1 + 2 * (z.ndims - 1) = 3 * (z.ndims - 1) by ring] at h1
  refine h1.trans ?_
  set P := √(entryDot z z []) with hP
  have hP0 : 0 ≤ P := Real.sqrt_nonneg _
  set U := (1 + A.u) ^ (∑ k ∈ Finset.Ico 1 z.ndims, x.rank k) with hU
  have hU0 : 0 ≤ U := by have := A.nonneg; positivity
  have hE : (1 + ε) ^ (2 * (z.ndims - 1)) * U ≤ (1 + ε) ^ (3 * (z.ndims - 1)) * U :=
    mul_le_mul_of_nonneg_right (pow_le_pow_right₀ (by linarith) (by omega)) hU0
  have hw := Real.sqrt_nonneg ((z.ndims - 1 : ℕ) : ℝ)
  have h2 := mul_le_mul_of_nonneg_left (mul_le_mul_of_nonneg_right (sub_le_sub_right hE 1) hP0) hw
  linarith

theorem FitF.rank {A : Arith} {ε : ℝ} {z x : TT ℝ} {b : ℕ → ℕ} (f : FitF A ε z x b) (k : ℕ) (h0 : 0 < k) (hk : k < z.ndims) : x.rank k ≤ b k := by
  obtain ⟨k, rfl⟩ : ∃ j, k = j + 1 := ⟨k - 1, by omega⟩
  rw [f.exact _ (by omega), tuRank, if_neg (by simp; omega)]
  exact keptRank_le_bound

theorem FitF.orth {A : Arith} {ε : ℝ} {z x : TT ℝ} {b : ℕ → ℕ} (f : FitF A ε z x b) (k : ℕ) (hk : k + 1 < z.ndims) : x.NearLeftOrthonormal [] k ε := by
  have hN : z.N = x.N := by funext k; simp [TT.N, TT.modes, f.rows]
  obtain ⟨U, h1, h2⟩ := f.near k hk
  rw [hN] at h1 h2
  exact ⟨U, h1, h2⟩

/-- Two decompositions with the same bounds have the same ranks. -/
theorem FitF.ranks {A : Arith} {ε : ℝ} {z x y : TT ℝ} {b : ℕ → ℕ} (hz : z.WF) (f : FitF A ε z x b) (g : Fit z y b) : y.ttRanks = x.ttRanks := by
  have hx : x.ndims = z.ndims := ndims_eq_of_rawShape f.wf hz f.rows
  have hy : y.ndims = z.ndims := ndims_eq_of_rawShape g.wf hz g.rows
  have h1 := f.wf.ranks_len
  have h2 := g.wf.ranks_len
  apply List.ext_getElem
  · omega
  · intro k h3 h4
    have e1 := f.exact k (by omega)
    have e2 := g.exact k (by omega)
    rw [TT.rank, List.getD_eq_getElem _ _ h4] at e1
    rw [TT.rank, List.getD_eq_getElem _ _ h3] at e2
    rw [e1, e2]

/-! ## The theorems -/

/-- With routines that do not round, the functions are `toTTTensor` and `toTTMatrix`. -/
theorem C81_exact_routines (svd : SVDRoutine) : toTTTensorF exactRoutines svd = toTTTensor svd ∧ toTTMatrixF exactRoutines svd = toTTMatrix svd := by
  have h1 : toTTStepF exactRoutines svd = toTTStep svd := by
    unfold toTTStepF toTTStep
    simp only [exactRoutines]
  have h2 : toTTTensorF exactRoutines svd = toTTTensor svd := by
    unfold toTTTensorF toTTTensor
    rw [h1]
  refine ⟨h2, ?_⟩
  unfold toTTMatrixF toTTMatrix
  rw [h2]

/-- **C81.** `to_tt_tensor` in floating point arithmetic does not fail. The result has the shape of the dense tensor, TT-ranks within the bounds (those of
exact arithmetic), and all cores but the last are orthonormal up to an error of `ε`. Its distance to the dense tensor is at most `√(d - 1)` times the
distance of any tensor train within the bounds, plus `(√(d - 1) + 1) ((1 + ε) ^ (3 (d - 1)) (1 + u) ^ (Σ r_k) - 1)` times the norm of the dense tensor, where
`r_k` are the TT-ranks of the result. -/
theorem C81_tensor {F : FloatRoutines} {A : Arith} (hF : F.Follows A) {ε : ℝ} (hε : 0 ≤ ε) {size : ℕ} {svd : SVDRoutine} (hsvd : svd.Backward ε size)
    {X : Tensor ℝ} (hd : 2 ≤ X.shape.length) (hs : ∀ n ∈ X.shape, 0 < n) (hsz : X.shape.prod ≤ size)
    {m : MaxRank} {b : ℕ → ℕ} (hb : m.Bounds X.shape.length b) {eps : Option ℝ} (he : ∀ e ∈ eps, 0 ≤ e) :
    ∃ x Y, toTTTensorF F svd X m eps = Except.ok x ∧ x.WF ∧ x.rawShape = [X.shape] ∧ x.batch = none ∧
      (∀ k, 0 < k → k < X.shape.length → x.rank k ≤ b k) ∧
      (∀ svd', svd'.Correct → ∃ y, toTTTensor svd' X m eps = Except.ok y ∧ y.ttRanks = x.ttRanks) ∧
      (∀ k, k + 1 < X.shape.length → x.NearLeftOrthonormal [] k ε) ∧
      full x = Except.ok Y ∧ Y.shape = X.shape ∧
      ∀ (S : TT ℝ) (G : Tensor ℝ), S.WF → S.rawShape = [X.shape] → S.batch = none → (∀ k, 0 < k → k < X.shape.length → S.rank k ≤ b k) →
        full S = Except.ok G →
        √(X.distSq Y [] X.shape) ≤ √(X.shape.length - 1 : ℕ) * √(X.distSq G [] X.shape) +
          (√(X.shape.length - 1 : ℕ) + 1) *
            ((1 + ε) ^ (3 * (X.shape.length - 1)) * (1 + A.u) ^ (∑ k ∈ Finset.Ico 1 X.shape.length, x.rank k) - 1) * √(X.normSq [] X.shape) := by
  obtain ⟨x, e, f⟩ := toTTTensorF_fit hF hε hsvd hd hs hsz hb he
  have hw := xTT_wf (X := X) (by omega) hs
  obtain ⟨Z, eZ, hZ⟩ := xTT_full (X := X) (by omega) hs
  obtain ⟨Y, eY, -⟩ := full_ok f.wf
  obtain ⟨s1, d1, n1, -⟩ := dense_dist_eqv hw f.wf f.rows rfl f.batch eZ hZ eY
  refine ⟨x, Y, e, f.wf, by rw [f.rows, xTT_rawShape], f.batch, fun k h0 hk => f.rank k h0 (by rw [xTT_ndims]; exact hk), fun svd' h' => ?_,
    fun k hk => f.orth k (by rw [xTT_ndims]; exact hk), eY, s1, fun S G hS hSr hSb hSk eG => ?_⟩
  · obtain ⟨y, ey, g⟩ := toTTTensor_fit h' hd hs hb he
    exact ⟨y, ey, f.ranks hw g⟩
  · have hSr' : S.rawShape = (xTT X).rawShape := by rw [hSr, xTT_rawShape]
    have h1 := f.bound hε hS hSr' (by rw [xTT_ndims]; exact hSk)
    rw [xTT_ndims] at h1
    rw [d1, n1, (dense_dist_eqv hw hS hSr' rfl hSb eZ hZ eG).2.1]
    exact h1

/-- **C81.** A dense tensor that has a tensor train representation within the bounds is decomposed with a small relative error. -/
theorem C81_tensor_exact {F : FloatRoutines} {A : Arith} (hF : F.Follows A) {ε : ℝ} (hε : 0 ≤ ε) {size : ℕ} {svd : SVDRoutine} (hsvd : svd.Backward ε size)
    {X : Tensor ℝ} (hd : 2 ≤ X.shape.length) (hs : ∀ n ∈ X.shape, 0 < n) (hsz : X.shape.prod ≤ size)
    {m : MaxRank} {b : ℕ → ℕ} (hb : m.Bounds X.shape.length b) {eps : Option ℝ} (he : ∀ e ∈ eps, 0 ≤ e)
    {S : TT ℝ} (hS : S.WF) (hrs : S.rawShape = [X.shape]) (hSb : S.batch = none) (hr : ∀ k, 0 < k → k < X.shape.length → S.rank k ≤ b k)
    {G : Tensor ℝ} (hG : full S = Except.ok G) (hGX : G ≃ₜ X) :
    ∃ x Y, toTTTensorF F svd X m eps = Except.ok x ∧ full x = Except.ok Y ∧ Y.shape = X.shape ∧
      √(X.distSq Y [] X.shape) ≤ (√(X.shape.length - 1 : ℕ) + 1) *
        ((1 + ε) ^ (3 * (X.shape.length - 1)) * (1 + A.u) ^ (∑ k ∈ Finset.Ico 1 X.shape.length, x.rank k) - 1) * √(X.normSq [] X.shape) := by
  obtain ⟨x, Y, e, -, -, -, -, -, -, eY, sY, h⟩ := C81_tensor hF hε hsvd hd hs hsz hb he
  refine ⟨x, Y, e, eY, sY, ?_⟩
  have h1 := h S G hS hrs hSb hr hG
  rw [(distSq_zero (pre := []) rfl hGX.1).2 hGX [] trivial, Real.sqrt_zero, mul_zero, zero_add] at h1
  exact h1

/-- **C81.** With `max_tt_rank[k]` at least `n_k ... n_{d-1}` for all `k`, the only errors are rounding errors. -/
theorem C81_tensor_lossless {F : FloatRoutines} {A : Arith} (hF : F.Follows A) {ε : ℝ} (hε : 0 ≤ ε) {size : ℕ} {svd : SVDRoutine}
    (hsvd : svd.Backward ε size) {X : Tensor ℝ} (hd : 2 ≤ X.shape.length) (hs : ∀ n ∈ X.shape, 0 < n) (hsz : X.shape.prod ≤ size)
    {m : MaxRank} {b : ℕ → ℕ} (hb : m.Bounds X.shape.length b) {eps : Option ℝ} (he : ∀ e ∈ eps, 0 ≤ e)
    (hr : ∀ k, 0 < k → k < X.shape.length → (X.shape.drop k).prod ≤ b k) :
    ∃ x Y, toTTTensorF F svd X m eps = Except.ok x ∧ full x = Except.ok Y ∧ Y.shape = X.shape ∧
      √(X.distSq Y [] X.shape) ≤ (√(X.shape.length - 1 : ℕ) + 1) *
        ((1 + ε) ^ (3 * (X.shape.length - 1)) * (1 + A.u) ^ (∑ k ∈ Finset.Ico 1 X.shape.length, x.rank k) - 1) * √(X.normSq [] X.shape) := by
  obtain ⟨Z, eZ, hZ⟩ := xTT_full (X := X) (by omega) hs
  refine C81_tensor_exact hF hε hsvd hd hs hsz hb he (xTT_wf (by omega) hs) xTT_rawShape rfl (fun k h0 hk => ?_) eZ hZ
  rw [xTT_rank (by omega), xRank, if_neg (by omega)]
  exact hr k h0 hk

/-- **C81.** `to_tt_matrix` in floating point arithmetic. The matrix may be given flat: `X` is any tensor with the right number of elements, `B` the matrix
with these elements row by row. -/
theorem C81_matrix {F : FloatRoutines} {A : Arith} (hF : F.Follows A) {ε : ℝ} (hε : 0 ≤ ε) {size : ℕ} {svd : SVDRoutine} (hsvd : svd.Backward ε size)
    {X B : Tensor ℝ} {a b : List ℕ} (hX : X.shape.prod = a.prod * b.prod) (hsz : X.shape.prod ≤ size)
    (hab : a.length = b.length) (hd : 2 ≤ a.length) (ha : ∀ n ∈ a, 0 < n) (hb0 : ∀ n ∈ b, 0 < n) {ra rb : Option (List ℕ)}
    (hf : RowArgs a b ra rb) (hB : B.shape = [a.prod, b.prod])
    (hBX : ∀ x < a.prod, ∀ y < b.prod, B.get [x, y] = X.get (unravel X.shape (x * b.prod + y)))
    {m : MaxRank} {bd : ℕ → ℕ} (hb : m.Bounds a.length bd) {eps : Option ℝ} (he : ∀ e ∈ eps, 0 ≤ e) :
    ∃ x Y, toTTMatrixF F svd X ra rb m eps = Except.ok x ∧ x.WF ∧ x.rawShape = [a, b] ∧ x.batch = none ∧
      (∀ k, 0 < k → k < a.length → x.rank k ≤ bd k) ∧
      (∀ k, k + 1 < a.length → x.NearLeftOrthonormal [] k ε) ∧
      full x = Except.ok Y ∧ Y.shape = B.shape ∧
      ∀ (S : TT ℝ) (G : Tensor ℝ), S.WF → S.rawShape = [a, b] → S.batch = none → (∀ k, 0 < k → k < a.length → S.rank k ≤ bd k) →
        full S = Except.ok G →
        √(B.distSq Y [] B.shape) ≤ √(a.length - 1 : ℕ) * √(B.distSq G [] B.shape) +
          (√(a.length - 1 : ℕ) + 1) * ((1 + ε) ^ (3 * (a.length - 1)) * (1 + A.u) ^ (∑ k ∈ Finset.Ico 1 a.length, x.rank k) - 1) *
            √(B.normSq [] B.shape) := by
  obtain ⟨x, z, Z, e, hw, hr, hb', eZ, sZ, vZ, f⟩ := toTTMatrixF_fit hF hε hsvd hX hsz hab hd ha hb0 hf.fill hb he
  have hZB : Z ≃ₜ B := by
    refine ⟨by rw [sZ, hB], fun i hi => ?_⟩
    rw [sZ] at hi
    obtain ⟨u, v, rfl, hu, hv⟩ := (valid_pair _ _ _).1 hi
    rw [vZ u hu v hv, hBX u hu v hv]; rfl
  have hn : z.ndims = a.length := (hw.rows_len a (by rw [hr]; simp)).symm
  obtain ⟨Y, eY, -⟩ := full_ok f.wf
  obtain ⟨s1, d1, n1, -⟩ := dense_dist_eqv hw f.wf f.rows hb' f.batch eZ hZB eY
  refine ⟨x, Y, e, f.wf, by rw [f.rows, hr], f.batch, fun k h0 hk => f.rank k h0 (by omega), fun k hk => f.orth k (by omega), eY, s1,
    fun S G hS hSr hSb hSk eG => ?_⟩
  have hSr' : S.rawShape = z.rawShape := by rw [hSr, hr]
  have h1 := f.bound hε hS hSr' (by rw [hn]; exact hSk)
  rw [hn] at h1
  rw [d1, n1, (dense_dist_eqv hw hS hSr' hb' hSb eZ hZB eG).2.1]
  exact h1

/-! ## The hypotheses can be met -/

/-- Every arithmetic, with a routine that has a backward error of `10⁻⁶`. -/
example (A : Arith) : ∃ svd : SVDRoutine, ∀ size, (naiveRoutines A).Follows A ∧ svd.Backward (1 / 10 ^ 6) size := by
  obtain ⟨svd, h⟩ := svdRoutine_exists
  exact ⟨skewS svd _, fun size => ⟨naive_follows A, skewS_backward h (by norm_num) size⟩⟩

/-- A dense tensor that is truncated. -/
example : 2 ≤ exDense.shape.length ∧ (∀ n ∈ exDense.shape, 0 < n) ∧ exDense.shape.prod ≤ 12 ∧
    (MaxRank.list [1, 1, 2, 1]).Bounds exDense.shape.length (fun k => [1, 1, 2, 1].getD k 0) :=
  ⟨by simp [exDense], by simp [exDense], by simp [exDense], Or.inr ⟨[1, 1, 2, 1], rfl, rfl, by simp, fun _ _ => rfl⟩⟩

/-- The bound of `C81_tensor` with single precision: the error is at most `3 · 10⁻⁵` times the norm for a tensor with three axes, TT-ranks of two and routines with
a backward error of `10⁻⁶`, if the tensor has a representation within the bounds. -/
example {u : ℝ} (h0 : 0 ≤ u) (hu : u ≤ 1 / 10 ^ 7) : (√(3 - 1 : ℕ) + 1) * ((1 + 1 / 10 ^ 6) ^ (3 * (3 - 1)) * (1 + u) ^ (2 + 2) - 1) ≤ 3 / 10 ^ 5 := by
  have h1 : (1 + u) ^ (2 + 2) ≤ (1 + 1 / 10 ^ 7) ^ (2 + 2) := pow_le_pow_left₀ (by linarith) (by linarith) _
  have h2 : √((3 - 1 : ℕ) : ℝ) ≤ 2 := by
    rw [show ((3 - 1 : ℕ) : ℝ) = 2 by norm_num]
    exact Real.sqrt_le_iff.2 ⟨by norm_num, by norm_num⟩
  have h3 : (1 + 1 / 10 ^ 6 : ℝ) ^ (3 * (3 - 1)) * (1 + u) ^ (2 + 2) - 1 ≤ 1 / 10 ^ 5 := by
    have := mul_le_mul_of_nonneg_left h1 (show (0 : ℝ) ≤ (1 + 1 / 10 ^ 6) ^ (3 * (3 - 1)) by positivity)
    refine (sub_le_sub_right this 1).trans ?_
    norm_num
  have h4 : (0 : ℝ) ≤ (1 + 1 / 10 ^ 6) ^ (3 * (3 - 1)) * (1 + u) ^ (2 + 2) - 1 := by
    have a1 : (1 : ℝ) ≤ (1 + 1 / 10 ^ 6) ^ (3 * (3 - 1)) := one_le_pow₀ (by norm_num)
    have a2 : 1 ≤ (1 + u) ^ (2 + 2) := one_le_pow₀ (by linarith)
    have := one_le_mul_of_one_le_of_one_le a1 a2
    linarith
  calc _ ≤ (2 + 1) * (1 / 10 ^ 5 : ℝ) := mul_le_mul (by linarith) h3 h4 (by norm_num)
    _ = _ := by norm_num

end T3f
