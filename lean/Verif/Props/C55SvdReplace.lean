import Verif.Model.SvdReplace
import Verif.Proofs.OrthoRL
import Verif.Proofs.Svd
import Verif.Spec.Entry

/-!
# C55: replacing `tf.linalg.svd` by NumPy's

After `replace_tf_svd_with_np_svd()` the function `tf.linalg.svd` still computes what the rest of the library expects of it.
-/

namespace T3f

open Matrix

theorem swapOrder_pre (bs : Option ℕ) (n m : ℕ) :
    swapOrder (bs.toList ++ [n, m]).length = Except.ok (List.range bs.toList.length ++ [bs.toList.length + 1, bs.toList.length]) := by
  cases bs <;> rfl

theorem mySvd_run (np : NpSVDRoutine) (bs : Option ℕ) (n m : ℕ) (A : Tensor ℝ) (hA : A.shape = bs.toList ++ [n, m]) :
    ∃ v, mySvd np A = Except.ok (ofVecs bs.toList (min n m) fun p => np.s n m (A.mat p n m),
        ofMats bs.toList n (min n m) fun p => np.u n m (A.mat p n m), v) ∧ v.shape = bs.toList ++ [m, min n m] ∧
      ∀ p, Valid bs.toList p → v.mat p m (min n m) = (np.vh n m (A.mat p n m))ᵀ := by
  obtain ⟨v, ev, sv, gv⟩ := transpose_pre (A := ofMats bs.toList (min n m) m fun p => np.vh n m (A.mat p n m)) (bs := bs) rfl
  refine ⟨v, ?_, sv, fun p hp => ?_⟩
  · unfold mySvd npLinalgSVD
    rw [hA, matShape_pre, R.ok_bind]
    simp only [if_true]
    rw [swapOrder_pre]
    simp only [pure, Except.pure, R.ok_bind, unpack3]
    rw [ev, R.ok_bind]
  · ext j l
    simp only [Tensor.mat, of_apply, transpose_apply]
    rw [gv p hp, ofMats_get _ _ _ _ _ _ _ hp.length_eq l.isLt j.isLt]
    rfl

/-- For a matrix, or a batch of matrices, the replacement returns `(s, u, v)` with orthonormal columns of `u` and of `v`, nonnegative
non-increasing `s`, and `u diag(s) vᵀ` equal to the argument: the contract of TensorFlow's function, with `v` not transposed. -/
theorem C55_contract {np : NpSVDRoutine} (hnp : np.Correct) (bs : Option ℕ) (n m : ℕ) (A : Tensor ℝ) (hA : A.shape = bs.toList ++ [n, m]) :
    ∃ s u v, mySvd np A = Except.ok (s, u, v) ∧
      s.shape = bs.toList ++ [min n m] ∧ u.shape = bs.toList ++ [n, min n m] ∧ v.shape = bs.toList ++ [m, min n m] ∧
      ∀ p, Valid bs.toList p →
        (u.mat p n (min n m))ᵀ * u.mat p n (min n m) = 1 ∧ (v.mat p m (min n m))ᵀ * v.mat p m (min n m) = 1 ∧
        (∀ i < min n m, 0 ≤ s.get (p ++ [i])) ∧ (∀ i j, i ≤ j → j < min n m → s.get (p ++ [j]) ≤ s.get (p ++ [i])) ∧
        ∀ i < n, ∀ j < m, A.get (p ++ [i, j]) = ∑ l ∈ Finset.range (min n m), u.get (p ++ [i, l]) * s.get (p ++ [l]) * v.get (p ++ [j, l]) := by
  obtain ⟨v, e, sv, gv⟩ := mySvd_run np bs n m A hA
  refine ⟨_, _, v, e, rfl, rfl, sv, fun p hp => ?_⟩
  obtain ⟨h1, h2, h3, h4, h5⟩ := hnp n m (A.mat p n m)
  rw [ofMats_mat _ _ _ hp.length_eq, gv p hp, transpose_transpose]
  refine ⟨h1, h2, fun i hi => ?_, fun i j hij hj => ?_, fun i hi j hj => ?_⟩
  · rw [ofVecs_get _ _ _ _ _ hp.length_eq hi]
    exact h3 _
  · rw [ofVecs_get _ _ _ _ _ hp.length_eq hj, ofVecs_get _ _ _ _ _ hp.length_eq (hij.trans_lt hj)]
    exact h4 hij
  · have h6 := congrFun (congrFun h5 ⟨i, hi⟩) ⟨j, hj⟩
    rw [mul_apply] at h6
    rw [show A.get (p ++ [i, j]) = A.mat p n m ⟨i, hi⟩ ⟨j, hj⟩ from rfl, ← h6, Finset.sum_range]
    refine Finset.sum_congr rfl fun l _ => ?_
    have h7 := congrFun (congrFun (gv p hp) ⟨j, hj⟩) l
    rw [mul_diagonal, ofMats_get _ _ _ _ _ _ _ hp.length_eq hi l.isLt, ofVecs_get _ _ _ _ _ hp.length_eq l.isLt,
      show v.get (p ++ [j, (l : ℕ)]) = v.mat p m (min n m) ⟨j, hj⟩ l from rfl, h7]
    rfl

/-- The results of the replacement are those of a routine with the specification that the theorems about `round`, `to_tt_tensor` and `to_tt_matrix` assume
of `tf.linalg.svd` (C31-C33). -/
theorem C55_routine {np : NpSVDRoutine} (hnp : np.Correct) :
    ∃ svd : SVDRoutine, svd.Correct ∧ ∀ (bs : Option ℕ) (n m : ℕ) (A : Tensor ℝ), A.shape = bs.toList ++ [n, m] →
      ∃ s u v s' u' v', mySvd np A = Except.ok (s, u, v) ∧ linalgSVD svd A = Except.ok (s', u', v') ∧ s ≃ₜ s' ∧ u ≃ₜ u' ∧ v ≃ₜ v' := by
  refine ⟨⟨np.s, np.u, fun n m A => (np.vh n m A)ᵀ⟩, fun n m A => ?_, fun bs n m A hA => ?_⟩
  · obtain ⟨h1, h2, h3, h4, h5⟩ := hnp n m A
    exact ⟨h1, by rwa [transpose_transpose], h3, h4, by rwa [transpose_transpose]⟩
  · obtain ⟨v, e, sv, gv⟩ := mySvd_run np bs n m A hA
    refine ⟨_, _, v, _, _, _, e, by unfold linalgSVD; rw [hA, matShape_pre, R.ok_bind]; rfl, Tensor.Eqv.refl _, Tensor.Eqv.refl _, sv, fun i hi => ?_⟩
    rw [sv] at hi
    obtain ⟨p, q, rfl, hp, hq⟩ := valid_append_iff.1 hi
    obtain ⟨x, y, rfl, hx, hy⟩ := (valid_pair _ _ _).1 hq
    rw [ofMats_get _ _ _ _ _ _ _ hp.length_eq hx hy]
    exact congrFun (congrFun (gv p hp) ⟨x, hx⟩) ⟨y, hy⟩

/-- Asking for the singular values only always fails, for matrices and for batches of matrices (also when the unpacking of the array of the singular values into
three items happens to work). -/
theorem C55_only_s (np : NpSVDRoutine) (A : Tensor ℝ) : ∃ e, mySvd np A false = Except.error e := by
  unfold mySvd npLinalgSVD
  cases hs : matShape A.shape with
  | error e => exact ⟨e, rfl⟩
  | ok x =>
    obtain ⟨pre, n, m⟩ := x
    obtain ⟨bs, hA⟩ : ∃ bs : Option ℕ, A.shape = bs.toList ++ [n, m] ∧ pre = bs.toList := by
      unfold matShape at hs
      split at hs
      · rename_i h; injection hs with hs; injection hs with h1 hs; injection hs with h2 h3
        exact ⟨none, by rw [h, h2, h3]; rfl, h1.symm⟩
      · rename_i h; injection hs with hs; injection hs with h1 hs; injection hs with h2 h3
        exact ⟨some _, by rw [h, h2, h3]; rfl, h1.symm⟩
      · exact absurd hs (by simp)
    obtain ⟨hA, rfl⟩ := hA
    rw [R.ok_bind]
    simp only [Bool.false_eq_true, if_false, pure, Except.pure, R.ok_bind, unpack3]
    split
    · rename_i sh h
      rw [R.ok_bind]
      simp only []
      rw [hA, swapOrder_pre, R.ok_bind]
      refine ⟨Err.tf, ?_⟩
      have : sh.length = bs.toList.length := by
        have := congrArg List.length h
        simp [ofVecs] at this
        omega
      unfold transpose
      rw [if_neg]
      · rfl
      · intro hp
        have := hp.length_eq
        simp at this
        omega
    · exact ⟨Err.value, rfl⟩

/-- The error: the array of the singular values has no three items to unpack (ValueError), or it has, and an item has too few axes to be transposed. -/
theorem C55_only_s_error (np : NpSVDRoutine) {bs : Option ℕ} {n m : ℕ} (A : Tensor ℝ) (hA : A.shape = bs.toList ++ [n, m]) :
    mySvd np A false = Except.error (if bs.getD (min n m) = 3 then Err.tf else Err.value) := by
  unfold mySvd npLinalgSVD
  rw [hA, matShape_pre, R.ok_bind]
  simp only [Bool.false_eq_true, if_false, pure, Except.pure, R.ok_bind, unpack3]
  split
  · rename_i sh h
    rw [R.ok_bind]
    simp only []
    rw [swapOrder_pre, R.ok_bind]
    have h3 : bs.getD (min n m) = 3 := by cases bs <;> simp_all [ofVecs]
    have : sh.length = bs.toList.length := by
      have := congrArg List.length h
      simp [ofVecs] at this
      omega
    rw [if_pos h3]
    unfold transpose
    rw [if_neg]
    · rfl
    · intro hp
      have := hp.length_eq
      simp at this
      omega
  · rename_i h
    rw [if_neg]
    · rfl
    · intro h3
      cases bs with
      | none => exact h [] (by simp_all [ofVecs])
      | some B => exact h [min n m] (by simp_all [ofVecs])

/-- Calling the function twice is the same as calling it once: TensorFlow's own routine stays in `tf.original_svd`. -/
theorem C55_idempotent {F : Type} (my my' : F) (tf : TfModule F) (h : tf.originalSvd = none) :
    (replaceSvd my tf).svd = my ∧ (replaceSvd my tf).originalSvd = some tf.svd ∧ replaceSvd my' (replaceSvd my tf) = replaceSvd my tf := by
  simp [replaceSvd, h]

theorem npSVDRoutine_exists : ∃ np : NpSVDRoutine, np.Correct := by
  obtain ⟨svd, h⟩ := svdRoutine_exists
  refine ⟨⟨svd.u, svd.s, fun n m A => (svd.v n m A)ᵀ⟩, fun n m A => ?_⟩
  obtain ⟨h1, h2, h3, h4, h5⟩ := h n m A
  exact ⟨h1, by rwa [transpose_transpose], h3, h4, h5⟩

/-- A batch of two `2 × 3` matrices. -/
example : ∃ (np : NpSVDRoutine) (A : Tensor ℝ), np.Correct ∧ A.shape = (some 2).toList ++ [2, 3] ∧ A.get [1, 0, 2] = 5 := by
  obtain ⟨np, h⟩ := npSVDRoutine_exists
  exact ⟨np, ⟨[2, 2, 3], fun i => i.getD 0 0 + 2 * i.getD 2 0⟩, h, rfl, by norm_num⟩

example : (⟨0, none⟩ : TfModule ℕ).originalSvd = none := rfl

end T3f
