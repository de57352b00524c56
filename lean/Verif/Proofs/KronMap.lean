import Verif.Proofs.Kronecker
import Verif.Proofs.Cholesky
import Verif.Proofs.ChainEntry
import Verif.Proofs.Matmul

/-! # Inverse and Cholesky factor of a Kronecker product -/

namespace T3f

open Matrix

theorem ofMats_get {K : Type} [Zero K] (pre : List ℕ) (n m : ℕ) (f : List ℕ → Matrix (Fin n) (Fin m) K) (p : List ℕ) (i j : ℕ)
    (hp : p.length = pre.length) (hi : i < n) (hj : j < m) : (ofMats pre n m f).get (p ++ [i, j]) = f p ⟨i, hi⟩ ⟨j, hj⟩ := by
  have h1 : (p ++ [i, j]).getD pre.length 0 = i := by simp [← hp]
  have h2 : (p ++ [i, j]).getD (pre.length + 1) 0 = j := by simp [← hp]
  have h3 : (p ++ [i, j]).take pre.length = p := by simp [← hp]
  simp only [ofMats, h1, h2, h3, hi, hj, and_self, dif_pos]

/-- The function applied to each core works matrix by matrix. -/
def Matrixwise (f : Tensor ℝ → R (Tensor ℝ)) (Q : ∀ n, Matrix (Fin n) (Fin n) ℝ → Prop)
    (g : ∀ n, Matrix (Fin n) (Fin n) ℝ → Matrix (Fin n) (Fin n) ℝ) : Prop :=
  ∀ (A : Tensor ℝ) (bs : Option ℕ) (n : ℕ), A.shape = bs.toList ++ [n, n] →
    ((∀ p, Valid bs.toList p → Q n (A.mat p n n)) → f A = Except.ok (ofMats bs.toList n n fun p => g n (A.mat p n n))) ∧
    ((¬ ∀ p, Valid bs.toList p → Q n (A.mat p n n)) → f A = Except.error Err.tf)

theorem matrixwise_inv : Matrixwise linalgInv (fun _ M => M.det ≠ 0) (fun _ M => M⁻¹) := by
  intro A bs n hA
  unfold linalgInv
  rw [hA, squareShape_spec, R.ok_bind]
  exact ⟨fun h => if_pos h, fun h => if_neg h⟩

theorem matrixwise_cholesky : Matrixwise linalgCholesky (fun _ M => ∃ L, CholeskyOf M L) (fun _ M => choleskyMat M) := by
  intro A bs n hA
  unfold linalgCholesky
  rw [hA, squareShape_spec, R.ok_bind]
  exact ⟨fun h => if_pos h, fun h => if_neg h⟩

theorem kron_expand {bs : Option ℕ} (x : Tensor ℝ) (n : ℕ) (hx : x.shape = bs.toList ++ [n, n]) :
    ∃ C, (if bs.isSome then do
        let y ← expandDims x 1
        expandDims y y.shape.length
      else do
        let y ← expandDims x 0
        expandDims y y.shape.length) = Except.ok C ∧ C.shape = bs.toList ++ 1 :: ([n, n] ++ [1]) ∧
      ∀ p, Valid bs.toList p → ∀ i j, C.get (p ++ [0, i, j, 0]) = x.get (p ++ [i, j]) := by
  obtain ⟨s, g⟩ := x
  simp only at hx
  subst hx
  cases bs with
  | none =>
    refine ⟨_, rfl, rfl, fun p hp i j => ?_⟩
    obtain rfl := (valid_nil_iff p).1 hp
    rfl
  | some b =>
    refine ⟨_, rfl, rfl, fun p hp i j => ?_⟩
    obtain ⟨x, rfl, -⟩ := (valid_singleton _ _).1 hp
    rfl

theorem isBatch_eq {K : Type} (t : TT K) : t.isBatch = t.batch.isSome := by
  cases h : t.batch <;> simp [TT.isBatch, h]

theorem kronMap_step {t : TT ℝ} {I : List ℕ} (h : IsKronecker t I) {f : Tensor ℝ → R (Tensor ℝ)}
    {Q : ∀ n, Matrix (Fin n) (Fin n) ℝ → Prop} {g : ∀ n, Matrix (Fin n) (Fin n) ℝ → Matrix (Fin n) (Fin n) ℝ}
    (hf : Matrixwise f Q g) (k : ℕ) (hk : k < t.ndims) :
    ((∀ p, Valid t.bpre p → Q (I.getD k 0) (fmat (I.getD k 0) (kfac t p k))) →
      ∃ C, (do
        let core ← kronCore t k
        let x ← f core
        if t.isBatch then do
          let y ← expandDims x 1
          expandDims y y.shape.length
        else do
          let y ← expandDims x 0
          expandDims y y.shape.length) = Except.ok C ∧ C.shape = t.bpre ++ 1 :: ([I.getD k 0, I.getD k 0] ++ [1]) ∧
        ∀ p, Valid t.bpre p → fmat (I.getD k 0) (fun i j => C.get (p ++ [0, i, j, 0])) =
          g _ (fmat (I.getD k 0) (kfac t p k))) ∧
    ((¬ ∀ p, Valid t.bpre p → Q (I.getD k 0) (fmat (I.getD k 0) (kfac t p k))) →
      (do
        let core ← kronCore t k
        let x ← f core
        if t.isBatch then do
          let y ← expandDims x 1
          expandDims y y.shape.length
        else do
          let y ← expandDims x 0
          expandDims y y.shape.length) = Except.error Err.tf) := by
  obtain ⟨A, e, s, v⟩ := kronCore_spec h k hk
  have hA := hf A t.batch (I.getD k 0) s
  have hQ : (∀ p, Valid t.bpre p → Q (I.getD k 0) (fmat (I.getD k 0) (kfac t p k))) ↔
      ∀ p, Valid t.batch.toList p → Q (I.getD k 0) (A.mat p (I.getD k 0) (I.getD k 0)) := by
    refine forall_congr' fun p => forall_congr' fun hp => ?_
    rw [v p hp]
  rw [e, R.ok_bind, isBatch_eq]
  constructor
  · intro hq
    rw [hA.1 (hQ.1 hq), R.ok_bind]
    obtain ⟨C, eC, sC, vC⟩ := kron_expand (bs := t.batch) (ofMats t.batch.toList (I.getD k 0) (I.getD k 0)
      fun p => g _ (A.mat p (I.getD k 0) (I.getD k 0))) (I.getD k 0) rfl
    refine ⟨C, eC, sC, fun p hp => ?_⟩
    ext i j
    rw [← v p hp]
    simp only [fmat, Matrix.of_apply]
    rw [vC p hp]
    exact ofMats_get t.batch.toList _ _ _ p i j hp.length_eq i.isLt j.isLt
  · intro hq
    rw [hA.2 (fun h' => hq (hQ.2 h'))]
    rfl

theorem kronMap_ok {t : TT ℝ} {I : List ℕ} (h : IsKronecker t I) {f : Tensor ℝ → R (Tensor ℝ)}
    {Q : ∀ n, Matrix (Fin n) (Fin n) ℝ → Prop} {g : ∀ n, Matrix (Fin n) (Fin n) ℝ → Matrix (Fin n) (Fin n) ℝ}
    (hf : Matrixwise f Q g)
    (hq : ∀ k < t.ndims, ∀ p, Valid t.bpre p → Q (I.getD k 0) (fmat (I.getD k 0) (kfac t p k))) :
    ∃ u, kronMap f t = Except.ok u ∧ IsKronecker u I ∧ u.batch = t.batch ∧ u.ttRanks = t.ttRanks ∧
      ∀ k < t.ndims, ∀ p, Valid t.bpre p → fmat (I.getD k 0) (kfac u p k) = g _ (fmat (I.getD k 0) (kfac t p k)) := by
  obtain ⟨cores, e, l, hc, v⟩ := Chain.build (fun k => do
        let core ← kronCore t k
        let x ← f core
        if t.isBatch then do
          let y ← expandDims x 1
          expandDims y y.shape.length
        else do
          let y ← expandDims x 0
          expandDims y y.shape.length) t.ndims t.batch t.rank (fun k => [I.getD k 0, I.getD k 0]) 2
    (fun k C => ∀ p, Valid t.bpre p → fmat (I.getD k 0) (fun i j => C.get (p ++ [0, i, j, 0])) =
          g _ (fmat (I.getD k 0) (kfac t p k))) h.wf.pos h.wf.rank_first h.wf.rank_last h.wf.rank_pos (Or.inr rfl)
    (fun _ _ => rfl) h.wf.batch_pos (fun k hk => by
      rw [h.rank_one k hk.le, h.rank_one (k + 1) hk]
      exact (kronMap_step h hf k hk).1 (hq k hk))
  have hrows : t.rawShape = rowsOf (fun k => [I.getD k 0, I.getD k 0]) cores.length 2 := by
    have := h.wf.rows_eq
    have hm : t.modes = fun k => [I.getD k 0, I.getD k 0] := by funext k; simp only [TT.modes, h.rows]; rfl
    rw [hm] at this
    rw [l, this, h.rows]
    rfl
  have hrk : t.ttRanks = ranksOf t.rank cores.length := by rw [l]; exact h.wf.ranks_eq
  refine ⟨chainTT t.batch cores t.rank (fun k => [I.getD k 0, I.getD k 0]) 2, ?_, ⟨hc.wf, ?_, ?_, h.pos⟩, rfl, hrk.symm, ?_⟩
  · unfold kronMap
    rw [h.check, R.ok_bind, e, R.ok_bind]
    cases hb : t.batch with
    | none =>
      rw [hb] at hc
      rw [if_neg (by simp [TT.isBatch, hb])]
      exact mkTT_ok hc _ (Or.inr (hc.clean hrows)) _ (Or.inr (by rw [hrk]))
    | some b =>
      rw [hb] at hc
      rw [if_pos (by simp [TT.isBatch, hb])]
      exact mkBatch_ok hc _ (Or.inr (hc.clean hrows)) _ (Or.inr (by rw [hrk])) _ (Or.inl rfl)
  · rw [← h.rows, hrows]; rfl
  · intro r hr
    exact h.ones r (by rw [hrk]; exact hr)
  · exact fun k hk p hp => v k hk p hp

theorem kronMap_error {t : TT ℝ} {I : List ℕ} (h : IsKronecker t I) {f : Tensor ℝ → R (Tensor ℝ)}
    {Q : ∀ n, Matrix (Fin n) (Fin n) ℝ → Prop} {g : ∀ n, Matrix (Fin n) (Fin n) ℝ → Matrix (Fin n) (Fin n) ℝ}
    (hf : Matrixwise f Q g)
    (hq : ¬ ∀ k < t.ndims, ∀ p, Valid t.bpre p → Q (I.getD k 0) (fmat (I.getD k 0) (kfac t p k))) :
    kronMap f t = Except.error Err.tf := by
  unfold kronMap
  rw [h.check, R.ok_bind, mapRange_error _ _ Err.tf]
  · rfl
  · push Not at hq
    obtain ⟨k, hk, p, hp, hn⟩ := hq
    exact ⟨k, hk, (kronMap_step h hf k hk).2 fun h' => hn (h' p hp)⟩
  · intro k hk
    by_cases hk' : ∀ p, Valid t.bpre p → Q (I.getD k 0) (fmat (I.getD k 0) (kfac t p k))
    · obtain ⟨C, e, -⟩ := (kronMap_step h hf k hk).1 hk'
      exact Or.inl ⟨C, e⟩
    · exact Or.inr ((kronMap_step h hf k hk).2 hk')

theorem kmat_mul_one {I : List ℕ} {f g : ℕ → ℕ → ℕ → ℝ} (h : ∀ k < I.length, fmat (I.getD k 0) (f k) * fmat (I.getD k 0) (g k) = 1) :
    kmat I f * kmat I g = 1 := by
  rw [kmat_mul]
  refine kmat_one _ _ fun k hk i hi j hj => ?_
  have := congrFun (congrFun (h k hk) ⟨i, hi⟩) ⟨j, hj⟩
  rw [fmat_mul] at this
  rw [fmat, Matrix.of_apply] at this
  rw [this, Matrix.one_apply]
  simp only [Fin.mk.injEq]

theorem det_kmat_ne_zero {I : List ℕ} (hp : ∀ n ∈ I, 0 < n) (f : ℕ → ℕ → ℕ → ℝ) :
    (kmat I f).det ≠ 0 ↔ ∀ k < I.length, (fmat (I.getD k 0) (f k)).det ≠ 0 := by
  rw [det_kmat I hp, Finset.prod_ne_zero_iff]
  simp only [Finset.mem_range]
  refine forall_congr' fun k => forall_congr' fun hk => ?_
  exact pow_ne_zero_iff (corePow_eq hp k hk).2.ne'

theorem kronInv_ok {t : TT ℝ} {I : List ℕ} (h : IsKronecker t I)
    (hd : ∀ p, Valid t.bpre p → (kmat I (kfac t p)).det ≠ 0) :
    ∃ u, kronInv t = Except.ok u ∧ IsKronecker u I ∧ u.batch = t.batch ∧ u.ttRanks = t.ttRanks ∧
      ∀ p, Valid t.bpre p → kmat I (kfac u p) = (kmat I (kfac t p))⁻¹ := by
  have hq : ∀ k < t.ndims, ∀ p, Valid t.bpre p → (fmat (I.getD k 0) (kfac t p k)).det ≠ 0 := fun k hk p hp =>
    (det_kmat_ne_zero h.pos _).1 (hd p hp) k (by rw [h.length]; exact hk)
  obtain ⟨u, e, hu, hb, hr, v⟩ := kronMap_ok h matrixwise_inv hq
  refine ⟨u, e, hu, hb, hr, fun p hp => ?_⟩
  refine (Matrix.inv_eq_right_inv (kmat_mul_one fun k hk => ?_)).symm
  have hk : k < t.ndims := by rw [← h.length]; exact hk
  rw [v k hk p hp]
  exact Matrix.mul_nonsing_inv _ (isUnit_iff_ne_zero.2 (hq k hk p hp))

theorem kronInv_error {t : TT ℝ} {I : List ℕ} (h : IsKronecker t I) {p : List ℕ} (hp : Valid t.bpre p)
    (hd : (kmat I (kfac t p)).det = 0) : kronInv t = Except.error Err.tf := by
  refine kronMap_error h matrixwise_inv fun hq => ?_
  exact ((det_kmat_ne_zero h.pos (kfac t p)).2 fun k hk => hq k (by rw [← h.length]; exact hk) p hp) hd

theorem kronCholesky_ok {t : TT ℝ} {I : List ℕ} (h : IsKronecker t I)
    (hd : ∀ k < t.ndims, ∀ p, Valid t.bpre p → (fmat (I.getD k 0) (kfac t p k)).PosDef) :
    ∃ u, kronCholesky t = Except.ok u ∧ IsKronecker u I ∧ u.batch = t.batch ∧ u.ttRanks = t.ttRanks ∧
      ∀ p, Valid t.bpre p → (∀ x y, x < y → kmat I (kfac u p) x y = 0) ∧ (∀ x, 0 < kmat I (kfac u p) x x) ∧
        kmat I (kfac u p) * (kmat I (kfac u p)).transpose = kmat I (kfac t p) := by
  obtain ⟨u, e, hu, hb, hr, v⟩ := kronMap_ok h matrixwise_cholesky fun k hk p hp => cholesky_exists (hd k hk p hp)
  refine ⟨u, e, hu, hb, hr, fun p hp => ?_⟩
  have key : ∀ k < I.length, CholeskyOf (fmat (I.getD k 0) (kfac t p k)) (fmat (I.getD k 0) (kfac u p k)) := by
    intro k hk
    have hk : k < t.ndims := by rw [← h.length]; exact hk
    rw [v k hk p hp]
    exact choleskyMat_spec (cholesky_exists (hd k hk p hp))
  refine ⟨?_, ?_, ?_⟩
  · exact kmat_triangular I _ fun k hk i j hij hj => (key k hk).1 ⟨i, hij.trans hj⟩ ⟨j, hj⟩ hij
  · intro x
    simp only [kmat, Matrix.of_apply]
    refine Finset.prod_pos fun k hk => ?_
    have hk := Finset.mem_range.1 hk
    exact (key k hk).2.1 ⟨_, getD_unravel_lt x.isLt k hk⟩
  · rw [kmat_transpose, kmat_mul]
    refine kmat_congr _ _ _ fun k hk i hi j hj => ?_
    have hs : (fmat (I.getD k 0) (kfac t p k)).IsSymm := by
      have := (hd k (by rw [← h.length]; exact hk) p hp).isHermitian
      rwa [IsHermitian, conjTranspose_eq_transpose_of_trivial] at this
    have := congrFun (congrFun ((key k hk).eq hs) ⟨i, hi⟩) ⟨j, hj⟩
    rw [show (fmat (I.getD k 0) (kfac u p k)).transpose = fmat _ (fun i j => kfac u p k j i) from rfl, fmat_mul] at this
    exact this

theorem kronCholesky_error {t : TT ℝ} {I : List ℕ} (h : IsKronecker t I) {p : List ℕ} (hp : Valid t.bpre p) {k : ℕ}
    (hk : k < t.ndims) (hs : (fmat (I.getD k 0) (kfac t p k)).IsSymm) (hd : ¬ (fmat (I.getD k 0) (kfac t p k)).PosDef) :
    kronCholesky t = Except.error Err.tf := by
  refine kronMap_error h matrixwise_cholesky fun hq => ?_
  obtain ⟨L, hL⟩ := hq k hk p hp
  exact hd (hL.posDef hs)

end T3f
