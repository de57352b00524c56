import Verif.Spec.LowerSym
import Verif.Props.C27Kronecker

/-! # C29: `cholesky` for factors that need not be symmetric -/

namespace T3f

open Matrix

theorem lowerSym_symm {n : ℕ} (M : Matrix (Fin n) (Fin n) ℝ) : (lowerSym M).IsSymm := by
  ext i j
  simp only [Matrix.transpose_apply, lowerSym, Matrix.of_apply]
  rcases lt_trichotomy i j with h | rfl | h
  · rw [if_pos h.le, if_neg (not_le.2 h)]
  · rfl
  · rw [if_neg (not_le.2 h), if_pos h.le]

theorem lowerSym_of_symm {n : ℕ} {M : Matrix (Fin n) (Fin n) ℝ} (h : M.IsSymm) : lowerSym M = M := by
  ext i j
  simp only [lowerSym, Matrix.of_apply]
  split
  · rfl
  · exact h.apply i j

theorem choleskyOf_lowerSym {n : ℕ} {M L : Matrix (Fin n) (Fin n) ℝ} : CholeskyOf (lowerSym M) L ↔ CholeskyOf M L := by
  unfold CholeskyOf
  refine and_congr_right fun _ => and_congr_right fun _ => forall_congr' fun i => forall_congr' fun j => ?_
  refine imp_congr_right fun h => ?_
  simp only [lowerSym, Matrix.of_apply, if_pos h]

theorem cholesky_iff {n : ℕ} {M : Matrix (Fin n) (Fin n) ℝ} : (∃ L, CholeskyOf M L) ↔ (lowerSym M).PosDef :=
  ⟨fun ⟨_, h⟩ => (choleskyOf_lowerSym.2 h).posDef (lowerSym_symm M), fun h => (cholesky_exists h).imp fun _ => choleskyOf_lowerSym.1⟩

/-- C29: `cholesky` never looks above the diagonals of the factors. It succeeds exactly if the symmetric matrices with the lower triangles of the factors are positive
definite, and then represents the Cholesky factor of their Kronecker product; otherwise it raises InvalidArgumentError. -/
theorem C29_lower_triangle {t : TT ℝ} {I : List ℕ} (h : IsKronecker t I) :
    ((∀ k < t.ndims, ∀ p, Valid t.bpre p → (lowerSym (t.factor p k (I.getD k 0))).PosDef) →
      ∃ u G, kronCholesky t = Except.ok u ∧ u.WF ∧ u.rawShape = t.rawShape ∧ u.ttRanks = t.ttRanks ∧ u.batch = t.batch ∧
        full u = Except.ok G ∧ G.shape = t.batch.toList ++ [I.prod, I.prod] ∧
        ∀ p, Valid t.bpre p →
          (∀ x y, x < y → G.mat p I.prod I.prod x y = 0) ∧ (∀ x, 0 < G.mat p I.prod I.prod x x) ∧
          ∀ x y : Fin I.prod, (G.mat p I.prod I.prod * (G.mat p I.prod I.prod).transpose) x y =
            ∏ k : Fin I.length, lowerSym (t.factor p k (I.getD k 0)) ⟨(unravel I x).getD k 0, getD_unravel_lt x.isLt k k.isLt⟩
              ⟨(unravel I y).getD k 0, getD_unravel_lt y.isLt k k.isLt⟩) ∧
    ((¬ ∀ k < t.ndims, ∀ p, Valid t.bpre p → (lowerSym (t.factor p k (I.getD k 0))).PosDef) → kronCholesky t = Except.error Err.tf) := by
  constructor
  · intro hd
    obtain ⟨u, e, hu, hb, hr, v⟩ := kronMap_ok h matrixwise_cholesky fun k hk p hp => cholesky_iff.2 (hd k hk p hp)
    obtain ⟨G, eG, sG, vG⟩ := hu.full
    have hbp : u.bpre = t.bpre := by rw [TT.bpre, TT.bpre, hb]
    refine ⟨u, G, e, hu.wf, by rw [hu.rows, h.rows], hr, hb, eG, by rw [sG, hbp]; rfl, fun p hp => ?_⟩
    rw [vG p (by rw [hbp]; exact hp)]
    have key : ∀ k < I.length, CholeskyOf (fmat (I.getD k 0) (kfac t p k)) (fmat (I.getD k 0) (kfac u p k)) := by
      intro k hk
      have hk : k < t.ndims := by rw [← h.length]; exact hk
      rw [v k hk p hp]
      exact choleskyMat_spec (cholesky_iff.2 (hd k hk p hp))
    refine ⟨?_, ?_, ?_⟩
    · exact kmat_triangular I _ fun k hk i j hij hj => (key k hk).1 ⟨i, hij.trans hj⟩ ⟨j, hj⟩ hij
    · intro x
      simp only [kmat, Matrix.of_apply]
      refine Finset.prod_pos fun k hk => ?_
      have hk := Finset.mem_range.1 hk
      exact (key k hk).2.1 ⟨_, getD_unravel_lt x.isLt k hk⟩
    · intro x y
      rw [kmat_transpose, kmat_mul]
      simp only [kmat, Matrix.of_apply]
      rw [Finset.prod_range]
      refine Finset.prod_congr rfl fun k _ => ?_
      have := congrFun (congrFun ((choleskyOf_lowerSym.2 (key k k.isLt)).eq (lowerSym_symm _)) ⟨_, getD_unravel_lt x.isLt k k.isLt⟩) ⟨_, getD_unravel_lt y.isLt k k.isLt⟩
      rw [show (fmat (I.getD k 0) (kfac u p k)).transpose = fmat _ (fun i j => kfac u p k j i) from rfl, fmat_mul] at this
      exact this
  · intro hd
    refine kronMap_error h matrixwise_cholesky fun hq => hd fun k hk p hp => cholesky_iff.1 (hq k hk p hp)

/-- An index with `i` at position `k` and zeros elsewhere. -/
theorem unit_index {I : List ℕ} (hp : ∀ n ∈ I, 0 < n) {k i : ℕ} (hk : k < I.length) (hi : i < I.getD k 0) :
    ∃ x : Fin I.prod, (unravel I x).getD k 0 = i ∧ ∀ l < I.length, l ≠ k → (unravel I x).getD l 0 = 0 := by
  have hv : Valid I ((List.replicate I.length 0).set k i) := by
    rw [valid_iff_getD]
    refine ⟨by simp, fun l hl => ?_⟩
    rw [List.getD_eq_getElem _ _ (by simpa using hl), List.getElem_set]
    split
    · rename_i e; subst e; exact hi
    · rw [List.getElem_replicate, List.getD_eq_getElem _ _ hl]
      exact hp _ (List.getElem_mem hl)
  refine ⟨⟨ravel I _, ravel_lt hv⟩, ?_, fun l hl hne => ?_⟩
  · rw [unravel_ravel hv, List.getD_eq_getElem _ _ (by simpa using hk)]
    simp
  · rw [unravel_ravel hv, List.getD_eq_getElem _ _ (by simpa using hl), List.getElem_set_ne (Ne.symm hne)]
    simp

/-- C29: `cholesky` returns a factor of the dense matrix exactly if all Kronecker factors are positive definite (in particular symmetric). -/
theorem C29_iff {t : TT ℝ} {I : List ℕ} (h : IsKronecker t I) {F : Tensor ℝ} (eF : full t = Except.ok F) :
    (∃ u G, kronCholesky t = Except.ok u ∧ full u = Except.ok G ∧
      ∀ p, Valid t.bpre p → G.mat p I.prod I.prod * (G.mat p I.prod I.prod).transpose = F.mat p I.prod I.prod) ↔
    ∀ k < t.ndims, ∀ p, Valid t.bpre p → (t.factor p k (I.getD k 0)).PosDef := by
  constructor
  · rintro ⟨u, G, eu, eG, hG⟩
    have hd : ∀ k < t.ndims, ∀ p, Valid t.bpre p → (lowerSym (t.factor p k (I.getD k 0))).PosDef := by
      by_contra hc
      rw [(C29_lower_triangle h).2 hc] at eu
      exact absurd eu (by simp)
    intro k hk p hp
    have hdiag : ∀ l < I.length, ∀ i < I.getD l 0, 0 < kfac t p l i i := by
      intro l hl i hi
      have := (hd l (by rw [← h.length]; exact hl) p hp).diag_pos (i := ⟨i, hi⟩)
      simpa [lowerSym, TT.factor, kfac] using this
    obtain ⟨F', eF', -, vF⟩ := h.full
    obtain rfl : F' = F := Except.ok.inj (eF'.symm.trans eF)
    have hsym : (kmat I (kfac t p)).IsSymm := by
      rw [← vF p hp, ← hG p hp, Matrix.IsSymm, Matrix.transpose_mul, Matrix.transpose_transpose]
    have hk' : k < I.length := by rw [h.length]; exact hk
    have hs : (t.factor p k (I.getD k 0)).IsSymm := by
      ext i j
      obtain ⟨x, x1, x2⟩ := unit_index h.pos hk' i.isLt
      obtain ⟨y, y1, y2⟩ := unit_index h.pos hk' j.isLt
      have := hsym.apply x y
      simp only [kmat, Matrix.of_apply] at this
      rw [← Finset.mul_prod_erase _ _ (Finset.mem_range.2 hk'), ← Finset.mul_prod_erase _ _ (Finset.mem_range.2 hk'), x1, y1] at this
      have e : ∀ l ∈ (Finset.range I.length).erase k, kfac t p l ((unravel I y).getD l 0) ((unravel I x).getD l 0) = kfac t p l 0 0 ∧
          kfac t p l ((unravel I x).getD l 0) ((unravel I y).getD l 0) = kfac t p l 0 0 := by
        intro l hl
        obtain ⟨h1, h2⟩ := Finset.mem_erase.1 hl
        rw [x2 l (Finset.mem_range.1 h2) h1, y2 l (Finset.mem_range.1 h2) h1]
        exact ⟨rfl, rfl⟩
      rw [Finset.prod_congr rfl fun l hl => (e l hl).1, Finset.prod_congr rfl fun l hl => (e l hl).2] at this
      have hne : ∏ l ∈ (Finset.range I.length).erase k, kfac t p l 0 0 ≠ 0 := by
        refine Finset.prod_ne_zero_iff.2 fun l hl => ?_
        have hl := Finset.mem_range.1 (Finset.mem_erase.1 hl).2
        refine (hdiag l hl 0 ?_).ne'
        rw [List.getD_eq_getElem _ _ hl]
        exact h.pos _ (List.getElem_mem hl)
      exact mul_right_cancel₀ hne this
    have := hd k hk p hp
    rwa [lowerSym_of_symm hs] at this
  · intro hd
    obtain ⟨u, F', G, eu, -, -, -, -, eF', eG, -, v⟩ := C29_cholesky h hd
    obtain rfl : F' = F := Except.ok.inj (eF'.symm.trans eF)
    exact ⟨u, G, eu, eG, fun p hp => (v p hp).2.2⟩

/-- `[[1, 7], [0, 1]] ⊗ (1)`: not symmetric, but the lower triangles are those of the identity. -/
def exKronUpper : TT ℤ where
  cores := [.ofList [1, 2, 2, 1] [1, 7, 0, 1], .ofList [1, 1, 1, 1] [1]]
  rawShape := [[2, 1], [2, 1]]
  ttRanks := [1, 1, 1]
  batch := none

theorem exKronUpper_isKronecker : IsKronecker exKronUpper.toReal [2, 1] :=
  ⟨TT.WF.toReal (by decide), rfl, by simp [TT.toReal, exKronUpper], by simp⟩

/-- C29, finding: there is a matrix that is not symmetric for which `cholesky` does not raise. -/
theorem C29_nonsymmetric_accepted : ∃ (t : TT ℝ) (I : List ℕ) (u : TT ℝ), IsKronecker t I ∧ kronCholesky t = Except.ok u ∧ ¬ (t.factor [] 0 (I.getD 0 0)).IsSymm := by
  have hd : ∀ k < exKronUpper.toReal.ndims, ∀ p, Valid exKronUpper.toReal.bpre p → (lowerSym (exKronUpper.toReal.factor p k ([2, 1].getD k 0))).PosDef := by
    intro k hk p hp
    have hk : k < 2 := hk
    obtain rfl := (valid_nil_iff p).1 hp
    have e : lowerSym (exKronUpper.toReal.factor [] k ([2, 1].getD k 0)) = 1 := by
      interval_cases k
      · show lowerSym (exKronUpper.toReal.factor [] 0 2) = 1
        ext i j
        fin_cases i <;> fin_cases j <;> simp [lowerSym, TT.factor, exKronUpper, TT.toReal, TT.core, Tensor.map, Tensor.ofList, ravel]
      · show lowerSym (exKronUpper.toReal.factor [] 1 1) = 1
        ext i j
        fin_cases i; fin_cases j; simp [lowerSym, TT.factor, exKronUpper, TT.toReal, TT.core, Tensor.map, Tensor.ofList, ravel]
    rw [e]
    exact Matrix.PosDef.one
  obtain ⟨u, G, eu, -⟩ := (C29_lower_triangle exKronUpper_isKronecker).1 hd
  refine ⟨_, _, u, exKronUpper_isKronecker, eu, fun hs => ?_⟩
  have : exKronUpper.toReal.factor [] 0 2 1 0 = exKronUpper.toReal.factor [] 0 2 0 1 := hs.apply (0 : Fin 2) (1 : Fin 2)
  rw [TT.factor, Matrix.of_apply, Matrix.of_apply] at this
  norm_num [exKronUpper, TT.toReal, TT.core, Tensor.map, Tensor.ofList, ravel] at this

end T3f
