import Verif.Proofs.KronMap
import Verif.Proofs.AtItem
import Verif.Props.C09Matmul

/-! Products and transposes of Kronecker-factorized matrices -/

namespace T3f

open Matrix

theorem bsel_left {a b : TT ℝ} (ha : a.WF) {o : ℕ} (ho : o < (bcast a.batch b.batch).getD 1) :
    Valid a.bpre (bsel a.batch o) := by
  refine bsel_bpre ha fun n hn => ?_
  rw [hn] at ho
  rcases hb : b.batch with _ | m <;> rw [hb] at ho
  · right; simpa [bcast] using ho
  · by_cases h1 : n = 1
    · exact Or.inl h1
    · right; simpa [bcast, h1] using ho

theorem BCompat.comm {x y : Option ℕ} (h : BCompat x y) : BCompat y x := by
  rcases x with _ | m <;> rcases y with _ | n <;> simp_all [BCompat]
  omega

theorem bcast_swap {x y : Option ℕ} (h : BCompat x y) : bcast x y = bcast y x := by
  rcases x with _ | m <;> rcases y with _ | n <;> simp_all [BCompat, bcast]
  split_ifs <;> simp_all

theorem bsel_squeezed {a : TT ℝ} (ha : a.WF) {q : Option ℕ} (hq : a.batch = squeezed q) {o : ℕ} (ho : o < q.getD 1) :
    Valid a.bpre (bsel a.batch o) := by
  refine bsel_bpre ha fun n hn => ?_
  rw [hn] at hq
  rcases q with _ | m
  · cases hq
  · by_cases h1 : m = 1
    · subst h1; cases hq
    · have : squeezed (some m) = some m := by unfold squeezed; split <;> simp_all
      rw [this] at hq
      obtain rfl := Option.some.inj hq
      exact Or.inr ho

/-- Every position of the batch axis of a squeezed result is one `bsel`. -/
theorem valid_squeezed {a : TT ℝ} {q : Option ℕ} (hq : a.batch = squeezed q) {p : List ℕ} (hp : Valid a.bpre p) :
    ∃ o < q.getD 1, p = bsel a.batch o := by
  rcases hb : a.batch with _ | n
  · rw [TT.bpre, hb] at hp
    refine ⟨0, ?_, ?_⟩
    · rw [hb] at hq
      rcases q with _ | m
      · simp
      · by_cases h1 : m = 1
        · subst h1; simp
        · have : squeezed (some m) = some m := by unfold squeezed; split <;> simp_all
          rw [this] at hq; cases hq
    · exact (valid_nil_iff _).1 hp
  · rw [TT.bpre, hb] at hp
    obtain ⟨o, _, rfl, ho, hp⟩ := (valid_cons_iff _ _ _).1 hp
    rw [valid_nil_iff] at hp
    subst hp
    rw [hb] at hq
    rcases q with _ | m
    · cases hq
    · by_cases h1 : m = 1
      · subst h1; cases hq
      · have : squeezed (some m) = some m := by unfold squeezed; split <;> simp_all
        rw [this] at hq
        obtain rfl := Option.some.inj hq
        exact ⟨o, ho, by simp [bsel, h1]⟩

/-- The dense matrix of the product of two Kronecker-factorized matrices. -/
theorem IsKronecker.matmul {a b : TT ℝ} {I : List ℕ} (ha : IsKronecker a I) (hb : IsKronecker b I) (hc : BCompat a.batch b.batch) :
    ∃ c, ttTTMatmul a b = Except.ok c ∧ IsKronecker c I ∧ c.batch = squeezed (bcast a.batch b.batch) ∧
      ∀ o < (bcast a.batch b.batch).getD 1,
        kmat I (kfac c (bsel c.batch o)) = kmat I (kfac a (bsel a.batch o)) * kmat I (kfac b (bsel b.batch o)) := by
  obtain ⟨c, A, B, C, e, w, r, bt, eA, eB, eC, sC, v, l, k⟩ := C09_matmul a b ha.wf hb.wf I I I ha.rows hb.rows hc
  have hn : c.ndims = a.ndims := by have := w.ranks_len; omega
  have hk : IsKronecker c I := by
    refine ⟨w, r, fun x hx => ?_, ha.pos⟩
    obtain ⟨j, hj, rfl⟩ := List.getElem_of_mem hx
    have hj' : j ≤ a.ndims := by omega
    have := k j hj'
    rw [ha.rank_one j hj', hb.rank_one j (by
      have := ha.length; have := hb.length; omega)] at this
    simpa [TT.rank, List.getD_eq_getElem?_getD, hj] using this
  refine ⟨c, e, hk, bt, fun o ho => ?_⟩
  obtain ⟨A', eA', sA, vA⟩ := ha.full
  obtain ⟨B', eB', sB, vB⟩ := hb.full
  obtain ⟨C', eC', sC', vC⟩ := hk.full
  rw [eA] at eA'; cases eA'
  rw [eB] at eB'; cases eB'
  rw [eC] at eC'; cases eC'
  rw [← vA _ (bsel_left ha.wf ho), ← vB _ (bsel_left hb.wf (by rwa [bcast_swap hc] at ho)), ← vC _ (bsel_squeezed w bt ho)]
  ext x y
  rw [Matrix.mul_apply]
  simp only [Tensor.mat, Matrix.of_apply]
  rw [v o x y ho x.isLt y.isLt, Finset.sum_range]

/-- The dense matrix of the transpose of a Kronecker-factorized matrix. -/
theorem IsKronecker.ttTranspose {a : TT ℝ} {I : List ℕ} (ha : IsKronecker a I) :
    ∃ c, T3f.ttTranspose a = Except.ok c ∧ IsKronecker c I ∧ c.batch = a.batch ∧
      ∀ p, Valid a.bpre p → kmat I (kfac c p) = (kmat I (kfac a p)).transpose := by
  obtain ⟨c, A, C, e, w, r, bt, rk, eA, eC, sA, sC, v⟩ := C14_transpose a ha.wf I I ha.rows
  have hk : IsKronecker c I := ⟨w, r, by rw [rk]; exact ha.ones, ha.pos⟩
  refine ⟨c, e, hk, bt, fun p hp => ?_⟩
  obtain ⟨A', eA', -, vA⟩ := ha.full
  obtain ⟨C', eC', -, vC⟩ := hk.full
  rw [eA] at eA'; cases eA'
  rw [eC] at eC'; cases eC'
  have hbp : c.bpre = a.bpre := by simp [TT.bpre, bt]
  rw [← vA p hp, ← vC p (by rw [hbp]; exact hp)]
  ext x y
  exact v p y x hp y.isLt x.isLt

/-- Two Kronecker-factorized matrices with the same dense matrices. -/
theorem IsKronecker.full_equiv {a b : TT ℝ} {I : List ℕ} (ha : IsKronecker a I) (hb : IsKronecker b I) (h : a.batch = b.batch)
    (hv : ∀ p, Valid a.bpre p → kmat I (kfac a p) = kmat I (kfac b p)) :
    ∃ A B, T3f.full a = Except.ok A ∧ T3f.full b = Except.ok B ∧ A ≃ₜ B := by
  obtain ⟨A, eA, sA, vA⟩ := ha.full
  obtain ⟨B, eB, sB, vB⟩ := hb.full
  have hbp : b.bpre = a.bpre := by rw [TT.bpre, TT.bpre, h]
  refine ⟨A, B, eA, eB, by rw [sA, sB, hbp], fun i hi => ?_⟩
  rw [sA] at hi
  obtain ⟨p, q, rfl, hp, hq⟩ := valid_append_iff.1 hi
  obtain ⟨x, y, rfl, hx, hy⟩ := (valid_pair _ _ _).1 hq
  have := congrFun₂ ((vA p hp).trans ((hv p hp).trans (vB p (by rw [hbp]; exact hp)).symm)) ⟨x, hx⟩ ⟨y, hy⟩
  exact this

end T3f
