import Verif.Proofs.Dense
import Verif.Model.Indexing

/-!
# Concatenation, tiling, adding a batch axis
-/

namespace T3f

variable {K : Type}

theorem concat_ok (A B : Tensor K) (P S : List ℕ) (x y : ℕ) (hA : A.shape = P ++ x :: S)
    (hB : B.shape = P ++ y :: S) (axis : ℕ) (hax : axis = P.length) :
    ∃ C, concat axis [A, B] = Except.ok C ∧ C.shape = P ++ (x + y) :: S ∧
      ∀ p j s, p.length = P.length →
        C.get (p ++ j :: s) = if j < x then A.get (p ++ j :: s) else B.get (p ++ (j - x) :: s) := by
  subst hax
  have hb : P.length < B.shape.length := by rw [hB]; simp
  have hc : A.shape.length = B.shape.length ∧ P.length < A.shape.length ∧
      A.shape.eraseIdx P.length = B.shape.eraseIdx P.length := by
    rw [hA, hB]
    refine ⟨by simp, by simp, ?_⟩
    rw [List.eraseIdx_append_of_length_le le_rfl, List.eraseIdx_append_of_length_le le_rfl]
    simp
  refine ⟨_, by simp only [concat, if_pos hb, R.ok_bind, concat2, if_pos hc]; rfl, ?_, ?_⟩
  · simp only [hA, hB]
    rw [List.set_append_right _ _ le_rfl, List.getD_append_right _ _ _ _ le_rfl,
      List.getD_append_right _ _ _ _ le_rfl]
    simp
  · intro p j s hp
    simp only [hA]
    rw [List.getD_append_right _ _ _ _ hp.le, List.getD_append_right _ _ _ _ le_rfl,
      List.set_append_right _ _ hp.le]
    simp [hp]

theorem tile_ok (t : Tensor K) (n : ℕ) (s : List ℕ) (hs : t.shape = 1 :: s) (mult : List ℕ)
    (hm : mult = n :: List.replicate s.length 1) :
    ∃ T, tile t mult = Except.ok T ∧ T.shape = n :: s ∧
      ∀ o i, Valid s i → T.get (o :: i) = t.get (0 :: i) := by
  subst hm
  refine ⟨_, if_pos (by simp [hs]), ?_, ?_⟩
  · simp only [hs]
    simp only [List.zipWith_cons_cons, one_mul]
    congr 1
    clear hs
    induction s with
    | nil => rfl
    | cons a s ih => simp [List.replicate_succ, ih]
  · intro o i hi
    simp only [hs, List.zipWith_cons_cons, Nat.mod_one]
    congr 2
    clear hs
    induction s generalizing i with
    | nil => rw [valid_nil_iff] at hi; subst hi; rfl
    | cons a s ih =>
      obtain ⟨j, i', rfl, hj, hi'⟩ := (valid_cons_iff _ _ _).1 hi
      rw [List.zipWith_cons_cons, ih i' hi', Nat.mod_eq_of_lt hj]

theorem mapRange_congr {α : Type} (n : ℕ) (f g : ℕ → R α) (h : ∀ k < n, f k = g k) :
    mapRange n f = mapRange n g := by
  unfold mapRange
  have : ∀ l : List ℕ, (∀ k ∈ l, f k = g k) → l.mapM f = l.mapM g := by
    intro l hl
    induction l with
    | nil => rfl
    | cons a l ih =>
      rw [List.mapM_cons, List.mapM_cons, hl a (by simp), ih (fun k hk => hl k (by simp [hk]))]
  exact this _ fun k hk => h k (by simpa using hk)

theorem TT.WF.pyRow0 [Zero K] {t : TT K} (h : t.WF) {row : List ℕ} {rest : List (List ℕ)}
    (_hr : t.rawShape = row :: rest) {k : ℕ} (hk : k < t.ndims) :
    pyGet row k = Except.ok (row.getD k 0) :=
  pyGet_of_lt _ _ _ (by rw [h.rows_len row (by rw [_hr]; simp)]; exact hk)

/-- `expand_batch_dim` of a `TensorTrain`. -/
theorem expandBatchDim_ok [CommRing K] {t : TT K} (h : t.WF) (hb : t.batch = none) :
    ∃ T, expandBatchDim t = Except.ok T ∧ T.WF ∧ T.batch = some 1 ∧ T.rawShape = t.rawShape ∧
      T.ttRanks = t.ttRanks ∧ T.ndims = t.ndims ∧
      ∀ k < t.ndims, ∀ o idx, (T.core k).get (o :: idx) = (t.core k).get idx := by
  have hbpre : t.bpre = [] := by simp [TT.bpre, hb]
  obtain ⟨cores, ec, lc, pc⟩ := mapRange_ok t.ndims (fun i => do
      let c ← pyGet t.cores i
      expandDims c 0) (fun k T => T.shape = 1 :: (t.core k).shape ∧
        ∀ o idx, T.get (o :: idx) = (t.core k).get idx) (by
    intro k hk
    refine ⟨_, by rw [h.pyCore hk, R.ok_bind, expandDims, if_pos (Nat.zero_le _)], by simp, ?_⟩
    intro o idx; simp)
  have hch : Chain (some 1) cores t.rank t.modes t.rawShape.length := by
    have hc := h.chain
    refine ⟨by rw [lc]; exact h.pos, h.rank_first, by rw [lc]; exact h.rank_last,
      by rw [lc]; exact h.rank_pos, h.rows, by rw [lc]; exact hc.Mlen, ?_, by simp⟩
    intro k hk
    rw [lc] at hk
    rw [(pc k hk).1, h.core_shape k hk, hbpre]; rfl
  have hmk := mkBatch_ok hch (.shapes t.rawShape) (Or.inr (hch.clean (by rw [lc]; exact h.rows_eq)))
    (some t.ttRanks) (Or.inr (by rw [lc]; exact congrArg _ h.ranks_eq)) (some 1) (Or.inr rfl)
  refine ⟨chainTT (some 1) cores t.rank t.modes t.rawShape.length, ?_, hch.wf, rfl, ?_, ?_, lc, ?_⟩
  · simp only [expandBatchDim, hb, ec, R.ok_bind, hmk]
  · change rowsOf _ _ _ = _
    rw [lc]; exact h.rows_eq.symm
  · change ranksOf _ _ = _
    rw [lc]; exact h.ranks_eq.symm
  · intro k hk o idx
    exact (pc k hk).2 o idx

end T3f
