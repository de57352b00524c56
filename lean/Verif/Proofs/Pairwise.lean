import Verif.Proofs.Bilinear
import Verif.Proofs.TTTranspose

/-!
# Pairwise inner products of two batches
-/

namespace T3f

variable {K : Type} [CommRing K]

theorem pairEin_first (A B : Tensor K) (m n : ℕ) (M : List ℕ) (ax : List Char)
    (hM : (M.length = 1 ∧ ax = chars! "i") ∨ (M.length = 2 ∧ ax = chars! "ij")) (ra rb : ℕ)
    (hA : A.shape = m :: 1 :: (M ++ [ra])) (hB : B.shape = n :: 1 :: (M ++ [rb])) :
    ∃ E, einsum (pairSpec true ax) [A, B] = Except.ok E ∧ E.shape = [m, n, ra, rb] ∧
      ∀ p q x y, E.get [p, q, x, y] = ∑ k ∈ Finset.range M.prod,
        A.get (p :: 0 :: (unravel M k ++ [x])) * B.get (q :: 0 :: (unravel M k ++ [y])) := by
  obtain ⟨_, A⟩ := A
  obtain ⟨_, B⟩ := B
  subst hA hB
  rcases hM with ⟨hM, rfl⟩ | ⟨hM, rfl⟩
  · obtain ⟨i, rfl⟩ := List.length_eq_one_iff.1 hM
    refine ⟨_, if_pos (by simp [pairSpec, einDims, List.lookup]), rfl, fun p q x y => ?_⟩
    refine Eq.trans (b := ∑ x' ∈ Finset.range 1, ∑ z ∈ Finset.range i, ∑ y' ∈ Finset.range 1,
      A [p, x', z, x] * (B [q, y', z, y] * 1)) rfl ?_
    rw [sum_mode1 i fun v => A (p :: 0 :: (v ++ [x])) * B (q :: 0 :: (v ++ [y]))]
    simp
  · obtain ⟨i, j, rfl⟩ := List.length_eq_two.1 hM
    refine ⟨_, if_pos (by simp [pairSpec, einDims, List.lookup]), rfl, fun p q x y => ?_⟩
    refine Eq.trans (b := ∑ x' ∈ Finset.range 1, ∑ z ∈ Finset.range i, ∑ w ∈ Finset.range j,
      ∑ y' ∈ Finset.range 1, A [p, x', z, w, x] * (B [q, y', z, w, y] * 1)) rfl ?_
    rw [sum_mode2 i j fun v => A (p :: 0 :: (v ++ [x])) * B (q :: 0 :: (v ++ [y]))]
    simp

theorem pairEin_step (Q A B : Tensor K) (m n : ℕ) (M : List ℕ) (ax : List Char)
    (hM : (M.length = 1 ∧ ax = chars! "i") ∨ (M.length = 2 ∧ ax = chars! "ij")) (qa qb ra rb : ℕ)
    (hQ : Q.shape = [m, n, qa, qb])
    (hA : A.shape = m :: qa :: (M ++ [ra])) (hB : B.shape = n :: qb :: (M ++ [rb])) :
    ∃ E, einsum (pairSpec false ax) [Q, A, B] = Except.ok E ∧ E.shape = [m, n, ra, rb] ∧
      ∀ p q x y, E.get [p, q, x, y] = ∑ x' ∈ Finset.range qa, ∑ y' ∈ Finset.range qb,
        Q.get [p, q, x', y'] * ∑ k ∈ Finset.range M.prod,
        A.get (p :: x' :: (unravel M k ++ [x])) * B.get (q :: y' :: (unravel M k ++ [y])) := by
  obtain ⟨_, Q⟩ := Q
  obtain ⟨_, A⟩ := A
  obtain ⟨_, B⟩ := B
  subst hQ hA hB
  rcases hM with ⟨hM, rfl⟩ | ⟨hM, rfl⟩
  · obtain ⟨i, rfl⟩ := List.length_eq_one_iff.1 hM
    refine ⟨_, if_pos (by simp [pairSpec, einDims, List.lookup]), rfl, fun p q x y => ?_⟩
    refine Eq.trans (b := ∑ x' ∈ Finset.range qa, ∑ y' ∈ Finset.range qb, ∑ z ∈ Finset.range i,
      Q [p, q, x', y'] * (A [p, x', z, x] * (B [q, y', z, y] * 1))) rfl ?_
    refine Finset.sum_congr rfl fun x' _ => Finset.sum_congr rfl fun y' _ => ?_
    rw [sum_mode1 i fun v => A (p :: x' :: (v ++ [x])) * B (q :: y' :: (v ++ [y]))]
    simp [Finset.mul_sum]
  · obtain ⟨i, j, rfl⟩ := List.length_eq_two.1 hM
    refine ⟨_, if_pos (by simp [pairSpec, einDims, List.lookup]), rfl, fun p q x y => ?_⟩
    refine Eq.trans (b := ∑ x' ∈ Finset.range qa, ∑ y' ∈ Finset.range qb, ∑ z ∈ Finset.range i,
      ∑ w ∈ Finset.range j,
      Q [p, q, x', y'] * (A [p, x', z, w, x] * (B [q, y', z, w, y] * 1))) rfl ?_
    refine Finset.sum_congr rfl fun x' _ => Finset.sum_congr rfl fun y' _ => ?_
    rw [sum_mode2 i j fun v => A (p :: x' :: (v ++ [x])) * B (q :: y' :: (v ++ [y]))]
    simp [Finset.mul_sum]

omit [CommRing K] in
/-- `tf.squeeze` on a matrix of `1 × ⋯ × 1` results. -/
theorem squeezeAll_pair (T : Tensor K) (m n k : ℕ) (hT : T.shape = m :: n :: List.replicate k 1) :
    (squeezeAll T).shape = (squeezed (some m)).toList ++ (squeezed (some n)).toList ∧
      ∀ p q, p < m → q < n → (squeezeAll T).get (bsel (squeezed (some m)) p ++ bsel (squeezed (some n)) q) =
        T.get (p :: q :: List.replicate k 0) := by
  have hu : ∀ n, unsqueezeIdx (List.replicate n 1) [] = List.replicate n 0 := by
    intro n
    induction n with
    | zero => rfl
    | succ n ih => simp [List.replicate_succ, unsqueezeIdx, ih]
  rw [squeezed_eq, squeezed_eq]
  by_cases hm : m = 1 <;> by_cases hn : n = 1
  · subst hm hn
    refine ⟨by simp [squeezeAll, hT], fun p q hp hq => ?_⟩
    obtain rfl : p = 0 := by omega
    obtain rfl : q = 0 := by omega
    simp [squeezeAll, hT, bsel, hu, unsqueezeIdx]
  · subst hm
    refine ⟨by simp [squeezeAll, hT, hn], fun p q hp hq => ?_⟩
    obtain rfl : p = 0 := by omega
    simp [squeezeAll, hT, bsel, hu, unsqueezeIdx, hn]
  · subst hn
    refine ⟨by simp [squeezeAll, hT, hm], fun p q hp hq => ?_⟩
    obtain rfl : q = 0 := by omega
    simp [squeezeAll, hT, bsel, hu, unsqueezeIdx, hm]
  · refine ⟨by simp [squeezeAll, hT, hm, hn], fun p q hp hq => ?_⟩
    simp [squeezeAll, hT, bsel, hu, unsqueezeIdx, hm, hn]

/-- What `pairwise_flat_inner` guarantees on entries. -/
theorem pairwiseFlatInner_spec {a b : TT K} (ha : a.WF) (hb : b.WF) (hr : a.rawShape = b.rawShape)
    {m n : ℕ} (hm : a.batch = some m) (hn' : b.batch = some n) :
    ∃ T, pairwiseFlatInner a b = Except.ok T ∧
      T.shape = (squeezed (some m)).toList ++ (squeezed (some n)).toList ∧
      ∀ p q, p < m → q < n → T.get (bsel (squeezed (some m)) p ++ bsel (squeezed (some n)) q) =
        ∑ k ∈ Finset.range (restShape a.rawShape).prod,
          a.entry [p] (restModes a.rawShape (unravel (restShape a.rawShape) k)) *
          b.entry [q] (restModes a.rawShape (unravel (restShape a.rawShape) k)) := by
  have hn := ndims_eq_of_rawShape ha hb hr
  have hmod : ∀ k, b.modes k = a.modes k := fun k => by simp [TT.modes, hr]
  have hpos := ha.pos
  have sA : ∀ k < a.ndims, (a.core k).shape = m :: a.rank k :: (a.modes k ++ [a.rank (k + 1)]) := by
    intro k hk; rw [ha.core_shape k hk, bpre_some hm]; rfl
  have sB : ∀ k < a.ndims, (b.core k).shape = n :: b.rank k :: (a.modes k ++ [b.rank (k + 1)]) := by
    intro k hk; rw [hb.core_shape k (by omega), bpre_some hn', hmod]; rfl
  have rec2 : ∀ k p q x y, msum a.modes (k + 1) (fun g =>
      lprod a.rank (a.slice [p] g) (k + 1) x * lprod b.rank (b.slice [q] g) (k + 1) y)
      = ∑ x' ∈ Finset.range (a.rank k), ∑ y' ∈ Finset.range (b.rank k),
        msum a.modes k (fun g =>
          lprod a.rank (a.slice [p] g) k x' * lprod b.rank (b.slice [q] g) k y') *
          ∑ n ∈ Finset.range (a.modes k).prod,
            (a.core k).get (p :: x' :: (unravel (a.modes k) n ++ [x])) *
            (b.core k).get (q :: y' :: (unravel (a.modes k) n ++ [y])) := by
    intro k p q x y
    exact msum_lprod2 a.rank b.rank
      (fun j v x y => (a.core j).get ([p] ++ x :: (v ++ [y])))
      (fun j v x y => (b.core j).get ([q] ++ x :: (v ++ [y]))) a.modes k x y
  obtain ⟨E, eE, sE, vE⟩ := pairEin_first (a.core 0) (b.core 0) m n (a.modes 0) (modeLabels a)
    (modeLabels_spec ha 0) _ _ (by rw [sA 0 hpos, ha.rank_first]) (by rw [sB 0 hpos, hb.rank_first])
  obtain ⟨T, eT, sT, vT⟩ := forRange_inv (fun k (T : Tensor K) => T.shape = [m, n, a.rank k, b.rank k] ∧
      ∀ p q x y, T.get [p, q, x, y] = msum a.modes k (fun g =>
        lprod a.rank (a.slice [p] g) k x * lprod b.rank (b.slice [q] g) k y))
    (fun k res => do
      let ac ← pyGet a.cores k
      let bc ← pyGet b.cores k
      einsum (pairSpec false (modeLabels a)) [res, ac, bc])
    1 (a.ndims - 1) E ⟨sE, fun p q x y => by
      rw [vE, rec2 0, ha.rank_first, hb.rank_first]
      simp [msum, lprod]⟩ (by
      intro k T hk hk' ⟨sT, vT⟩
      obtain ⟨E', eE', sE', vE'⟩ := pairEin_step T (a.core k) (b.core k) m n
        (a.modes k) (modeLabels a) (modeLabels_spec ha k) _ _ _ _ sT (sA k (by omega)) (sB k (by omega))
      refine ⟨E', ?_, sE', fun p q x y => ?_⟩
      · simp only [ha.pyCore (show k < a.ndims by omega), hb.pyCore (show k < b.ndims by omega), R.ok_bind]
        exact eE'
      · rw [vE', rec2]
        simp only [vT])
  rw [show 1 + (a.ndims - 1) = a.ndims by omega] at sT vT
  rw [ha.rank_last, hn, hb.rank_last] at sT
  obtain ⟨s1, v1⟩ := squeezeAll_pair T m n 2 sT
  refine ⟨squeezeAll T, ?_, s1, fun p q hp hq => ?_⟩
  · unfold pairwiseFlatInner
    simp only [ha.pyCore hpos, hb.pyCore (show 0 < b.ndims by omega), R.ok_bind, eE, eT]
    rfl
  · rw [v1 p q hp hq, show List.replicate 2 0 = [0, 0] from rfl, vT]
    have := msum_rest ha (fun g => a.entry [p] g * b.entry [q] g) (by
      intro g g' hg
      change _ * _ = _ * _
      exact congrArg₂ (· * ·) (entry_depends a _ g g' hg) (entry_depends b _ g g' (by rw [← hn]; exact hg)))
    rw [← this]
    simp only [TT.entry, ← hn]

/-! ## With a matrix -/

theorem pairMatEin_first (A M B : Tensor K) (m n k i j x a y : ℕ)
    (hA : A.shape = [m, 1, k, i, x]) (hM : M.shape = [1, i, j, a]) (hB : B.shape = [n, 1, k, j, y]) :
    ∃ E, einsum (ein! "pakib,cijd,qekjf->pqbdf") [A, M, B] = Except.ok E ∧ E.shape = [m, n, x, a, y] ∧
      ∀ p q x' a' y', E.get [p, q, x', a', y'] =
        ∑ u ∈ Finset.range k, ∑ v ∈ Finset.range i, ∑ w ∈ Finset.range j,
          A.get [p, 0, u, v, x'] * (M.get [0, v, w, a'] * B.get [q, 0, u, w, y']) := by
  obtain ⟨_, A⟩ := A
  obtain ⟨_, M⟩ := M
  obtain ⟨_, B⟩ := B
  subst hA hM hB
  refine ⟨_, if_pos (by simp [einDims, List.lookup]), rfl, fun p q x' a' y' => ?_⟩
  refine Eq.trans (b := ∑ s ∈ Finset.range 1, ∑ u ∈ Finset.range k, ∑ v ∈ Finset.range i,
    ∑ t ∈ Finset.range 1, ∑ w ∈ Finset.range j, ∑ r ∈ Finset.range 1,
      A [p, s, u, v, x'] * (M [t, v, w, a'] * (B [q, r, u, w, y'] * 1))) rfl ?_
  simp

theorem pairMatEin_step (Q A M B : Tensor K) (m n k i j qx qa qy x a y : ℕ)
    (hQ : Q.shape = [m, n, qx, qa, qy])
    (hA : A.shape = [m, qx, k, i, x]) (hM : M.shape = [qa, i, j, a]) (hB : B.shape = [n, qy, k, j, y]) :
    ∃ E, einsum (ein! "pqace,pakib,cijd,qekjf->pqbdf") [Q, A, M, B] = Except.ok E ∧
      E.shape = [m, n, x, a, y] ∧
      ∀ p q x' a' y', E.get [p, q, x', a', y'] =
        ∑ s ∈ Finset.range qx, ∑ t ∈ Finset.range qa, ∑ r ∈ Finset.range qy, Q.get [p, q, s, t, r] *
        ∑ u ∈ Finset.range k, ∑ v ∈ Finset.range i, ∑ w ∈ Finset.range j,
          A.get [p, s, u, v, x'] * (M.get [t, v, w, a'] * B.get [q, r, u, w, y']) := by
  obtain ⟨_, Q⟩ := Q
  obtain ⟨_, A⟩ := A
  obtain ⟨_, M⟩ := M
  obtain ⟨_, B⟩ := B
  subst hQ hA hM hB
  refine ⟨_, if_pos (by simp (maxSteps := 1000000) [einDims, List.lookup]), rfl, fun p q x' a' y' => ?_⟩
  refine Eq.trans (b := ∑ s ∈ Finset.range qx, ∑ t ∈ Finset.range qa, ∑ r ∈ Finset.range qy,
    ∑ u ∈ Finset.range k, ∑ v ∈ Finset.range i, ∑ w ∈ Finset.range j,
      Q [p, q, s, t, r] * (A [p, s, u, v, x'] * (M [t, v, w, a'] * (B [q, r, u, w, y'] * 1)))) rfl ?_
  simp only [mul_one, Finset.mul_sum]

/-- The contraction with a matrix, for row vectors. -/
theorem pairMatLoop_spec {a b M : TT K} (ha : a.WF) (hb : b.WF) (hM : M.WF) {I J L : List ℕ}
    (ra : a.rawShape = [L, I]) (rb : b.rawShape = [L, J]) (rM : M.rawShape = [I, J])
    (bM : M.batch = none) {m n : ℕ} (hm : a.batch = some m) (hn : b.batch = some n) :
    ∃ E T, einsum (ein! "pakib,cijd,qekjf->pqbdf") [a.core 0, M.core 0, b.core 0] = Except.ok E ∧
      forRange (fun k res => do
        let ac ← pyGet a.cores k
        let bc ← pyGet b.cores k
        let Mc ← pyGet M.cores k
        einsum (ein! "pqace,pakib,cijd,qekjf->pqbdf") [res, ac, Mc, bc]) 1 (a.ndims - 1) E = Except.ok T ∧
      T.shape = [m, n, 1, 1, 1] ∧
      ∀ p q, T.get [p, q, 0, 0, 0] =
        ∑ l ∈ Finset.range L.prod, ∑ i ∈ Finset.range I.prod, ∑ j ∈ Finset.range J.prod,
          a.entry [p] (mIdx (unravel L l) (unravel I i)) *
          (M.entry [] (mIdx (unravel I i) (unravel J j)) *
           b.entry [q] (mIdx (unravel L l) (unravel J j))) := by
  have hI : I.length = M.ndims := hM.rows_len I (by simp [rM])
  have hJ : J.length = M.ndims := hM.rows_len J (by simp [rM])
  have hna : M.ndims = a.ndims := by rw [← hI]; exact ha.rows_len I (by simp [ra])
  have hnb : M.ndims = b.ndims := by rw [← hJ]; exact hb.rows_len J (by simp [rb])
  have hL : L.length = M.ndims := by rw [hna]; exact ha.rows_len L (by simp [ra])
  have hpos := hM.pos
  have sM : ∀ k < M.ndims, (M.core k).shape = [M.rank k, I.getD k 0, J.getD k 0, M.rank (k + 1)] := by
    intro k hk; rw [hM.core_shape k hk]; simp [TT.modes, rM, TT.bpre, bM]
  have sa : ∀ k < M.ndims, (a.core k).shape = [m, a.rank k, L.getD k 0, I.getD k 0, a.rank (k + 1)] := by
    intro k hk; rw [ha.core_shape k (by omega)]; simp [TT.modes, ra, TT.bpre, hm]
  have sb : ∀ k < M.ndims, (b.core k).shape = [n, b.rank k, L.getD k 0, J.getD k 0, b.rank (k + 1)] := by
    intro k hk; rw [hb.core_shape k (by omega)]; simp [TT.modes, rb, TT.bpre, hn]
  let MM : ℕ → List ℕ := fun k => [L.getD k 0, I.getD k 0, J.getD k 0]
  let ga : (ℕ → List ℕ) → ℕ → List ℕ := fun g k => [(g k).getD 0 0, (g k).getD 1 0]
  let gM : (ℕ → List ℕ) → ℕ → List ℕ := fun g k => [(g k).getD 1 0, (g k).getD 2 0]
  let gb : (ℕ → List ℕ) → ℕ → List ℕ := fun g k => [(g k).getD 0 0, (g k).getD 2 0]
  let V : ℕ → ℕ → ℕ → ℕ → ℕ → ℕ → K := fun k p q x y z => msum MM k (fun g =>
      lprod a.rank (a.slice [p] (ga g)) k x *
      (lprod M.rank (M.slice [] (gM g)) k y * lprod b.rank (b.slice [q] (gb g)) k z))
  have rec3 : ∀ k p q x y z, V (k + 1) p q x y z =
      ∑ x' ∈ Finset.range (a.rank k), ∑ y' ∈ Finset.range (M.rank k), ∑ z' ∈ Finset.range (b.rank k),
        V k p q x' y' z' *
        ∑ l ∈ Finset.range (L.getD k 0), ∑ i ∈ Finset.range (I.getD k 0), ∑ j ∈ Finset.range (J.getD k 0),
          (a.core k).get [p, x', l, i, x] *
            ((M.core k).get [y', i, j, y] * (b.core k).get [q, z', l, j, z]) := by
    intro k p q x y z
    refine (msum_lprod3 a.rank M.rank b.rank
      (fun j v x y => (a.core j).get ([p] ++ x :: ([v.getD 0 0, v.getD 1 0] ++ [y])))
      (fun j v x y => (M.core j).get ([] ++ x :: ([v.getD 1 0, v.getD 2 0] ++ [y])))
      (fun j v x y => (b.core j).get ([q] ++ x :: ([v.getD 0 0, v.getD 2 0] ++ [y]))) MM k x y z).trans ?_
    refine Finset.sum_congr rfl fun x' _ => Finset.sum_congr rfl fun y' _ =>
      Finset.sum_congr rfl fun z' _ => ?_
    congr 1
    exact sum_mode3 _ _ _ fun v => (a.core k).get ([p] ++ x' :: ([v.getD 0 0, v.getD 1 0] ++ [x])) *
      ((M.core k).get ([] ++ y' :: ([v.getD 1 0, v.getD 2 0] ++ [y])) *
      (b.core k).get ([q] ++ z' :: ([v.getD 0 0, v.getD 2 0] ++ [z])))
  obtain ⟨E, eE, sE, vE⟩ := pairMatEin_first (a.core 0) (M.core 0) (b.core 0) m n _ _ _ _ _ _
    (by rw [sa 0 hpos, ha.rank_first]) (by rw [sM 0 hpos, hM.rank_first]) (by rw [sb 0 hpos, hb.rank_first])
  obtain ⟨T, eT, sT, vT⟩ := forRange_inv
    (fun k (T : Tensor K) => T.shape = [m, n, a.rank k, M.rank k, b.rank k] ∧
      ∀ p q x y z, T.get [p, q, x, y, z] = V k p q x y z) (fun k res => do
        let ac ← pyGet a.cores k
        let bc ← pyGet b.cores k
        let Mc ← pyGet M.cores k
        einsum (ein! "pqace,pakib,cijd,qekjf->pqbdf") [res, ac, Mc, bc])
      1 (a.ndims - 1) E ⟨sE, fun p q x y z => by
        rw [vE, rec3 0, hM.rank_first, hb.rank_first, ha.rank_first]
        simp [V, msum, lprod]⟩ (by
      intro k T hk hk' ⟨sT, vT⟩
      obtain ⟨E', eE', sE', vE'⟩ := pairMatEin_step T (a.core k) (M.core k) (b.core k) m n _ _ _ _ _ _ _ _ _ sT
        (sa k (by omega)) (sM k (by omega)) (sb k (by omega))
      refine ⟨E', ?_, sE', fun p q x y z => ?_⟩
      · simp only [hM.pyCore (show k < M.ndims by omega), hb.pyCore (show k < b.ndims by omega),
          ha.pyCore (show k < a.ndims by omega), R.ok_bind]
        exact eE'
      · rw [vE', rec3]
        simp only [vT])
  rw [show 1 + (a.ndims - 1) = M.ndims by omega] at sT vT
  rw [hM.rank_last, show b.rank M.ndims = 1 by rw [hnb]; exact hb.rank_last,
    show a.rank M.ndims = 1 by rw [hna]; exact ha.rank_last] at sT
  refine ⟨E, T, eE, eT, sT, fun p q => ?_⟩
  rw [vT]
  have hdep : DependsBelow M.ndims (fun g : ℕ → List ℕ =>
    lprod a.rank (a.slice [p] (ga g)) M.ndims 0 *
    (lprod M.rank (M.slice [] (gM g)) M.ndims 0 * lprod b.rank (b.slice [q] (gb g)) M.ndims 0)) := by
    intro g g' hg
    change _ * (_ * _) = _ * (_ * _)
    refine congrArg₂ (· * ·) (lprod_congr' fun j hj => ?_)
      (congrArg₂ (· * ·) (lprod_congr' fun j hj => ?_) (lprod_congr' fun j hj => ?_)) <;>
    funext x y <;> simp [TT.slice, gb, ga, gM, hg j hj]
  change msum (fun k => L.getD k 0 :: I.getD k 0 :: J.getD k 0 :: []) M.ndims _ = _
  rw [msum_cons M.ndims L hL _ _ hdep]
  refine Finset.sum_congr rfl fun l _ => ?_
  rw [msum_cons M.ndims I hI _ _ (fun g g' hg => hdep _ _ fun j hj => by simp only [hg j hj])]
  refine Finset.sum_congr rfl fun i _ => ?_
  rw [msum_cons M.ndims J hJ _ _ (fun g g' hg => hdep _ _ fun j hj => by simp only [hg j hj])]
  refine Finset.sum_congr rfl fun j _ => ?_
  rw [msum_nil _ _ (fun g g' hg => hdep _ _ fun j hj => by simp only [hg j hj])]
  rw [TT.entry, TT.entry, TT.entry, ← hnb, ← hna]
  rfl

theorem prod_eq_one_replicate {l : List ℕ} (h : l.prod = 1) : l = List.replicate l.length 1 := by
  induction l with
  | nil => rfl
  | cons a l ih =>
    rw [List.prod_cons] at h
    rw [List.length_cons, List.replicate_succ, Nat.eq_one_of_mul_eq_one_right h,
      ← ih (Nat.eq_one_of_mul_eq_one_left h)]

/-- Turning a batch of column vectors into row vectors. -/
theorem rowVector_spec {t : TT K} (h : t.WF) {I C : List ℕ} (hr : t.rawShape = [I, C]) {m : ℕ}
    (hb : t.batch = some m) (hC : C.prod = 1) :
    ∃ c, rowVector t = Except.ok c ∧ c.WF ∧ c.rawShape = [C, I] ∧ c.batch = some m ∧ c.ndims = t.ndims ∧
      ∀ p i, p < m → i < I.prod → c.entry [p] (mIdx (unravel C 0) (unravel I i)) =
        t.entry [p] (mIdx (unravel I i) (unravel C 0)) := by
  have hI : I.length = t.ndims := h.rows_len I (by simp [hr])
  have hC' : C.length = t.ndims := h.rows_len C (by simp [hr])
  have hsh : t.getShape = Except.ok [m, I.prod, 1] := by
    rw [getShape_eq h, denseShape_eq, hr, bpre_some hb, ← hC]; rfl
  have g2 : pyGet [m, I.prod, 1] 2 = Except.ok 1 := rfl
  have g1 : pyGet [m, I.prod, 1] 1 = Except.ok I.prod := rfl
  by_cases hI1 : I.prod = 1
  · have hIC : I = C := by
      rw [prod_eq_one_replicate hI1, prod_eq_one_replicate hC, hI, hC']
    refine ⟨t, ?_, h, by rw [hr, hIC], hb, rfl, fun p i _ hi => ?_⟩
    · unfold rowVector
      simp only [hsh, R.ok_bind, g2, g1, if_true]
      rw [if_neg (not_not.2 hI1)]; rfl
    · obtain rfl : i = 0 := by omega
      rw [hIC]
  · obtain ⟨c, e1, w, r, b, n, -, v⟩ := ttTranspose_spec h hr
    refine ⟨c, ?_, w, r, by rw [b, hb], n, fun p i hp _ => ?_⟩
    · unfold rowVector
      simp only [hsh, R.ok_bind, g2, g1, if_true]
      rw [if_pos hI1, e1]
    · exact v [p] _ _ (by rw [bpre_some hb]; exact ⟨hp, trivial⟩)

/-- What `pairwise_flat_inner` with a matrix guarantees on entries. -/
theorem pairwiseFlatInnerMatrix_spec {a b M : TT K} (ha : a.WF) (hb : b.WF) (hM : M.WF) {I J C D : List ℕ}
    (ra : a.rawShape = [I, C]) (rb : b.rawShape = [J, D]) (rM : M.rawShape = [I, J])
    (hC : C.prod = 1) (hD : D.prod = 1) (bM : M.batch = none) {m n : ℕ} (hm : a.batch = some m)
    (hn : b.batch = some n) :
    ∃ T, pairwiseFlatInnerMatrix a b M = Except.ok T ∧
      T.shape = (squeezed (some m)).toList ++ (squeezed (some n)).toList ∧
      ∀ p q, p < m → q < n → T.get (bsel (squeezed (some m)) p ++ bsel (squeezed (some n)) q) =
        ∑ i ∈ Finset.range I.prod, ∑ j ∈ Finset.range J.prod,
          a.entry [p] (mIdx (unravel I i) (unravel C 0)) *
          (M.entry [] (mIdx (unravel I i) (unravel J j)) *
           b.entry [q] (mIdx (unravel J j) (unravel D 0))) := by
  have hI : I.length = M.ndims := hM.rows_len I (by simp [rM])
  have hJ : J.length = M.ndims := hM.rows_len J (by simp [rM])
  have hna : M.ndims = a.ndims := by rw [← hI]; exact ha.rows_len I (by simp [ra])
  have hnb : M.ndims = b.ndims := by rw [← hJ]; exact hb.rows_len J (by simp [rb])
  have hCl : C.length = M.ndims := by rw [hna]; exact ha.rows_len C (by simp [ra])
  have hDl : D.length = M.ndims := by rw [hnb]; exact hb.rows_len D (by simp [rb])
  have hCD : D = C := by rw [prod_eq_one_replicate hC, prod_eq_one_replicate hD, hCl, hDl]
  subst hCD
  obtain ⟨a', ea, wa, ra', ba', na', va⟩ := rowVector_spec ha ra hm hC
  obtain ⟨b', eb, wb, rb', bb', nb', vb⟩ := rowVector_spec hb rb hn hC
  obtain ⟨E, T, eE, eT, sT, vT⟩ := pairMatLoop_spec wa wb hM ra' rb' rM bM ba' bb'
  obtain ⟨s1, v1⟩ := squeezeAll_pair T m n 3 sT
  have hsa : a'.getShape = Except.ok [m, 1, I.prod] := by
    rw [getShape_eq wa, denseShape_eq, ra', bpre_some ba', ← hC]; rfl
  have hsb : b'.getShape = Except.ok [n, 1, J.prod] := by
    rw [getShape_eq wb, denseShape_eq, rb', bpre_some bb', ← hC]; rfl
  refine ⟨squeezeAll T, ?_, s1, fun p q hp hq => ?_⟩
  · unfold pairwiseFlatInnerMatrix
    have p1 : pyGet [I, D] 0 = Except.ok I := rfl
    have p2 : pyGet [I, J] 0 = Except.ok I := rfl
    have p3 : pyGet [J, D] 0 = Except.ok J := rfl
    have p4 : pyGet [I, J] 1 = Except.ok J := rfl
    have p5 : pyGet [m, 1, I.prod] 1 = Except.ok 1 := rfl
    have p6 : pyGet [n, 1, J.prod] 1 = Except.ok 1 := rfl
    simp only [require_pos (show a.isMatrix ∧ b.isMatrix ∧ M.isMatrix by
        simp [TT.isMatrix, rM, ra, rb]), R.ok_bind, ra, rb, rM, p1, p2, p3, p4, require_pos, ea, eb, hsa,
      hsb, p5, p6, wa.pyCore wa.pos, wb.pyCore wb.pos, hM.pyCore hM.pos, eE]
    rw [← na', eT, R.ok_bind]; rfl
  · rw [v1 p q hp hq, show List.replicate 3 0 = [0, 0, 0] from rfl, vT, hC, Finset.range_one,
      Finset.sum_singleton]
    refine Finset.sum_congr rfl fun i hi => Finset.sum_congr rfl fun j hj => ?_
    rw [va p i hp (by simpa using hi), vb q j hq (by simpa using hj)]

end T3f
