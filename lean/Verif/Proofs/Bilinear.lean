import Verif.Proofs.Inner

/-!
# Bilinear forms
-/

namespace T3f

variable {K : Type} [CommRing K]

theorem sum_mode3 (i j k : ℕ) (f : List ℕ → K) :
    ∑ n ∈ Finset.range [i, j, k].prod, f (unravel [i, j, k] n) =
      ∑ z ∈ Finset.range i, ∑ w ∈ Finset.range j, ∑ v ∈ Finset.range k, f [z, w, v] := by
  rw [sum_mode_cons]
  refine Finset.sum_congr rfl fun z _ => ?_
  rw [sum_mode2 j k fun v => f (z :: v)]

theorem sum_mode5 (i j k l m : ℕ) (f : List ℕ → K) :
    ∑ n ∈ Finset.range [i, j, k, l, m].prod, f (unravel [i, j, k, l, m] n) =
      ∑ z ∈ Finset.range i, ∑ w ∈ Finset.range j, ∑ v ∈ Finset.range k, ∑ u ∈ Finset.range l,
        ∑ t ∈ Finset.range m, f [z, w, v, u, t] := by
  rw [sum_mode_cons]
  refine Finset.sum_congr rfl fun z _ => ?_
  rw [sum_mode_cons j [k, l, m] fun v => f (z :: v)]
  refine Finset.sum_congr rfl fun w _ => ?_
  rw [sum_mode3 k l m fun v => f (z :: w :: v)]

theorem bilEin_first (bt : Option ℕ) (X A Y : Tensor K) (i j k x a y : ℕ)
    (hX : X.shape = bt.toList ++ [1, i, k, x]) (hA : A.shape = [1, i, j, a])
    (hY : Y.shape = bt.toList ++ [1, j, k, y]) :
    ∃ E, einsum ([bLabel 'p' bt ++ chars! "aikb", chars! "cijd", bLabel 'p' bt ++ chars! "ejkf"],
        bLabel 'p' bt ++ chars! "bdf") [X, A, Y] = Except.ok E ∧
      E.shape = bt.toList ++ [x, a, y] ∧
      ∀ o x' a' y', E.get (lsel bt o ++ [x', a', y']) =
        ∑ z ∈ Finset.range i, ∑ w ∈ Finset.range k, ∑ v ∈ Finset.range j,
          X.get (lsel bt o ++ [0, z, w, x']) * (A.get [0, z, v, a'] * Y.get (lsel bt o ++ [0, v, w, y'])) := by
  rcases bt with _ | s <;>
  exact ⟨_, if_pos (by simp [bLabel, einDims, hX, hA, hY, List.lookup]), by
      simp [bLabel, einDims, hX, hA, hY, List.lookup, lookupLabel], fun o x' a' y' => by
      simp [bLabel, einDims, hX, hA, hY, List.lookup, lookupLabel, sumOver, List.eraseDupsBy,
          List.eraseDupsBy.loop, lsel]⟩

theorem bilEin_step (bt : Option ℕ) (Q X A Y : Tensor K) (i j k p q r x a y : ℕ)
    (hQ : Q.shape = bt.toList ++ [p, q, r])
    (hX : X.shape = bt.toList ++ [p, i, k, x]) (hA : A.shape = [q, i, j, a])
    (hY : Y.shape = bt.toList ++ [r, j, k, y]) :
    ∃ E, einsum ([bLabel 'p' bt ++ chars! "ace", bLabel 'p' bt ++ chars! "aikb", chars! "cijd",
          bLabel 'p' bt ++ chars! "ejkf"],
        bLabel 'p' bt ++ chars! "bdf") [Q, X, A, Y] = Except.ok E ∧
      E.shape = bt.toList ++ [x, a, y] ∧
      ∀ o x' a' y', E.get (lsel bt o ++ [x', a', y']) =
        ∑ u ∈ Finset.range p, ∑ s ∈ Finset.range q, ∑ t ∈ Finset.range r,
          Q.get (lsel bt o ++ [u, s, t]) *
        ∑ z ∈ Finset.range i, ∑ w ∈ Finset.range k, ∑ v ∈ Finset.range j,
          X.get (lsel bt o ++ [u, z, w, x']) * (A.get [s, z, v, a'] * Y.get (lsel bt o ++ [t, v, w, y'])) := by
  simp only [Finset.mul_sum]
  rcases bt with _ | s <;>
  exact ⟨_, if_pos (by simp [bLabel, einDims, hQ, hX, hA, hY, List.lookup]), by
      simp [bLabel, einDims, hQ, hX, hA, hY, List.lookup, lookupLabel], fun o x' a' y' => by
      simp [bLabel, einDims, hQ, hX, hA, hY, List.lookup, lookupLabel, sumOver, List.eraseDupsBy,
          List.eraseDupsBy.loop, lsel]⟩

theorem getD_unravel_lt {I : List ℕ} {n : ℕ} (hn : n < I.prod) (k : ℕ) (hk : k < I.length) :
    (unravel I n).getD k 0 < I.getD k 0 :=
  ((valid_iff_getD _ _).1 (unravel_valid hn)).2 k hk

/-- What `bilinear_form` guarantees on entries. -/
theorem bilinearForm_spec {A b c : TT K} (hA : A.WF) (hb : b.WF) (hc : c.WF) {I J L : List ℕ}
    (rA : A.rawShape = [I, J]) (rb : b.rawShape = [I, L]) (rc : c.rawShape = [J, L])
    (bA : A.batch = none) (hbc : b.batch = c.batch) :
    ∃ T, bilinearForm A b c = Except.ok T ∧ T.shape = (squeezed b.batch).toList ∧
      ∀ o, o < b.batch.getD 1 → T.get (bsel (squeezed b.batch) o) =
        ∑ i ∈ Finset.range I.prod, ∑ l ∈ Finset.range L.prod, ∑ j ∈ Finset.range J.prod,
          b.entry (lsel b.batch o) (mIdx (unravel I i) (unravel L l)) *
          (A.entry [] (mIdx (unravel I i) (unravel J j)) *
           c.entry (lsel b.batch o) (mIdx (unravel J j) (unravel L l))) := by
  have hI : I.length = A.ndims := hA.rows_len I (by simp [rA])
  have hJ : J.length = A.ndims := hA.rows_len J (by simp [rA])
  have hnb : A.ndims = b.ndims := by rw [← hI]; exact hb.rows_len I (by simp [rb])
  have hnc : A.ndims = c.ndims := by rw [← hJ]; exact hc.rows_len J (by simp [rc])
  have hL : L.length = A.ndims := by rw [hnb]; exact hb.rows_len L (by simp [rb])
  have hpos := hA.pos
  have sA : ∀ k < A.ndims, (A.core k).shape = [A.rank k, I.getD k 0, J.getD k 0, A.rank (k + 1)] := by
    intro k hk; rw [hA.core_shape k hk]; simp [TT.modes, rA, TT.bpre, bA]
  have sb : ∀ k < A.ndims, (b.core k).shape =
      b.batch.toList ++ [b.rank k, I.getD k 0, L.getD k 0, b.rank (k + 1)] := by
    intro k hk; rw [hb.core_shape k (by omega)]; simp [TT.modes, rb, TT.bpre]
  have sc : ∀ k < A.ndims, (c.core k).shape =
      b.batch.toList ++ [c.rank k, J.getD k 0, L.getD k 0, c.rank (k + 1)] := by
    intro k hk; rw [hc.core_shape k (by omega)]; simp [TT.modes, rc, TT.bpre, hbc]
  set Q := b.batch with hQ
  let M : ℕ → List ℕ := fun k => [I.getD k 0, L.getD k 0, J.getD k 0]
  let gb : (ℕ → List ℕ) → ℕ → List ℕ := fun g k => [(g k).getD 0 0, (g k).getD 1 0]
  let gA : (ℕ → List ℕ) → ℕ → List ℕ := fun g k => [(g k).getD 0 0, (g k).getD 2 0]
  let gc : (ℕ → List ℕ) → ℕ → List ℕ := fun g k => [(g k).getD 2 0, (g k).getD 1 0]
  let V : ℕ → ℕ → ℕ → ℕ → ℕ → K := fun k o x y z => msum M k (fun g =>
      lprod b.rank (b.slice (lsel Q o) (gb g)) k x *
      (lprod A.rank (A.slice [] (gA g)) k y * lprod c.rank (c.slice (lsel Q o) (gc g)) k z))
  have rec3 : ∀ k o x y z, V (k + 1) o x y z =
      ∑ x' ∈ Finset.range (b.rank k), ∑ y' ∈ Finset.range (A.rank k), ∑ z' ∈ Finset.range (c.rank k),
        V k o x' y' z' *
        ∑ i ∈ Finset.range (I.getD k 0), ∑ l ∈ Finset.range (L.getD k 0), ∑ j ∈ Finset.range (J.getD k 0),
          (b.core k).get (lsel Q o ++ [x', i, l, x]) *
            ((A.core k).get [y', i, j, y] * (c.core k).get (lsel Q o ++ [z', j, l, z])) := by
    intro k o x y z
    refine (msum_lprod3 b.rank A.rank c.rank
      (fun j v x y => (b.core j).get (lsel Q o ++ x :: ([v.getD 0 0, v.getD 1 0] ++ [y])))
      (fun j v x y => (A.core j).get ([] ++ x :: ([v.getD 0 0, v.getD 2 0] ++ [y])))
      (fun j v x y => (c.core j).get (lsel Q o ++ x :: ([v.getD 2 0, v.getD 1 0] ++ [y]))) M k x y z).trans ?_
    refine Finset.sum_congr rfl fun x' _ => Finset.sum_congr rfl fun y' _ =>
      Finset.sum_congr rfl fun z' _ => ?_
    congr 1
    exact sum_mode3 _ _ _ fun v => (b.core k).get (lsel Q o ++ x' :: ([v.getD 0 0, v.getD 1 0] ++ [x])) *
      ((A.core k).get ([] ++ y' :: ([v.getD 0 0, v.getD 2 0] ++ [y])) *
      (c.core k).get (lsel Q o ++ z' :: ([v.getD 2 0, v.getD 1 0] ++ [z])))
  obtain ⟨E, eE, sE, vE⟩ := bilEin_first Q (b.core 0) (A.core 0) (c.core 0) _ _ _ _ _ _
    (by rw [sb 0 hpos, hb.rank_first]) (by rw [sA 0 hpos, hA.rank_first]) (by rw [sc 0 hpos, hc.rank_first])
  obtain ⟨T, eT, sT, vT⟩ := forRange_inv
    (fun k (T : Tensor K) => T.shape = Q.toList ++ [b.rank k, A.rank k, c.rank k] ∧
      ∀ o x y z, T.get (lsel Q o ++ [x, y, z]) = V k o x y z) (fun k res => do
    let bc ← pyGet b.cores k
    let cc ← pyGet c.cores k
    let Ac ← pyGet A.cores k
    einsum ([bLabel 'p' Q ++ chars! "ace", bLabel 'p' Q ++ chars! "aikb", chars! "cijd",
      bLabel 'p' Q ++ chars! "ejkf"], bLabel 'p' Q ++ chars! "bdf")
      [res, bc, Ac, cc]) 1 (A.ndims - 1) E ⟨sE, fun o x y z => by
        rw [vE, rec3 0, hA.rank_first, hb.rank_first, hc.rank_first]
        simp [V, msum, lprod]⟩ (by
      intro k T hk hk' ⟨sT, vT⟩
      obtain ⟨E', eE', sE', vE'⟩ := bilEin_step Q T (b.core k) (A.core k) (c.core k) _ _ _ _ _ _ _ _ _ sT
        (sb k (by omega)) (sA k (by omega)) (sc k (by omega))
      refine ⟨E', ?_, sE', fun o x y z => ?_⟩
      · simp only [hA.pyCore (show k < A.ndims by omega), hb.pyCore (show k < b.ndims by omega),
          hc.pyCore (show k < c.ndims by omega), R.ok_bind]
        exact eE'
      · rw [vE', rec3]
        simp only [vT])
  rw [show 1 + (A.ndims - 1) = A.ndims by omega] at sT vT
  rw [hA.rank_last, show b.rank A.ndims = 1 by rw [hnb]; exact hb.rank_last,
    show c.rank A.ndims = 1 by rw [hnc]; exact hc.rank_last] at sT
  obtain ⟨s1, v1⟩ := squeezeAll_batch T Q 3 sT
  refine ⟨squeezeAll T, ?_, s1, fun o ho => ?_⟩
  · unfold bilinearForm
    simp only [require_pos (show A.isMatrix by simp [TT.isMatrix, rA]),
      require_pos (show b.isMatrix by simp [TT.isMatrix, rb]),
      require_pos (show c.isMatrix by simp [TT.isMatrix, rc]), R.ok_bind,
      hA.pyCore hpos, hb.pyCore (show 0 < b.ndims by omega), hc.pyCore (show 0 < c.ndims by omega), ← hQ, eE, eT]
    rfl
  · rw [v1 o ho, show List.replicate 3 0 = [0, 0, 0] from rfl, vT]
    have hdep : DependsBelow A.ndims (fun g : ℕ → List ℕ =>
      lprod b.rank (b.slice (lsel Q o) (gb g)) A.ndims 0 *
      (lprod A.rank (A.slice [] (gA g)) A.ndims 0 * lprod c.rank (c.slice (lsel Q o) (gc g)) A.ndims 0)) := by
      intro g g' hg
      change _ * (_ * _) = _ * (_ * _)
      refine congrArg₂ (· * ·) (lprod_congr' fun j hj => ?_)
        (congrArg₂ (· * ·) (lprod_congr' fun j hj => ?_) (lprod_congr' fun j hj => ?_)) <;>
      funext x y <;> simp [TT.slice, gb, gA, gc, hg j hj]
    change msum (fun k => I.getD k 0 :: L.getD k 0 :: J.getD k 0 :: []) A.ndims _ = _
    rw [msum_cons A.ndims I hI _ _ hdep]
    refine Finset.sum_congr rfl fun i _ => ?_
    rw [msum_cons A.ndims L hL _ _ (fun g g' hg => hdep _ _ fun j hj => by simp only [hg j hj])]
    refine Finset.sum_congr rfl fun l _ => ?_
    rw [msum_cons A.ndims J hJ _ _ (fun g g' hg => hdep _ _ fun j hj => by simp only [hg j hj])]
    refine Finset.sum_congr rfl fun j _ => ?_
    rw [msum_nil _ _ (fun g g' hg => hdep _ _ fun j hj => by simp only [hg j hj])]
    rw [TT.entry, TT.entry, TT.entry, ← hnb, ← hnc]
    rfl

/-! ## Two matrices -/

theorem twoEin_first (X A B Y : Tensor K) (l n p o m x a b y : ℕ)
    (hX : X.shape = [1, l, n, x]) (hA : A.shape = [1, l, p, a]) (hB : B.shape = [1, p, o, b])
    (hY : Y.shape = [1, o, m, y]) :
    ∃ E, einsum ([bLabel 'p' none ++ chars! "elnf", chars! "glph", chars! "ipoj",
          bLabel 'p' none ++ chars! "aomb"], bLabel 'p' none ++ chars! "fhjb") [X, A, B, Y] = Except.ok E ∧
      E.shape = [x, a, b, y] ∧
      ∀ x' a' b' y', E.get [x', a', b', y'] =
        ∑ z ∈ Finset.range l, ∑ w ∈ Finset.range n, ∑ v ∈ Finset.range p, ∑ u ∈ Finset.range o,
          ∑ t ∈ Finset.range m,
          X.get [0, z, w, x'] * (A.get [0, z, v, a'] * (B.get [0, v, u, b'] * Y.get [0, u, t, y'])) := by
  exact ⟨_, if_pos (by simp [bLabel, einDims, hX, hA, hB, hY, List.lookup]), by
      simp [bLabel, einDims, hX, hA, hB, hY, List.lookup, lookupLabel], fun x' a' b' y' => by
      simp [bLabel, einDims, hX, hA, hB, hY, List.lookup, lookupLabel, sumOver, List.eraseDupsBy,
          List.eraseDupsBy.loop]⟩

theorem twoEin_step (Q X A B Y : Tensor K) (l n p o m qx qa qb qy x a b y : ℕ)
    (hQ : Q.shape = [qx, qa, qb, qy])
    (hX : X.shape = [qx, l, n, x]) (hA : A.shape = [qa, l, p, a]) (hB : B.shape = [qb, p, o, b])
    (hY : Y.shape = [qy, o, m, y]) :
    ∃ E, einsum ([bLabel 'p' none ++ chars! "egia", bLabel 'p' none ++ chars! "elnf", chars! "glph",
          chars! "ipoj", bLabel 'p' none ++ chars! "aomb"], bLabel 'p' none ++ chars! "fhjb")
        [Q, X, A, B, Y] = Except.ok E ∧
      E.shape = [x, a, b, y] ∧
      ∀ x' a' b' y', E.get [x', a', b', y'] =
        ∑ s₁ ∈ Finset.range qx, ∑ s₂ ∈ Finset.range qa, ∑ s₃ ∈ Finset.range qb, ∑ s₄ ∈ Finset.range qy,
          Q.get [s₁, s₂, s₃, s₄] *
        ∑ z ∈ Finset.range l, ∑ w ∈ Finset.range n, ∑ v ∈ Finset.range p, ∑ u ∈ Finset.range o,
          ∑ t ∈ Finset.range m,
          X.get [s₁, z, w, x'] * (A.get [s₂, z, v, a'] * (B.get [s₃, v, u, b'] * Y.get [s₄, u, t, y'])) := by
  simp only [Finset.mul_sum]
  obtain ⟨_, Q⟩ := Q
  obtain ⟨_, X⟩ := X
  obtain ⟨_, A⟩ := A
  obtain ⟨_, B⟩ := B
  obtain ⟨_, Y⟩ := Y
  subst hQ hX hA hB hY
  refine ⟨_, if_pos (by simp (maxSteps := 1000000) [bLabel, einDims, List.lookup]), rfl, fun x' a' b' y' => ?_⟩
  refine Eq.trans (b := ∑ s₁ ∈ Finset.range qx, ∑ s₂ ∈ Finset.range qa, ∑ s₃ ∈ Finset.range qb,
    ∑ s₄ ∈ Finset.range qy, ∑ z ∈ Finset.range l, ∑ w ∈ Finset.range n, ∑ v ∈ Finset.range p,
      ∑ u ∈ Finset.range o, ∑ t ∈ Finset.range m, Q [s₁, s₂, s₃, s₄] * (X [s₁, z, w, x'] *
        (A [s₂, z, v, a'] * (B [s₃, v, u, b'] * (Y [s₄, u, t, y'] * 1))))) rfl ?_
  simp only [mul_one]

/-- What `bilinear_form_two_mat` guarantees on entries (no batches). -/
theorem bilinearFormTwoMat_spec {x A B y : TT K} (hx : x.WF) (hA : A.WF) (hB : B.WF) (hy : y.WF)
    {L N P O M : List ℕ} (rx : x.rawShape = [L, N]) (rA : A.rawShape = [L, P]) (rB : B.rawShape = [P, O])
    (ry : y.rawShape = [O, M]) (bx : x.batch = none) (bA : A.batch = none) (bB : B.batch = none)
    (bY : y.batch = none) :
    ∃ T, bilinearFormTwoMat x A B y = Except.ok T ∧ T.shape = [] ∧
      T.get [] =
        ∑ l ∈ Finset.range L.prod, ∑ n ∈ Finset.range N.prod, ∑ p ∈ Finset.range P.prod,
          ∑ o ∈ Finset.range O.prod, ∑ m ∈ Finset.range M.prod,
          x.entry [] (mIdx (unravel L l) (unravel N n)) * (A.entry [] (mIdx (unravel L l) (unravel P p)) *
          (B.entry [] (mIdx (unravel P p) (unravel O o)) * y.entry [] (mIdx (unravel O o) (unravel M m)))) := by
  have hL : L.length = A.ndims := hA.rows_len L (by simp [rA])
  have hP : P.length = A.ndims := hA.rows_len P (by simp [rA])
  have hnx : A.ndims = x.ndims := by rw [← hL]; exact hx.rows_len L (by simp [rx])
  have hnB : A.ndims = B.ndims := by rw [← hP]; exact hB.rows_len P (by simp [rB])
  have hO : O.length = A.ndims := by rw [hnB]; exact hB.rows_len O (by simp [rB])
  have hny : A.ndims = y.ndims := by rw [← hO]; exact hy.rows_len O (by simp [ry])
  have hN : N.length = A.ndims := by rw [hnx]; exact hx.rows_len N (by simp [rx])
  have hM : M.length = A.ndims := by rw [hny]; exact hy.rows_len M (by simp [ry])
  have hpos := hA.pos
  have sx : ∀ k < A.ndims, (x.core k).shape = [x.rank k, L.getD k 0, N.getD k 0, x.rank (k + 1)] := by
    intro k hk; rw [hx.core_shape k (by omega)]; simp [TT.modes, rx, TT.bpre, bx]
  have sA : ∀ k < A.ndims, (A.core k).shape = [A.rank k, L.getD k 0, P.getD k 0, A.rank (k + 1)] := by
    intro k hk; rw [hA.core_shape k hk]; simp [TT.modes, rA, TT.bpre, bA]
  have sB : ∀ k < A.ndims, (B.core k).shape = [B.rank k, P.getD k 0, O.getD k 0, B.rank (k + 1)] := by
    intro k hk; rw [hB.core_shape k (by omega)]; simp [TT.modes, rB, TT.bpre, bB]
  have sy : ∀ k < A.ndims, (y.core k).shape = [y.rank k, O.getD k 0, M.getD k 0, y.rank (k + 1)] := by
    intro k hk; rw [hy.core_shape k (by omega)]; simp [TT.modes, ry, TT.bpre, bY]
  let MM : ℕ → List ℕ := fun k => [L.getD k 0, N.getD k 0, P.getD k 0, O.getD k 0, M.getD k 0]
  let gx : (ℕ → List ℕ) → ℕ → List ℕ := fun g k => [(g k).getD 0 0, (g k).getD 1 0]
  let gA : (ℕ → List ℕ) → ℕ → List ℕ := fun g k => [(g k).getD 0 0, (g k).getD 2 0]
  let gB : (ℕ → List ℕ) → ℕ → List ℕ := fun g k => [(g k).getD 2 0, (g k).getD 3 0]
  let gy : (ℕ → List ℕ) → ℕ → List ℕ := fun g k => [(g k).getD 3 0, (g k).getD 4 0]
  let V : ℕ → ℕ → ℕ → ℕ → ℕ → K := fun k s₁ s₂ s₃ s₄ => msum MM k (fun g =>
      lprod x.rank (x.slice [] (gx g)) k s₁ * (lprod A.rank (A.slice [] (gA g)) k s₂ *
      (lprod B.rank (B.slice [] (gB g)) k s₃ * lprod y.rank (y.slice [] (gy g)) k s₄)))
  have rec4 : ∀ k t₁ t₂ t₃ t₄, V (k + 1) t₁ t₂ t₃ t₄ =
      ∑ s₁ ∈ Finset.range (x.rank k), ∑ s₂ ∈ Finset.range (A.rank k), ∑ s₃ ∈ Finset.range (B.rank k),
        ∑ s₄ ∈ Finset.range (y.rank k), V k s₁ s₂ s₃ s₄ *
        ∑ l ∈ Finset.range (L.getD k 0), ∑ n ∈ Finset.range (N.getD k 0), ∑ p ∈ Finset.range (P.getD k 0),
          ∑ o ∈ Finset.range (O.getD k 0), ∑ m ∈ Finset.range (M.getD k 0),
          (x.core k).get [s₁, l, n, t₁] * ((A.core k).get [s₂, l, p, t₂] *
            ((B.core k).get [s₃, p, o, t₃] * (y.core k).get [s₄, o, m, t₄])) := by
    intro k t₁ t₂ t₃ t₄
    refine (msum_lprod4 x.rank A.rank B.rank y.rank
      (fun j v x' y' => (x.core j).get ([] ++ x' :: ([v.getD 0 0, v.getD 1 0] ++ [y'])))
      (fun j v x' y' => (A.core j).get ([] ++ x' :: ([v.getD 0 0, v.getD 2 0] ++ [y'])))
      (fun j v x' y' => (B.core j).get ([] ++ x' :: ([v.getD 2 0, v.getD 3 0] ++ [y'])))
      (fun j v x' y' => (y.core j).get ([] ++ x' :: ([v.getD 3 0, v.getD 4 0] ++ [y']))) MM k t₁ t₂ t₃ t₄).trans ?_
    refine Finset.sum_congr rfl fun s₁ _ => Finset.sum_congr rfl fun s₂ _ =>
      Finset.sum_congr rfl fun s₃ _ => Finset.sum_congr rfl fun s₄ _ => ?_
    congr 1
    exact sum_mode5 _ _ _ _ _ fun v =>
      (x.core k).get ([] ++ s₁ :: ([v.getD 0 0, v.getD 1 0] ++ [t₁])) *
      ((A.core k).get ([] ++ s₂ :: ([v.getD 0 0, v.getD 2 0] ++ [t₂])) *
      ((B.core k).get ([] ++ s₃ :: ([v.getD 2 0, v.getD 3 0] ++ [t₃])) *
      (y.core k).get ([] ++ s₄ :: ([v.getD 3 0, v.getD 4 0] ++ [t₄]))))
  obtain ⟨E, eE, sE, vE⟩ := twoEin_first (x.core 0) (A.core 0) (B.core 0) (y.core 0) _ _ _ _ _ _ _ _ _
    (by rw [sx 0 hpos, hx.rank_first]) (by rw [sA 0 hpos, hA.rank_first])
    (by rw [sB 0 hpos, hB.rank_first]) (by rw [sy 0 hpos, hy.rank_first])
  obtain ⟨T, eT, sT, vT⟩ := forRange_inv
    (fun k (T : Tensor K) => T.shape = [x.rank k, A.rank k, B.rank k, y.rank k] ∧
      ∀ s₁ s₂ s₃ s₄, T.get [s₁, s₂, s₃, s₄] = V k s₁ s₂ s₃ s₄) (fun k res => do
    let xc ← pyGet x.cores k
    let yc ← pyGet y.cores k
    let Ac ← pyGet A.cores k
    let Bc ← pyGet B.cores k
    einsum ([bLabel 'p' none ++ chars! "egia", bLabel 'p' none ++ chars! "elnf", chars! "glph",
      chars! "ipoj", bLabel 'p' none ++ chars! "aomb"],
      bLabel 'p' none ++ chars! "fhjb") [res, xc, Ac, Bc, yc]) 1 (A.ndims - 1) E ⟨sE, fun s₁ s₂ s₃ s₄ => by
        rw [vE, rec4 0, hA.rank_first, hB.rank_first, hx.rank_first, hy.rank_first]
        simp [V, msum, lprod]⟩ (by
      intro k T hk hk' ⟨sT, vT⟩
      obtain ⟨E', eE', sE', vE'⟩ := twoEin_step T (x.core k) (A.core k) (B.core k) (y.core k)
        _ _ _ _ _ _ _ _ _ _ _ _ _ sT
        (sx k (by omega)) (sA k (by omega)) (sB k (by omega)) (sy k (by omega))
      refine ⟨E', ?_, sE', fun s₁ s₂ s₃ s₄ => ?_⟩
      · simp only [hA.pyCore (show k < A.ndims by omega), hB.pyCore (show k < B.ndims by omega),
          hx.pyCore (show k < x.ndims by omega), hy.pyCore (show k < y.ndims by omega), R.ok_bind]
        exact eE'
      · rw [vE', rec4]
        simp only [vT])
  rw [show 1 + (A.ndims - 1) = A.ndims by omega] at sT vT
  rw [hA.rank_last, show x.rank A.ndims = 1 by rw [hnx]; exact hx.rank_last,
    show B.rank A.ndims = 1 by rw [hnB]; exact hB.rank_last,
    show y.rank A.ndims = 1 by rw [hny]; exact hy.rank_last] at sT
  obtain ⟨s1, v1⟩ := squeezeAll_batch T none 4 sT
  refine ⟨squeezeAll T, ?_, s1, ?_⟩
  · unfold bilinearFormTwoMat
    simp only [require_pos (show A.isMatrix by simp [TT.isMatrix, rA]),
      require_pos (show B.isMatrix by simp [TT.isMatrix, rB]),
      require_pos (show x.isMatrix by simp [TT.isMatrix, rx]),
      require_pos (show y.isMatrix by simp [TT.isMatrix, ry]), R.ok_bind, bx,
      hA.pyCore hpos, hB.pyCore (show 0 < B.ndims by omega), hx.pyCore (show 0 < x.ndims by omega),
      hy.pyCore (show 0 < y.ndims by omega), eE, eT]
    rfl
  · refine (v1 0 (by simp)).trans ?_
    rw [show lsel none 0 ++ List.replicate 4 0 = [0, 0, 0, 0] from rfl, vT]
    have hdep : DependsBelow A.ndims (fun g : ℕ → List ℕ =>
      lprod x.rank (x.slice [] (gx g)) A.ndims 0 * (lprod A.rank (A.slice [] (gA g)) A.ndims 0 *
      (lprod B.rank (B.slice [] (gB g)) A.ndims 0 * lprod y.rank (y.slice [] (gy g)) A.ndims 0))) := by
      intro g g' hg
      change _ * (_ * (_ * _)) = _ * (_ * (_ * _))
      refine congrArg₂ (· * ·) (lprod_congr' fun j hj => ?_)
        (congrArg₂ (· * ·) (lprod_congr' fun j hj => ?_)
          (congrArg₂ (· * ·) (lprod_congr' fun j hj => ?_) (lprod_congr' fun j hj => ?_))) <;>
      funext x y <;> simp [TT.slice, gx, gA, gB, gy, hg j hj]
    change msum (fun k => L.getD k 0 :: N.getD k 0 :: P.getD k 0 :: O.getD k 0 :: M.getD k 0 :: []) A.ndims _ = _
    rw [msum_cons A.ndims L hL _ _ hdep]
    refine Finset.sum_congr rfl fun l _ => ?_
    rw [msum_cons A.ndims N hN _ _ (fun g g' hg => hdep _ _ fun j hj => by simp only [hg j hj])]
    refine Finset.sum_congr rfl fun n _ => ?_
    rw [msum_cons A.ndims P hP _ _ (fun g g' hg => hdep _ _ fun j hj => by simp only [hg j hj])]
    refine Finset.sum_congr rfl fun p _ => ?_
    rw [msum_cons A.ndims O hO _ _ (fun g g' hg => hdep _ _ fun j hj => by simp only [hg j hj])]
    refine Finset.sum_congr rfl fun o _ => ?_
    rw [msum_cons A.ndims M hM _ _ (fun g g' hg => hdep _ _ fun j hj => by simp only [hg j hj])]
    refine Finset.sum_congr rfl fun m _ => ?_
    rw [msum_nil _ _ (fun g g' hg => hdep _ _ fun j hj => by simp only [hg j hj])]
    rw [TT.entry, TT.entry, TT.entry, TT.entry, ← hnx, ← hny, ← hnB]
    rfl

end T3f
