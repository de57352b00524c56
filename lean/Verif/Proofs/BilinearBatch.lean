import Verif.Proofs.Bilinear

/-! # `bilinear_form_two_mat` for batches

The einsum letter `p` is both the batch axis and the inner mode of the two matrices. -/

namespace T3f

variable {K : Type} [CommRing K]

theorem twoEin_first_batch (X A B Y : Tensor K) (q l n o m x a b y : ℕ)
    (hX : X.shape = [q, 1, l, n, x]) (hA : A.shape = [1, l, q, a]) (hB : B.shape = [1, q, o, b])
    (hY : Y.shape = [q, 1, o, m, y]) :
    ∃ E, einsum ([bLabel 'p' (some q) ++ chars! "elnf", chars! "glph", chars! "ipoj",
          bLabel 'p' (some q) ++ chars! "aomb"], bLabel 'p' (some q) ++ chars! "fhjb") [X, A, B, Y] = Except.ok E ∧
      E.shape = [q, x, a, b, y] ∧
      ∀ c x' a' b' y', E.get [c, x', a', b', y'] =
        ∑ z ∈ Finset.range l, ∑ w ∈ Finset.range n, ∑ u ∈ Finset.range o,
          ∑ t ∈ Finset.range m,
          X.get [c, 0, z, w, x'] * (A.get [0, z, c, a'] * (B.get [0, c, u, b'] * Y.get [c, 0, u, t, y'])) := by
  obtain ⟨_, X⟩ := X
  obtain ⟨_, A⟩ := A
  obtain ⟨_, B⟩ := B
  obtain ⟨_, Y⟩ := Y
  subst hX hA hB hY
  refine ⟨_, if_pos (by simp (maxSteps := 1000000) [bLabel, einDims, List.lookup]), rfl, fun c x' a' b' y' => ?_⟩
  simp [bLabel, einDims, List.lookup, lookupLabel, sumOver, List.eraseDupsBy, List.eraseDupsBy.loop]

theorem twoEin_step_batch (Q X A B Y : Tensor K) (q l n o m qx qa qb qy x a b y : ℕ)
    (hQ : Q.shape = [q, qx, qa, qb, qy])
    (hX : X.shape = [q, qx, l, n, x]) (hA : A.shape = [qa, l, q, a]) (hB : B.shape = [qb, q, o, b])
    (hY : Y.shape = [q, qy, o, m, y]) :
    ∃ E, einsum ([bLabel 'p' (some q) ++ chars! "egia", bLabel 'p' (some q) ++ chars! "elnf", chars! "glph",
          chars! "ipoj", bLabel 'p' (some q) ++ chars! "aomb"], bLabel 'p' (some q) ++ chars! "fhjb")
        [Q, X, A, B, Y] = Except.ok E ∧
      E.shape = [q, x, a, b, y] ∧
      ∀ c x' a' b' y', E.get [c, x', a', b', y'] =
        ∑ s₁ ∈ Finset.range qx, ∑ s₂ ∈ Finset.range qa, ∑ s₃ ∈ Finset.range qb, ∑ s₄ ∈ Finset.range qy,
          Q.get [c, s₁, s₂, s₃, s₄] *
        ∑ z ∈ Finset.range l, ∑ w ∈ Finset.range n, ∑ u ∈ Finset.range o,
          ∑ t ∈ Finset.range m,
          X.get [c, s₁, z, w, x'] * (A.get [s₂, z, c, a'] * (B.get [s₃, c, u, b'] * Y.get [c, s₄, u, t, y'])) := by
  simp only [Finset.mul_sum]
  obtain ⟨_, Q⟩ := Q
  obtain ⟨_, X⟩ := X
  obtain ⟨_, A⟩ := A
  obtain ⟨_, B⟩ := B
  obtain ⟨_, Y⟩ := Y
  subst hQ hX hA hB hY
  refine ⟨_, if_pos (by simp (maxSteps := 1000000) [bLabel, einDims, List.lookup]), rfl, fun c x' a' b' y' => ?_⟩
  refine Eq.trans (b := ∑ s₁ ∈ Finset.range qx, ∑ s₂ ∈ Finset.range qa, ∑ s₃ ∈ Finset.range qb,
    ∑ s₄ ∈ Finset.range qy, ∑ z ∈ Finset.range l, ∑ w ∈ Finset.range n,
      ∑ u ∈ Finset.range o, ∑ t ∈ Finset.range m, Q [c, s₁, s₂, s₃, s₄] * (X [c, s₁, z, w, x'] *
        (A [s₂, z, c, a'] * (B [s₃, c, u, b'] * (Y [c, s₄, u, t, y'] * 1))))) rfl ?_
  simp only [mul_one]

theorem sum_mode4 (i j k l : ℕ) (f : List ℕ → K) :
    ∑ n ∈ Finset.range [i, j, k, l].prod, f (unravel [i, j, k, l] n) =
      ∑ z ∈ Finset.range i, ∑ w ∈ Finset.range j, ∑ v ∈ Finset.range k, ∑ u ∈ Finset.range l, f [z, w, v, u] := by
  rw [sum_mode_cons]
  refine Finset.sum_congr rfl fun z _ => ?_
  rw [sum_mode3 j k l fun v => f (z :: v)]

/-- What `bilinear_form_two_mat` computes for two batches of size `q` if all inner modes have size `q`. -/
theorem bilinearFormTwoMat_batch {x A B y : TT K} (hx : x.WF) (hA : A.WF) (hB : B.WF) (hy : y.WF)
    {L N P O M : List ℕ} (rx : x.rawShape = [L, N]) (rA : A.rawShape = [L, P]) (rB : B.rawShape = [P, O])
    (ry : y.rawShape = [O, M]) {q : ℕ} (bx : x.batch = some q) (bA : A.batch = none) (bB : B.batch = none)
    (bY : y.batch = some q) (hq : ∀ k < P.length, P.getD k 0 = q) :
    ∃ T, bilinearFormTwoMat x A B y = Except.ok T ∧ T.shape = (squeezed (some q)).toList ∧
      ∀ c < q, T.get (bsel (squeezed (some q)) c) =
        ∑ l ∈ Finset.range L.prod, ∑ n ∈ Finset.range N.prod,
          ∑ o ∈ Finset.range O.prod, ∑ m ∈ Finset.range M.prod,
          x.entry [c] (mIdx (unravel L l) (unravel N n)) * (A.entry [] (mIdx (unravel L l) (List.replicate P.length c)) *
          (B.entry [] (mIdx (List.replicate P.length c) (unravel O o)) * y.entry [c] (mIdx (unravel O o) (unravel M m)))) := by
  have hL : L.length = A.ndims := hA.rows_len L (by simp [rA])
  have hP : P.length = A.ndims := hA.rows_len P (by simp [rA])
  have hnx : A.ndims = x.ndims := by rw [← hL]; exact hx.rows_len L (by simp [rx])
  have hnB : A.ndims = B.ndims := by rw [← hP]; exact hB.rows_len P (by simp [rB])
  have hO : O.length = A.ndims := by rw [hnB]; exact hB.rows_len O (by simp [rB])
  have hny : A.ndims = y.ndims := by rw [← hO]; exact hy.rows_len O (by simp [ry])
  have hN : N.length = A.ndims := by rw [hnx]; exact hx.rows_len N (by simp [rx])
  have hM : M.length = A.ndims := by rw [hny]; exact hy.rows_len M (by simp [ry])
  have hpos := hA.pos
  have sx : ∀ k < A.ndims, (x.core k).shape = [q, x.rank k, L.getD k 0, N.getD k 0, x.rank (k + 1)] := by
    intro k hk; rw [hx.core_shape k (by omega)]; simp [TT.modes, rx, TT.bpre, bx]
  have sA : ∀ k < A.ndims, (A.core k).shape = [A.rank k, L.getD k 0, q, A.rank (k + 1)] := by
    intro k hk; rw [hA.core_shape k hk, ← hq k (by omega)]; simp [TT.modes, rA, TT.bpre, bA]
  have sB : ∀ k < A.ndims, (B.core k).shape = [B.rank k, q, O.getD k 0, B.rank (k + 1)] := by
    intro k hk; rw [hB.core_shape k (by omega), ← hq k (by omega)]; simp [TT.modes, rB, TT.bpre, bB]
  have sy : ∀ k < A.ndims, (y.core k).shape = [q, y.rank k, O.getD k 0, M.getD k 0, y.rank (k + 1)] := by
    intro k hk; rw [hy.core_shape k (by omega)]; simp [TT.modes, ry, TT.bpre, bY]
  let MM : ℕ → List ℕ := fun k => [L.getD k 0, N.getD k 0, O.getD k 0, M.getD k 0]
  let gx : (ℕ → List ℕ) → ℕ → List ℕ := fun g k => [(g k).getD 0 0, (g k).getD 1 0]
  let gA : ℕ → (ℕ → List ℕ) → ℕ → List ℕ := fun c g k => [(g k).getD 0 0, c]
  let gB : ℕ → (ℕ → List ℕ) → ℕ → List ℕ := fun c g k => [c, (g k).getD 2 0]
  let gy : (ℕ → List ℕ) → ℕ → List ℕ := fun g k => [(g k).getD 2 0, (g k).getD 3 0]
  let V : ℕ → ℕ → ℕ → ℕ → ℕ → ℕ → K := fun k c s₁ s₂ s₃ s₄ => msum MM k (fun g =>
      lprod x.rank (x.slice [c] (gx g)) k s₁ * (lprod A.rank (A.slice [] (gA c g)) k s₂ *
      (lprod B.rank (B.slice [] (gB c g)) k s₃ * lprod y.rank (y.slice [c] (gy g)) k s₄)))
  have rec4 : ∀ k c t₁ t₂ t₃ t₄, V (k + 1) c t₁ t₂ t₃ t₄ =
      ∑ s₁ ∈ Finset.range (x.rank k), ∑ s₂ ∈ Finset.range (A.rank k), ∑ s₃ ∈ Finset.range (B.rank k),
        ∑ s₄ ∈ Finset.range (y.rank k), V k c s₁ s₂ s₃ s₄ *
        ∑ l ∈ Finset.range (L.getD k 0), ∑ n ∈ Finset.range (N.getD k 0),
          ∑ o ∈ Finset.range (O.getD k 0), ∑ m ∈ Finset.range (M.getD k 0),
          (x.core k).get [c, s₁, l, n, t₁] * ((A.core k).get [s₂, l, c, t₂] *
            ((B.core k).get [s₃, c, o, t₃] * (y.core k).get [c, s₄, o, m, t₄])) := by
    intro k c t₁ t₂ t₃ t₄
    refine (msum_lprod4 x.rank A.rank B.rank y.rank
      (fun j v x' y' => (x.core j).get ([c] ++ x' :: ([v.getD 0 0, v.getD 1 0] ++ [y'])))
      (fun j v x' y' => (A.core j).get ([] ++ x' :: ([v.getD 0 0, c] ++ [y'])))
      (fun j v x' y' => (B.core j).get ([] ++ x' :: ([c, v.getD 2 0] ++ [y'])))
      (fun j v x' y' => (y.core j).get ([c] ++ x' :: ([v.getD 2 0, v.getD 3 0] ++ [y']))) MM k t₁ t₂ t₃ t₄).trans ?_
    refine Finset.sum_congr rfl fun s₁ _ => Finset.sum_congr rfl fun s₂ _ =>
      Finset.sum_congr rfl fun s₃ _ => Finset.sum_congr rfl fun s₄ _ => ?_
    congr 1
    exact sum_mode4 _ _ _ _ fun v =>
      (x.core k).get ([c] ++ s₁ :: ([v.getD 0 0, v.getD 1 0] ++ [t₁])) *
      ((A.core k).get ([] ++ s₂ :: ([v.getD 0 0, c] ++ [t₂])) *
      ((B.core k).get ([] ++ s₃ :: ([c, v.getD 2 0] ++ [t₃])) *
      (y.core k).get ([c] ++ s₄ :: ([v.getD 2 0, v.getD 3 0] ++ [t₄]))))
  obtain ⟨E, eE, sE, vE⟩ := twoEin_first_batch (x.core 0) (A.core 0) (B.core 0) (y.core 0) _ _ _ _ _ _ _ _ _
    (by rw [sx 0 hpos, hx.rank_first]) (by rw [sA 0 hpos, hA.rank_first])
    (by rw [sB 0 hpos, hB.rank_first]) (by rw [sy 0 hpos, hy.rank_first])
  obtain ⟨T, eT, sT, vT⟩ := forRange_inv
    (fun k (T : Tensor K) => T.shape = [q, x.rank k, A.rank k, B.rank k, y.rank k] ∧
      ∀ c s₁ s₂ s₃ s₄, T.get [c, s₁, s₂, s₃, s₄] = V k c s₁ s₂ s₃ s₄) (fun k res => do
    let xc ← pyGet x.cores k
    let yc ← pyGet y.cores k
    let Ac ← pyGet A.cores k
    let Bc ← pyGet B.cores k
    einsum ([bLabel 'p' (some q) ++ chars! "egia", bLabel 'p' (some q) ++ chars! "elnf", chars! "glph",
      chars! "ipoj", bLabel 'p' (some q) ++ chars! "aomb"],
      bLabel 'p' (some q) ++ chars! "fhjb") [res, xc, Ac, Bc, yc]) 1 (A.ndims - 1) E ⟨sE, fun c s₁ s₂ s₃ s₄ => by
        rw [vE, rec4 0, hA.rank_first, hB.rank_first, hx.rank_first, hy.rank_first]
        simp [V, msum, lprod]⟩ (by
      intro k T hk hk' ⟨sT, vT⟩
      obtain ⟨E', eE', sE', vE'⟩ := twoEin_step_batch T (x.core k) (A.core k) (B.core k) (y.core k)
        _ _ _ _ _ _ _ _ _ _ _ _ _ sT
        (sx k (by omega)) (sA k (by omega)) (sB k (by omega)) (sy k (by omega))
      refine ⟨E', ?_, sE', fun c s₁ s₂ s₃ s₄ => ?_⟩
      · simp only [hA.pyCore (show k < A.ndims by omega), hB.pyCore (show k < B.ndims by omega),
          hx.pyCore (show k < x.ndims by omega), hy.pyCore (show k < y.ndims by omega), R.ok_bind]
        exact eE'
      · rw [vE', rec4]
        simp only [vT])
  rw [show 1 + (A.ndims - 1) = A.ndims by omega] at sT vT
  rw [hA.rank_last, show x.rank A.ndims = 1 by rw [hnx]; exact hx.rank_last,
    show B.rank A.ndims = 1 by rw [hnB]; exact hB.rank_last,
    show y.rank A.ndims = 1 by rw [hny]; exact hy.rank_last] at sT
  obtain ⟨s1, v1⟩ := squeezeAll_batch T (some q) 4 sT
  refine ⟨squeezeAll T, ?_, s1, fun c hc => ?_⟩
  · unfold bilinearFormTwoMat
    simp only [require_pos (show A.isMatrix by simp [TT.isMatrix, rA]),
      require_pos (show B.isMatrix by simp [TT.isMatrix, rB]),
      require_pos (show x.isMatrix by simp [TT.isMatrix, rx]),
      require_pos (show y.isMatrix by simp [TT.isMatrix, ry]), R.ok_bind, bx,
      hA.pyCore hpos, hB.pyCore (show 0 < B.ndims by omega), hx.pyCore (show 0 < x.ndims by omega),
      hy.pyCore (show 0 < y.ndims by omega), eE, eT]
    rfl
  · refine (v1 c (by simpa using hc)).trans ?_
    rw [show lsel (some q) c ++ List.replicate 4 0 = [c, 0, 0, 0, 0] from rfl, vT]
    have hdep : DependsBelow A.ndims (fun g : ℕ → List ℕ =>
      lprod x.rank (x.slice [c] (gx g)) A.ndims 0 * (lprod A.rank (A.slice [] (gA c g)) A.ndims 0 *
      (lprod B.rank (B.slice [] (gB c g)) A.ndims 0 * lprod y.rank (y.slice [c] (gy g)) A.ndims 0))) := by
      intro g g' hg
      change _ * (_ * (_ * _)) = _ * (_ * (_ * _))
      refine congrArg₂ (· * ·) (lprod_congr' fun j hj => ?_)
        (congrArg₂ (· * ·) (lprod_congr' fun j hj => ?_)
          (congrArg₂ (· * ·) (lprod_congr' fun j hj => ?_) (lprod_congr' fun j hj => ?_))) <;>
      funext x y <;> simp [TT.slice, gx, gA, gB, gy, hg j hj]
    change msum (fun k => L.getD k 0 :: N.getD k 0 :: O.getD k 0 :: M.getD k 0 :: []) A.ndims _ = _
    rw [msum_cons A.ndims L hL _ _ hdep]
    refine Finset.sum_congr rfl fun l _ => ?_
    rw [msum_cons A.ndims N hN _ _ (fun g g' hg => hdep _ _ fun j hj => by simp only [hg j hj])]
    refine Finset.sum_congr rfl fun n _ => ?_
    rw [msum_cons A.ndims O hO _ _ (fun g g' hg => hdep _ _ fun j hj => by simp only [hg j hj])]
    refine Finset.sum_congr rfl fun o _ => ?_
    rw [msum_cons A.ndims M hM _ _ (fun g g' hg => hdep _ _ fun j hj => by simp only [hg j hj])]
    refine Finset.sum_congr rfl fun m _ => ?_
    rw [msum_nil _ _ (fun g g' hg => hdep _ _ fun j hj => by simp only [hg j hj])]
    rw [TT.entry, TT.entry, TT.entry, TT.entry, ← hnx, ← hny, ← hnB]
    have rep : ∀ j < A.ndims, (List.replicate P.length c).getD j 0 = c := fun j hj => by
      rw [List.getD_eq_getElem _ _ (by rw [List.length_replicate]; omega)]; simp
    refine congrArg₂ (· * ·) rfl (congrArg₂ (· * ·) (lprod_congr' fun j hj => ?_)
      (congrArg₂ (· * ·) (lprod_congr' fun j hj => ?_) rfl)) <;>
    funext x y <;> simp only [TT.slice, gA, gB, mIdx, rep j hj] <;> rfl

theorem einsum_cases (spec : List (List Char) × List Char) (ops : List (Tensor K)) :
    (∃ T, einsum spec ops = Except.ok T) ∨ einsum spec ops = Except.error Err.tf := by
  unfold einsum
  dsimp only
  split_ifs with h
  · exact Or.inl ⟨_, rfl⟩
  · exact Or.inr rfl

theorem forRange_fails {σ : Type} {f : ℕ → σ → R σ} {e : Err} {k : ℕ} (hk : ∀ s, f k s = Except.error e) :
    ∀ (n a : ℕ) (s : σ), (∀ j, a ≤ j → j < a + n → ∀ s, (∃ s', f j s = Except.ok s') ∨ f j s = Except.error e) →
      a ≤ k → k < a + n → forRange f a n s = Except.error e := by
  intro n
  induction n with
  | zero => intro a s _ h1 h2; omega
  | succ n ih =>
    intro a s hf h1 h2
    rw [forRange]
    rcases eq_or_ne k a with rfl | hne
    · rw [hk]; rfl
    · rcases hf a le_rfl (by omega) s with ⟨s', e'⟩ | e'
      · rw [e']
        exact ih (a + 1) s' (fun j h3 h4 => hf j (by omega) (by omega)) (by omega) (by omega)
      · rw [e']; rfl

/-- All other combinations fail. -/
theorem bilinearFormTwoMat_batch_error {x A B y : TT K} (hx : x.WF) (hA : A.WF) (hB : B.WF) (hy : y.WF)
    {L N P O M : List ℕ} (rx : x.rawShape = [L, N]) (rA : A.rawShape = [L, P]) (rB : B.rawShape = [P, O])
    (ry : y.rawShape = [O, M])
    (h : ¬ (A.batch = none ∧ B.batch = none ∧ x.batch = y.batch ∧ ∀ q ∈ x.batch, ∀ k < P.length, P.getD k 0 = q)) :
    bilinearFormTwoMat x A B y = Except.error Err.tf := by
  have hL : L.length = A.ndims := hA.rows_len L (by simp [rA])
  have hP : P.length = A.ndims := hA.rows_len P (by simp [rA])
  have hnx : A.ndims = x.ndims := by rw [← hL]; exact hx.rows_len L (by simp [rx])
  have hnB : A.ndims = B.ndims := by rw [← hP]; exact hB.rows_len P (by simp [rB])
  have hO : O.length = A.ndims := by rw [hnB]; exact hB.rows_len O (by simp [rB])
  have hny : A.ndims = y.ndims := by rw [← hO]; exact hy.rows_len O (by simp [ry])
  have hpos := hA.pos
  have sx : ∀ k < A.ndims, (x.core k).shape = x.batch.toList ++ [x.rank k, L.getD k 0, N.getD k 0, x.rank (k + 1)] := by
    intro k hk; rw [hx.core_shape k (by omega)]; simp [TT.modes, rx, TT.bpre]
  have sA : ∀ k < A.ndims, (A.core k).shape = A.batch.toList ++ [A.rank k, L.getD k 0, P.getD k 0, A.rank (k + 1)] := by
    intro k hk; rw [hA.core_shape k hk]; simp [TT.modes, rA, TT.bpre]
  have sB : ∀ k < A.ndims, (B.core k).shape = B.batch.toList ++ [B.rank k, P.getD k 0, O.getD k 0, B.rank (k + 1)] := by
    intro k hk; rw [hB.core_shape k (by omega)]; simp [TT.modes, rB, TT.bpre]
  have sy : ∀ k < A.ndims, (y.core k).shape = y.batch.toList ++ [y.rank k, O.getD k 0, M.getD k 0, y.rank (k + 1)] := by
    intro k hk; rw [hy.core_shape k (by omega)]; simp [TT.modes, ry, TT.bpre]
  unfold bilinearFormTwoMat
  simp only [require_pos (show A.isMatrix by simp [TT.isMatrix, rA]),
    require_pos (show B.isMatrix by simp [TT.isMatrix, rB]),
    require_pos (show x.isMatrix by simp [TT.isMatrix, rx]),
    require_pos (show y.isMatrix by simp [TT.isMatrix, ry]), R.ok_bind, hA.pyCore hA.pos, hB.pyCore hB.pos,
    hx.pyCore hx.pos, hy.pyCore hy.pos]
  by_cases h0 : A.batch = none ∧ B.batch = none ∧ x.batch = y.batch
  · obtain ⟨bA, bB, bxy⟩ := h0
    have : ∃ q, x.batch = some q ∧ ∃ k < P.length, P.getD k 0 ≠ q := by
      by_contra hc
      push Not at hc
      exact h ⟨bA, bB, bxy, fun q hq k hk => hc q hq k hk⟩
    obtain ⟨q, bx, k, hk, hne⟩ := this
    rcases Nat.eq_zero_or_pos k with rfl | hk0
    · have e : einsum ([bLabel 'p' x.batch ++ chars! "elnf", chars! "glph", chars! "ipoj",
          bLabel 'p' x.batch ++ chars! "aomb"], bLabel 'p' x.batch ++ chars! "fhjb")
          [x.core 0, A.core 0, B.core 0, y.core 0] = Except.error Err.tf := by
        refine if_neg ?_
        rintro ⟨-, h, -⟩
        have s1 := sx 0 hpos
        have s2 := sA 0 hpos
        rw [bx] at s1
        rw [bA] at s2
        generalize L.getD 0 0 = l0 at s1 s2
        generalize N.getD 0 0 = n0 at s1
        generalize P.getD 0 0 = p0 at s2 hne
        have := h ('p', p0) (by simp [einDims, bLabel, bx, s1, s2])
        simp [einDims, bLabel, bx, s1] at this
        exact hne this.symm
      rw [e]; rfl
    · rcases einsum_cases ([bLabel 'p' x.batch ++ chars! "elnf", chars! "glph", chars! "ipoj",
          bLabel 'p' x.batch ++ chars! "aomb"], bLabel 'p' x.batch ++ chars! "fhjb")
          [x.core 0, A.core 0, B.core 0, y.core 0] with ⟨E, e⟩ | e
      · rw [e, R.ok_bind, forRange_fails (e := Err.tf) (k := k) (fun Q => ?_) _ _ _ (fun j h1 h2 Q => ?_) (by omega) (by omega)]
        · rfl
        · simp only [hA.pyCore (show k < A.ndims by omega), hB.pyCore (show k < B.ndims by omega),
            hx.pyCore (show k < x.ndims by omega), hy.pyCore (show k < y.ndims by omega), R.ok_bind]
          refine if_neg ?_
          rintro ⟨-, h, -⟩
          have s1 := sx k (by omega)
          have s2 := sA k (by omega)
          rw [bx] at s1
          rw [bA] at s2
          generalize L.getD k 0 = l0 at s1 s2
          generalize N.getD k 0 = n0 at s1
          generalize P.getD k 0 = p0 at s2 hne
          have h1 := h ('p', p0) (by simp [einDims, bLabel, bx, s1, s2])
          have h2 := h ('p', q) (by simp [einDims, bLabel, bx, s1, s2])
          rw [h1] at h2
          exact hne (Option.some.inj h2)
        · simp only [hA.pyCore (show j < A.ndims by omega), hB.pyCore (show j < B.ndims by omega),
            hx.pyCore (show j < x.ndims by omega), hy.pyCore (show j < y.ndims by omega), R.ok_bind]
          exact einsum_cases _ _
      · rw [e]; rfl
  · have e : einsum ([bLabel 'p' x.batch ++ chars! "elnf", chars! "glph", chars! "ipoj",
        bLabel 'p' x.batch ++ chars! "aomb"], bLabel 'p' x.batch ++ chars! "fhjb")
        [x.core 0, A.core 0, B.core 0, y.core 0] = Except.error Err.tf := by
      refine if_neg ?_
      rintro ⟨h1, h2, -⟩
      refine h0 ?_
      have s1 := sx 0 hpos
      have s2 := sA 0 hpos
      have s3 := sB 0 hpos
      have s4 := sy 0 hpos
      simp only [List.map_cons, List.map_nil, s1, s2, s3, s4] at h1
      cases hxb : x.batch with
      | none =>
        cases hAb : A.batch <;> cases hBb : B.batch <;> cases hyb : y.batch <;> simp [hxb, hAb, hBb, hyb, bLabel] at h1 ⊢
      | some q =>
        cases hAb : A.batch <;> cases hBb : B.batch <;> cases hyb : y.batch <;> simp [hxb, hAb, hBb, hyb, bLabel] at h1 ⊢
        rename_i q'
        rw [hxb] at s1 h2
        rw [hyb] at s4
        have h3 := h2 ('p', q) (by simp [einDims, bLabel, s1])
        have h4 := h2 ('p', q') (by simp [einDims, bLabel, s1, s2, s3, s4])
        rw [h3] at h4
        exact Option.some.inj h4
    rw [e]; rfl

end T3f
