import Verif.Proofs.ProjectMat

/-! # `project_matmul` projects the product -/

namespace T3f

/-- The tensor train `m` has the cores of the product of `A` and the batch `z`. -/
structure MSetup (x left right m A z : TT ℝ) (n : ℕ) (I L : List ℕ) : Prop where
  P : PSetup x left right m n
  wA : A.WF
  bA : A.batch = none
  rA : A.rawShape = [I, I]
  wz : z.WF
  bz : z.batch = some n
  rz : z.rawShape = [I, L]
  rx : x.rawShape = [I, L]
  rk : ∀ k ≤ x.ndims, m.rank k = A.rank k * z.rank k
  vals : ∀ k < x.ndims, ∀ s u i l v, (m.core k).get [s, u, i, l, v] =
    prodGet (A.core k) (z.core k) (I.getD k 0) (z.rank k) (z.rank (k + 1)) s u i l v

section
variable {x left right m A z : TT ℝ} {n : ℕ} {I L : List ℕ}

theorem MSetup.nA (S : MSetup x left right m A z n I L) : A.ndims = x.ndims := by
  rw [← S.wA.rows_len I (by simp [S.rA]), ← S.P.wx.rows_len I (by simp [S.rx])]
theorem MSetup.nz (S : MSetup x left right m A z n I L) : z.ndims = x.ndims := by
  rw [← S.wz.rows_len I (by simp [S.rz]), ← S.P.wx.rows_len I (by simp [S.rx])]
theorem MSetup.mx (S : MSetup x left right m A z n I L) (k : ℕ) : x.modes k = [I.getD k 0, L.getD k 0] := by simp [TT.modes, S.rx]
theorem MSetup.sA (S : MSetup x left right m A z n I L) {k : ℕ} (hk : k < x.ndims) :
    (A.core k).shape = [A.rank k, I.getD k 0, I.getD k 0, A.rank (k + 1)] := by
  rw [S.wA.core_shape k (by rw [S.nA]; exact hk), TT.bpre, S.bA, TT.modes, S.rA]; rfl
theorem MSetup.sz (S : MSetup x left right m A z n I L) {k : ℕ} (hk : k < x.ndims) :
    (z.core k).shape = [n, z.rank k, I.getD k 0, L.getD k 0, z.rank (k + 1)] := by
  rw [S.wz.core_shape k (by rw [S.nz]; exact hk), TT.bpre, S.bz, TT.modes, S.rz]; rfl
theorem MSetup.cA (S : MSetup x left right m A z n I L) {k : ℕ} (hk : k < x.ndims) : pyGet A.cores k = Except.ok (A.core k) :=
  S.wA.pyCore (by rw [S.nA]; exact hk)
theorem MSetup.cz (S : MSetup x left right m A z n I L) {k : ℕ} (hk : k < x.ndims) : pyGet z.cores k = Except.ok (z.core k) :=
  S.wz.pyCore (by rw [S.nz]; exact hk)
theorem MSetup.sl (S : MSetup x left right m A z n I L) {k : ℕ} (hk : k < x.ndims) :
    (left.core k).shape = [left.rank k, I.getD k 0, L.getD k 0, left.rank (k + 1)] := by rw [S.P.F.sl hk, S.mx]; rfl
theorem MSetup.sr (S : MSetup x left right m A z n I L) {k : ℕ} (hk : k < x.ndims) :
    (right.core k).shape = [right.rank k, I.getD k 0, L.getD k 0, right.rank (k + 1)] := by rw [S.P.F.sr hk, S.mx]; rfl
theorem MSetup.zpos (S : MSetup x left right m A z n I L) {k : ℕ} (hk : k ≤ x.ndims) : 0 < z.rank k := S.wz.rank_pos k (by rw [S.nz]; exact hk)
theorem MSetup.zd (S : MSetup x left right m A z n I L) : z.rank x.ndims = 1 := by rw [← S.nz]; exact S.wz.rank_last
theorem MSetup.Ad (S : MSetup x left right m A z n I L) : A.rank x.ndims = 1 := by rw [← S.nA]; exact S.wA.rank_last

theorem pair_form {i j t : ℕ} : unravel [i, j] t = [(unravel [i, j] t).getD 0 0, (unravel [i, j] t).getD 1 0] := by
  have := unravel_length [i, j] t
  obtain ⟨a, b, h⟩ := List.length_eq_two.1 this
  rw [h]; rfl

theorem MSetup.fl (S : MSetup x left right m A z n I L) {k : ℕ} (hk : k < x.ndims) (s t u v : ℕ) : m.fl [s] k t u v =
    prodGet (A.core k) (z.core k) (I.getD k 0) (z.rank k) (z.rank (k + 1)) s u
      ((unravel [I.getD k 0, L.getD k 0] t).getD 0 0) ((unravel [I.getD k 0, L.getD k 0] t).getD 1 0) v := by
  rw [TT.fl, S.P.mw, S.mx, ← S.vals k hk]
  conv_lhs => rw [pair_form]
  rfl

theorem MSetup.rhs_ok (S : MSetup x left right m A z n I L) :
    ∃ rhs, forRange (fun j => rhsMatStep z right A (x.ndims - 1 - j)) 0 (x.ndims - 1)
        ((List.replicate (x.ndims + 1) default).set x.ndims (ones [n, 1, 1, 1])) = Except.ok rhs ∧ rhs.length = x.ndims + 1 ∧
      ∀ k, 0 < k → k ≤ x.ndims → (rhs.getD k default).shape = [n, z.rank k, A.rank k, right.rank k] ∧
      ∀ s, ∀ u < m.rank k, ∀ c, (rhs.getD k default).get [s, u % z.rank k, u / z.rank k, c] =
        rgram x.N m.rank right.rank (m.fl [s]) (right.fl []) (x.ndims - k) k u c := by
  have F := S.P.F
  have hd := S.P.wx.pos
  obtain ⟨rhs, e, hl, hv⟩ := forRange_inv (fun j (rhs : List (Tensor ℝ)) => rhs.length = x.ndims + 1 ∧ ∀ k, x.ndims - j ≤ k → k ≤ x.ndims →
      (rhs.getD k default).shape = [n, z.rank k, A.rank k, right.rank k] ∧
      ∀ s, ∀ u < m.rank k, ∀ c, (rhs.getD k default).get [s, u % z.rank k, u / z.rank k, c] =
        rgram x.N m.rank right.rank (m.fl [s]) (right.fl []) (x.ndims - k) k u c)
    (fun j => rhsMatStep z right A (x.ndims - 1 - j)) 0 (x.ndims - 1)
    ((List.replicate (x.ndims + 1) default).set x.ndims (ones [n, 1, 1, 1])) (by
      refine ⟨by simp, fun k h1 h2 => ?_⟩
      obtain rfl : k = x.ndims := by omega
      rw [List.getD_eq_getElem _ _ (by simp)]
      simp only [List.getElem_set_self, S.zd, S.Ad, F.rd, Nat.sub_self]
      exact ⟨rfl, fun s u _ c => rfl⟩)
    (by
      intro j rhs _ hj ⟨hl, hv⟩
      obtain ⟨k, hk⟩ : ∃ k, x.ndims - 1 - j = k := ⟨_, rfl⟩
      have hkd : k < x.ndims := by omega
      obtain ⟨hs, hg⟩ := hv (k + 1) (by omega) (by omega)
      obtain ⟨E, eE, sE, vE⟩ := rhsMatEin (S.sA hkd) (S.sr hkd) hs (S.sz hkd)
      refine ⟨rhs.set k E, ?_, by rw [List.length_set]; exact hl, fun i h1 h2 => ?_⟩
      · unfold rhsMatStep
        rw [hk, S.cz hkd, F.cr hkd, S.cA hkd, pyGet_of_lt _ _ default (show k + 1 < rhs.length by omega)]
        simp only [R.ok_bind, eE]
        rfl
      · by_cases hik : k = i
        · subst hik
          rw [List.getD_eq_getElem _ _ (by rw [List.length_set]; omega), List.getElem_set_self]
          refine ⟨sE, fun s u _ c => ?_⟩
          rw [vE s _ _ _ (Nat.mod_lt _ (S.zpos hkd.le)), show x.ndims - k = (x.ndims - (k + 1)) + 1 by omega, rgram, S.rk (k + 1) hkd]
          refine Finset.sum_congr rfl fun a ha => Finset.sum_congr rfl fun v _ => ?_
          rw [hg s a (by rw [S.rk (k + 1) hkd]; exact Finset.mem_range.1 ha) v]
          congr 1
          rw [TT.N, S.mx]
          refine Finset.sum_congr rfl fun t _ => ?_
          rw [S.fl hkd, Nat.div_add_mod', TT.fl, F.mr, S.mx]; rfl
        · rw [pyGet_set_ne hik]
          exact hv i (by omega) h2)
  exact ⟨rhs, e, hl, fun k h1 h2 => hv k (by omega) h2⟩

theorem MSetup.lhs_ok (S : MSetup x left right m A z n I L) :
    ∃ lhs, forRange (lhsMatStep z left A) 0 (x.ndims - 1) ((List.replicate (x.ndims + 1) default).set 0 (ones [n, 1, 1, 1])) = Except.ok lhs ∧
      lhs.length = x.ndims + 1 ∧ ∀ k < x.ndims, (lhs.getD k default).shape = [n, left.rank k, A.rank k, z.rank k] ∧
      ∀ s, ∀ a < left.rank k, ∀ u < m.rank k, (lhs.getD k default).get [s, a, u / z.rank k, u % z.rank k] =
        gram x.N left.rank m.rank (left.fl []) (m.fl [s]) k a u := by
  have F := S.P.F
  have hd := S.P.wx.pos
  obtain ⟨lhs, e, hl, hv⟩ := forRange_inv (fun j (lhs : List (Tensor ℝ)) => lhs.length = x.ndims + 1 ∧ ∀ k ≤ j,
      (lhs.getD k default).shape = [n, left.rank k, A.rank k, z.rank k] ∧
      ∀ s, ∀ a < left.rank k, ∀ u < m.rank k, (lhs.getD k default).get [s, a, u / z.rank k, u % z.rank k] =
        gram x.N left.rank m.rank (left.fl []) (m.fl [s]) k a u)
    (lhsMatStep z left A) 0 (x.ndims - 1)
    ((List.replicate (x.ndims + 1) default).set 0 (ones [n, 1, 1, 1])) (by
      refine ⟨by simp, fun k h1 => ?_⟩
      obtain rfl : k = 0 := by omega
      rw [List.getD_eq_getElem _ _ (by simp)]
      simp only [List.getElem_set_self, F.l0, S.wA.rank_first, S.wz.rank_first]
      refine ⟨rfl, fun s a ha u hu => ?_⟩
      rw [S.P.ww.rank_first] at hu
      obtain rfl : a = 0 := by omega
      obtain rfl : u = 0 := by omega
      simp [gram, ones])
    (by
      intro k lhs _ hj ⟨hl, hv⟩
      have hkd : k < x.ndims := by omega
      obtain ⟨hs, hg⟩ := hv k le_rfl
      obtain ⟨E, eE, sE, vE⟩ := lhsMatEin (S.sA hkd) (S.sl hkd) hs (S.sz hkd)
      refine ⟨lhs.set (k + 1) E, ?_, by rw [List.length_set]; exact hl, fun i h1 => ?_⟩
      · unfold lhsMatStep
        rw [S.cz hkd, F.cl hkd, S.cA hkd, pyGet_of_lt _ _ default (show k < lhs.length by omega)]
        simp only [R.ok_bind, eE]
        rfl
      · by_cases hik : k + 1 = i
        · subst hik
          rw [List.getD_eq_getElem _ _ (by rw [List.length_set]; omega), List.getElem_set_self]
          refine ⟨sE, fun s a _ u _ => ?_⟩
          rw [vE s _ _ _ (Nat.mod_lt _ (S.zpos hkd)), gram, S.rk k hkd.le]
          refine Finset.sum_congr rfl fun b hb => Finset.sum_congr rfl fun v hv => ?_
          rw [hg s b (Finset.mem_range.1 hb) v (by rw [S.rk k hkd.le]; exact Finset.mem_range.1 hv)]
          congr 1
          rw [TT.N, S.mx]
          refine Finset.sum_congr rfl fun t _ => ?_
          rw [S.fl hkd, Nat.div_add_mod', TT.fl, F.ml, S.mx]; rfl
        · rw [pyGet_set_ne hik]
          exact hv i (by omega))
  exact ⟨lhs, e, hl, fun k h1 => hv k (by omega)⟩

theorem MSetup.block_ok (S : MSetup x left right m A z n I L) {lhs rhs : List (Tensor ℝ)} (ll : lhs.length = x.ndims + 1) (lr : rhs.length = x.ndims + 1)
    (hL : ∀ k < x.ndims, (lhs.getD k default).shape = [n, left.rank k, A.rank k, z.rank k] ∧
      ∀ s, ∀ a < left.rank k, ∀ u < m.rank k, (lhs.getD k default).get [s, a, u / z.rank k, u % z.rank k] =
        gram x.N left.rank m.rank (left.fl []) (m.fl [s]) k a u)
    (hR : ∀ k, 0 < k → k ≤ x.ndims → (rhs.getD k default).shape = [n, z.rank k, A.rank k, right.rank k] ∧
      ∀ s, ∀ u < m.rank k, ∀ c, (rhs.getD k default).get [s, u % z.rank k, u / z.rank k, c] =
        rgram x.N m.rank right.rank (m.fl [s]) (right.fl []) (x.ndims - k) k u c)
    {k : ℕ} (hk : k < x.ndims) :
    ∃ E, projectMatBlock lhs rhs x.ndims k (z.core k) (left.core k) (A.core k) = Except.ok E ∧
      E.shape = n :: left.rank k :: (x.modes k ++ [right.rank (k + 1)]) ∧
      ∀ s < n, ∀ t < (x.modes k).prod, ∀ a < left.rank k, ∀ b < right.rank (k + 1), E.get (s :: a :: (unravel (x.modes k) t ++ [b])) =
        tBlock x left right m [s] k t a b := by
  have F := S.P.F
  obtain ⟨sL, vL⟩ := hL k hk
  have gL : pyGet lhs k = Except.ok (lhs.getD k default) := pyGet_of_lt _ _ _ (by omega)
  by_cases h1 : k + 1 < x.ndims
  · obtain ⟨sL', vL'⟩ := hL (k + 1) h1
    obtain ⟨sR, vR⟩ := hR (k + 1) (by omega) h1.le
    have gL' : pyGet lhs (k + 1) = Except.ok (lhs.getD (k + 1) default) := pyGet_of_lt _ _ _ (by omega)
    have gR : pyGet rhs (k + 1) = Except.ok (rhs.getD (k + 1) default) := pyGet_of_lt _ _ _ (by omega)
    obtain ⟨E1, e1, s1, v1⟩ := partMatEin (S.sz hk) sL (S.sA hk)
    obtain ⟨E2, e2, s2, v2⟩ := backMatEin (S.sl hk) sL'
    obtain ⟨Df, ed, sd, vd⟩ := binop_ok (· - ·) E1 E2 E1.shape (by rw [s1, s2]; exact bshape_self _)
    rw [s1] at sd
    obtain ⟨E3, e3, s3, v3⟩ := timesMatEin sd sR
    refine ⟨E3, ?_, by rw [s3, S.mx]; rfl, fun s hs t ht a ha b hb => ?_⟩
    · unfold projectMatBlock
      rw [if_pos h1, gL, gL', gR]
      simp only [R.ok_bind, e1, e2, ed, e3]
    · rw [S.mx] at ht ⊢
      have hu := unravel_valid ht
      rw [pair_form] at hu
      rw [pair_form]
      refine (v3 s a _ _ b).trans ?_
      rw [tBlock, ← tanBlock_eq_mid h1, S.rk (k + 1) h1.le]
      refine Finset.sum_congr rfl fun u hu' => ?_
      have hur := Finset.mem_range.1 hu'
      have hzp := S.zpos h1.le
      rw [vR s u (by rw [S.rk (k + 1) h1.le]; exact hur)]
      congr 1
      have hval : Valid [n, left.rank k, I.getD k 0, L.getD k 0, A.rank (k + 1), z.rank (k + 1)]
          [s, a, (unravel [I.getD k 0, L.getD k 0] t).getD 0 0, (unravel [I.getD k 0, L.getD k 0] t).getD 1 0, u / z.rank (k + 1), u % z.rank (k + 1)] :=
        ⟨hs, ha, hu.1, hu.2.1, Nat.div_lt_of_lt_mul (by rwa [Nat.mul_comm] at hur), Nat.mod_lt _ hzp, trivial⟩
      rw [vd, s1, s2, bproj_valid hval, v1 s a _ _ _ _ (Nat.mod_lt _ hzp), v2, S.rk k hk.le, Nat.div_add_mod']
      congr 1
      · refine Finset.sum_congr rfl fun c hc => ?_
        rw [vL s a ha c (by rw [S.rk k hk.le]; exact Finset.mem_range.1 hc), S.fl hk]
      · refine Finset.sum_congr rfl fun c hc => ?_
        rw [vL' s c (Finset.mem_range.1 hc) u (by rw [S.rk (k + 1) h1.le]; exact hur), TT.fl, F.ml, S.mx]
        conv_rhs => rw [pair_form]
        rfl
  · have hkd : k + 1 = x.ndims := by omega
    have hz1 : z.rank (k + 1) = 1 := by rw [hkd, S.zd]
    have hr1 : right.rank (k + 1) = 1 := by rw [hkd, F.rd]
    have sA := S.sA hk
    rw [show A.rank (k + 1) = 1 by rw [hkd, S.Ad]] at sA
    obtain ⟨E1, e1, s1, v1⟩ := lastMatEin sL sA (S.sz hk)
    refine ⟨E1, ?_, by rw [s1, S.mx, hz1, hr1]; rfl, fun s hs t ht a ha b hb => ?_⟩
    · unfold projectMatBlock
      rw [if_neg h1, gL]
      exact e1
    · rw [S.mx, pair_form]
      refine (v1 s a _ _ b (by omega)).trans ?_
      rw [tBlock, ← tanBlock_eq_last hkd S.P.wd (by omega), S.rk k hk.le]
      refine Finset.sum_congr rfl fun c hc => ?_
      rw [vL s a ha c (by rw [S.rk k hk.le]; exact Finset.mem_range.1 hc), S.fl hk]

end

/-- The product as a tensor train. -/
theorem prod_chain {A z : TT ℝ} {n : ℕ} {I J L : List ℕ} (wA : A.WF) (rA : A.rawShape = [I, J]) (wz : z.WF) (bz : z.batch = some n)
    (rz : z.rawShape = [J, L]) :
    ∃ m : TT ℝ, m.WF ∧ m.batch = some n ∧ m.rawShape = [I, L] ∧ m.ndims = A.ndims ∧ (∀ k ≤ A.ndims, m.rank k = A.rank k * z.rank k) ∧
      (∀ k < A.ndims, ∀ s u i l v, (m.core k).get [s, u, i, l, v] =
        prodGet (A.core k) (z.core k) (J.getD k 0) (z.rank k) (z.rank (k + 1)) s u i l v) ∧
      ∀ s i l, Valid I i → Valid L l → m.entry [s] (mIdx i l) = ∑ t ∈ Finset.range J.prod,
        A.entry [] (mIdx i (unravel J t)) * z.entry [s] (mIdx (unravel J t) l) := by
  have hI : I.length = A.ndims := wA.rows_len I (by simp [rA])
  have hJ : J.length = A.ndims := wA.rows_len J (by simp [rA])
  have hn : A.ndims = z.ndims := by rw [← hJ]; exact wz.rows_len J (by simp [rz])
  have hL : L.length = A.ndims := by rw [hn]; exact wz.rows_len L (by simp [rz])
  have hbp : n ≠ 0 := fun h => wz.batch_pos (by rw [bz, h])
  obtain ⟨cores, ec, lc, hch, hv⟩ := Chain.build (fun k => Except.ok (⟨[n, A.rank k * z.rank k, I.getD k 0, L.getD k 0, A.rank (k + 1) * z.rank (k + 1)],
      fun idx => prodGet (A.core k) (z.core k) (J.getD k 0) (z.rank k) (z.rank (k + 1)) (idx.getD 0 0) (idx.getD 1 0) (idx.getD 2 0) (idx.getD 3 0)
        (idx.getD 4 0)⟩ : Tensor ℝ)) A.ndims (some n) (fun k => A.rank k * z.rank k) (fun k => [I.getD k 0, L.getD k 0]) 2
    (fun k C => ∀ s u i l v, C.get [s, u, i, l, v] = prodGet (A.core k) (z.core k) (J.getD k 0) (z.rank k) (z.rank (k + 1)) s u i l v) wA.pos
    (by simp [wA.rank_first, wz.rank_first]) (by simp only [wA.rank_last]; rw [hn, wz.rank_last])
    (fun k hk => Nat.mul_pos (wA.rank_pos k hk) (wz.rank_pos k (by omega))) (Or.inr rfl)
    (fun k _ => rfl) (by simpa using hbp) (fun k _ => ⟨_, rfl, rfl, fun _ _ _ _ _ => rfl⟩)
  have hrows : rowsOf (fun k => [I.getD k 0, L.getD k 0]) cores.length 2 = [I, L] := by
    have h1 := list_eq_range_map I 0
    have h2 := list_eq_range_map L 0
    rw [rowsOf]
    simp only [List.range_succ, List.range_zero, List.nil_append, List.map_cons, List.map_nil, List.cons_append]
    rw [lc]
    conv_rhs => rw [h1, h2, hI, hL]
    rfl
  refine ⟨_, hch.wf, rfl, hrows, lc, fun k hk => chainTT_rank k (by omega), fun k hk => hv k hk, fun s i l hi hl => ?_⟩
  rw [hch.entry_eq, lc]
  have hvi := ((valid_iff_getD _ _).1 hi).2
  have hvl := ((valid_iff_getD _ _).1 hl).2
  have hAr : A.rank A.ndims = 1 := wA.rank_last
  have hzr : z.rank A.ndims = 1 := by rw [hn]; exact wz.rank_last
  have key := lprod_kron_sum A.rank z.rank (fun k => A.rank k * z.rank k)
    (fun j g a b => (A.core j).get ([a, i.getD j 0] ++ g ++ [b]))
    (fun j g a b => (z.core j).get ([s] ++ [a] ++ g ++ [l.getD j 0, b]))
    (fun k a b => (cores.getD k default).get ([s] ++ a :: (mIdx i l k ++ [b]))) (fun j => [J.getD j 0]) A.ndims wA.rank_first wz.rank_first
    (fun _ _ => rfl) (by
      intro j hj a c b d ha hc hb hd
      rw [show mIdx i l j = [i.getD j 0, l.getD j 0] from rfl]
      refine (hv j hj s _ _ _ _).trans ?_
      rw [prodGet_pair hc hd, sum_mode1 (J.getD j 0) fun g => (A.core j).get ([a, i.getD j 0] ++ g ++ [b]) * (z.core j).get ([s] ++ [c] ++ g ++ [l.getD j 0, d])]
      rfl) 0 0 (by omega) (by omega)
  rw [show 0 * z.rank A.ndims + 0 = 0 by omega] at key
  rw [key]
  have hdep : DependsBelow A.ndims (fun g : ℕ → List ℕ =>
      lprod A.rank (fun j a b => (A.core j).get ([a, i.getD j 0] ++ g j ++ [b])) A.ndims 0 *
      lprod z.rank (fun j a b => (z.core j).get ([s] ++ [a] ++ g j ++ [l.getD j 0, b])) A.ndims 0) := by
    intro g g' hg
    change _ * _ = _ * _
    congr 1
    · exact lprod_congr' fun j hj => by rw [hg j hj]
    · exact lprod_congr' fun j hj => by rw [hg j hj]
  rw [show A.ndims = J.length by omega] at hdep ⊢
  rw [msum_tensor J _ (fun k _ => rfl) _ hdep]
  refine Finset.sum_congr rfl fun t ht => ?_
  rw [TT.entry, TT.entry, ← hn, ← hJ]
  congr 1

/-- The blocks of `project_matmul`. -/
theorem projectMatmul_ok {qr : QRRoutine} {x left right A z : TT ℝ} {n : ℕ} {I L : List ℕ} (h : x.WF) (hb : x.batch = none) (hd : 2 ≤ x.ndims)
    (hF : tangentFrame qr x = Except.ok (left, right)) (F : TFrame x left right) (wA : A.WF) (bA : A.batch = none) (rA : A.rawShape = [I, I])
    (wz : z.WF) (bz : z.batch = some n) (rz : z.rawShape = [I, L]) (rx : x.rawShape = [I, L]) :
    ∃ m : TT ℝ, m.WF ∧ m.batch = some n ∧ m.rawShape = [I, L] ∧
      (∀ s i l, Valid I i → Valid L l → m.entry [s] (mIdx i l) = ∑ t ∈ Finset.range I.prod,
        A.entry [] (mIdx i (unravel I t)) * z.entry [s] (mIdx (unravel I t) l)) ∧
      ∃ y D, projectMatmul qr z x A = Except.ok y ∧ IsTangent left right D y ∧ y.batch = some n ∧
      ∀ k < x.ndims, ∀ p, Valid [n] p → ∀ t < (x.modes k).prod, ∀ a < left.rank k, ∀ b < right.rank (k + 1),
        (D k).get (p ++ a :: (unravel (x.modes k) t ++ [b])) = tBlock x left right m p k t a b := by
  obtain ⟨m, wm, bm, rm, nm, km, vm, em⟩ := prod_chain wA rA wz bz rz
  have hrm : m.rawShape = x.rawShape := rm.trans rx.symm
  have nA : A.ndims = x.ndims := by rw [← wA.rows_len I (by simp [rA]), ← h.rows_len I (by simp [rx])]
  have P : PSetup x left right m n := ⟨F, h, wm, bm, hrm, ndims_of_rows wm h hrm⟩
  have S : MSetup x left right m A z n I L := ⟨P, wA, bA, rA, wz, bz, rz, rx, by rw [← nA]; exact km, by rw [← nA]; exact vm⟩
  obtain ⟨rhs, er, lr, hR⟩ := S.rhs_ok
  obtain ⟨lhs, el, ll, hL⟩ := S.lhs_ok
  have blocks := fun k (hk : k < x.ndims) => S.block_ok ll lr hL hR hk
  choose! D hD1 hD2 hD3 using blocks
  have hbs : z.lazyBatchSize = Except.ok n := by simp [TT.lazyBatchSize, bz]
  have ew : expandBatchDim z = Except.ok z := by simp [expandBatchDim, bz]
  have hrz : z.rawShape = x.rawShape := rz.trans rx.symm
  obtain ⟨axL, axR⟩ := rankDims z wz
  rw [hrz] at axR
  have hI : I.length = x.ndims := h.rows_len I (by simp [rx])
  have hLl : L.length = x.ndims := h.rows_len L (by simp [rx])
  obtain ⟨cores, y, ec, ey, hT, hyb⟩ := assemble F h hd (out := z.batch) wz.batch_pos (f := fun k => do
      let wc ← pyGet z.cores k
      let mc ← pyGet A.cores k
      let lc ← pyGet left.cores k
      let rc ← pyGet right.cores k
      let proj ← projectMatBlock lhs rhs x.ndims k wc lc mc
      let elc ← extendCore True z.batch lc
      let erc ← extendCore True z.batch rc
      tangentCore z.leftRankDim z.rightRankDim x.ndims k (do
        let r1 ← pyGet right.ttRanks k
        let r2 ← pyGet left.ttRanks (k + 1)
        let row0 ← pyGet x.rawShape 0
        let row1 ← pyGet x.rawShape 1
        pure (z.batch.toList ++ [r1, ← pyGet row0 k, ← pyGet row1 k, r2])) elc erc proj) (D := D) (by rw [bz]; exact hD2) (by
    intro k hk
    have hzs : (do
        let r1 ← pyGet right.ttRanks k
        let r2 ← pyGet left.ttRanks (k + 1)
        let row0 ← pyGet x.rawShape 0
        let row1 ← pyGet x.rawShape 1
        pure (z.batch.toList ++ [r1, ← pyGet row0 k, ← pyGet row1 k, r2])) =
        Except.ok (z.batch.toList ++ right.rank k :: (x.modes k ++ [left.rank (k + 1)])) := by
      have g0 : pyGet x.rawShape 0 = Except.ok I := by rw [rx]; rfl
      have g1 : pyGet x.rawShape 1 = Except.ok L := by rw [rx]; rfl
      have e0 : pyGet I k = Except.ok (I.getD k 0) := pyGet_of_lt _ _ _ (by omega)
      have e1 : pyGet L k = Except.ok (L.getD k 0) := pyGet_of_lt _ _ _ (by omega)
      rw [F.wr.pyRank (by rw [F.nr]; exact hk.le), F.wl.pyRank (by rw [F.nl]; omega), S.mx]
      simp only [R.ok_bind, g0, g1, e0, e1]
      rfl
    obtain ⟨elc, erc, C, e1, e2, e3, e4, e5⟩ := assemble_core F hd (isMat := True) (by simp [rx]) z.batch hk (by rw [bz]; exact hD2 k hk) hzs axL axR
    refine ⟨C, ?_, e4, e5⟩
    rw [S.cz hk, S.cA hk, F.cl hk, F.cr hk]
    simp only [R.ok_bind, hD1 k hk, e1, e2]
    exact e3)
  refine ⟨m, wm, bm, rm, em, y, D, ?_, hT, by rw [hyb, bz], fun k hk p hp t ht a ha b hb' => ?_⟩
  · unfold projectMatmul projectChecks
    rw [require_pos hb, require_pos hrz.symm, hF, ew]
    simp only [R.ok_bind, hbs, er, el]
    rw [ec]
    exact ey
  · obtain ⟨o, _, rfl, ho, hn⟩ := (valid_cons_iff _ _ _).1 hp
    rw [valid_nil_iff] at hn
    subst hn
    exact hD3 k hk o ho t ht a ha b hb'

end T3f
