import Verif.Proofs.Remode

/-! # `to_tt_matrix`, and the result of the decompositions in terms of dense tensors -/

namespace T3f

/-- `x` is the truncation of `z` to the rank bounds `b`. -/
structure Fit (z x : TT ℝ) (b : ℕ → ℕ) : Prop where
  wf : x.WF
  rows : x.rawShape = z.rawShape
  batch : x.batch = none
  exact : ∀ k ≤ z.ndims, x.rank k = tuRank b ((List.range z.ndims).map z.N) k
  rank : ∀ k, 0 < k → k < z.ndims → x.rank k ≤ b k
  error : entryDist z x [] = entryDot z z [] - entryDot x x []
  best : ∃ tail : ℕ → ℝ, entryDist z x [] = ∑ j ∈ Finset.range (z.ndims - 1), tail j ∧
    ∀ k, k + 1 < z.ndims → ∀ S : TT ℝ, S.WF → S.rawShape = z.rawShape → S.rank (k + 1) ≤ b (k + 1) → tail k ≤ entryDist z S []
  sweep : ∃ rV U V D tail, (∀ k ≤ z.ndims, 0 < rV k) ∧ LSweep z.N x.rank rV U V D z.ndims tail b ∧
    z.IsChain [] (blockRank x.rank rV 0) (blockChain U V (D 0) 0) ∧
    x.IsChain [] (blockRank x.rank rV (z.ndims - 1)) (blockChain U V (D (z.ndims - 1)) (z.ndims - 1))

theorem toTTTensor_fit {svd : SVDRoutine} (hsvd : svd.Correct) {X : Tensor ℝ} (hd : 2 ≤ X.shape.length) (hs : ∀ n ∈ X.shape, 0 < n)
    {m : MaxRank} {b : ℕ → ℕ} (hb : m.Bounds X.shape.length b) {eps : Option ℝ} (he : ∀ e ∈ eps, 0 ≤ e) :
    ∃ x, toTTTensor svd X m eps = Except.ok x ∧ Fit (xTT X) x b := by
  obtain ⟨l, el, hl, hlb, hpos⟩ := maxRanks_ok hb he
  obtain ⟨x, e, w, rs, bt, nd, r0, r1, -, tail, h1, h2, h3, U, D, h4, h5, h6⟩ := toTTTensor_ok hsvd hd hs el hl hpos
  have hw := xTT_wf (X := X) (by omega) hs
  refine ⟨x, e, w, by rw [rs, xTT_rawShape], bt, fun k hk => ?_, fun k h0 hk => ?_, h2, ⟨tail, by rw [xTT_ndims]; exact h1, fun k hk S hS hSr hSb => ?_⟩,
    restN X.shape, U, copyCore X.shape, D, tail, fun k _ => restN_pos hs k, ?_, h5, by rw [xTT_ndims]; exact h6⟩
  · rw [xTT_ndims] at hk ⊢
    have hN : (xTT X).N = fun k => X.shape.getD k 0 := by funext k; rw [TT.N, TT.modes, xTT_rawShape]; simp
    rw [r0 k hk, hN, ← list_eq_range_map]
    exact tuRank_congr (fun k hk => hlb k hk) hk
  · rw [xTT_ndims] at hk
    rw [← hlb k (by omega)]; exact r1 k h0 hk
  · rw [xTT_ndims] at hk
    refine h3 k hk S hS (by rw [hSr, xTT_rawShape]) ?_ (by rw [hlb _ (by omega)]; exact hSb)
    rw [ndims_eq_of_rawShape hS hw hSr, xTT_ndims]
  · have hN : (xTT X).N = fun k => X.shape.getD k 0 := by funext k; rw [TT.N, TT.modes, xTT_rawShape]; simp
    rw [xTT_ndims, hN]
    exact h4.congr_bound fun k hk => (hlb k (by omega)).symm

/-- A dense tensor and the tensor train that represents it have the same distances. -/
theorem dense_dist_eqv {z s : TT ℝ} {Z X S : Tensor ℝ} (h : z.WF) (hs : s.WF) (hr : s.rawShape = z.rawShape) (hz : z.batch = none)
    (hb : s.batch = none) (hZ : full z = Except.ok Z) (hZX : Z ≃ₜ X) (hS : full s = Except.ok S) :
    S.shape = X.shape ∧ X.distSq S [] X.shape = entryDist z s [] ∧ X.normSq [] X.shape = entryDot z z [] ∧ S.normSq [] X.shape = entryDot s s [] := by
  obtain ⟨Z', eZ, sZ, -⟩ := full_ok h
  obtain rfl : Z' = Z := Except.ok.inj (eZ.symm.trans hZ)
  obtain ⟨S', eS, sS, -⟩ := full_ok hs
  obtain rfl : S' = S := Except.ok.inj (eS.symm.trans hS)
  have hp : z.bpre = [] := by simp [TT.bpre, hz]
  have hp' : s.bpre = [] := by simp [TT.bpre, hb]
  rw [hp, List.nil_append] at sZ
  rw [hp', List.nil_append, hr] at sS
  have hX : X.shape = restShape z.rawShape := by rw [← hZX.1, sZ]
  have hv : Valid z.bpre [] := by rw [hp]; trivial
  have key : ∀ n < (restShape z.rawShape).prod, X.get ([] ++ unravel (restShape z.rawShape) n) = Z'.get ([] ++ unravel (restShape z.rawShape) n) :=
    fun n hn => (hZX.2 _ (by rw [sZ]; exact unravel_valid hn)).symm
  refine ⟨by rw [sS, hX], ?_, ?_, ?_⟩
  · rw [← dense_dist h hs hr (hb.trans hz.symm) hZ hS hv, hX]
    exact Finset.sum_congr rfl fun n hn => by rw [key n (Finset.mem_range.1 hn)]
  · rw [← dense_norm h hZ hv, hX]
    exact Finset.sum_congr rfl fun n hn => by rw [key n (Finset.mem_range.1 hn)]
  · rw [← dense_norm hs hS (p := []) (by rw [hp']; trivial), hX, hr]

theorem toTTMatrix_fit {svd : SVDRoutine} (hsvd : svd.Correct) {X : Tensor ℝ} {a b : List ℕ} (hX : X.shape.prod = a.prod * b.prod)
    (hab : a.length = b.length) (hd : 2 ≤ a.length) (ha : ∀ n ∈ a, 0 < n) (hb0 : ∀ n ∈ b, 0 < n) {ra rb : Option (List ℕ)}
    (hf : fillRows ra rb = Except.ok (a, b)) {m : MaxRank} {bd : ℕ → ℕ} (hb : m.Bounds a.length bd) {eps : Option ℝ} (he : ∀ e ∈ eps, 0 ≤ e) :
    ∃ y z Z, toTTMatrix svd X ra rb m eps = Except.ok y ∧ z.WF ∧ z.rawShape = [a, b] ∧ z.batch = none ∧ full z = Except.ok Z ∧
      Z.shape = [a.prod, b.prod] ∧ (∀ x < a.prod, ∀ y < b.prod, Z.get [x, y] = X.flat (x * b.prod + y)) ∧ Fit z y bd := by
  set d := a.length with hda
  obtain ⟨X1, e1, s1, v1⟩ := reshape_flat X ((a ++ b).map some) (a ++ b) (resolveShape_some _ _ (by rw [List.prod_append, hX]))
  obtain ⟨X2, e2, s2, v2⟩ := transpose_il X1 (a := a) (b := b) (d := d) rfl hab.symm s1
  have hab' : ∀ k, (List.zipWith (· * ·) a b).getD k 0 = a.getD k 0 * b.getD k 0 := by
    intro k
    rcases Nat.lt_or_ge k d with hk | hk
    · rw [List.getD_eq_getElem _ _ (by rw [List.length_zipWith]; omega), List.getD_eq_getElem _ _ (by omega),
        List.getD_eq_getElem _ _ (by omega), List.getElem_zipWith]
    · rw [List.getD_eq_default _ _ (by rw [List.length_zipWith]; omega), List.getD_eq_default _ _ (by omega)]; simp
  set c := List.zipWith (· * ·) a b with hc
  have hcl : c.length = d := by rw [hc, List.length_zipWith]; omega
  have hcf : (List.range d).flatMap (fun k => [c.getD k 0]) = c := by rw [← hcl]; exact flatMap_singleton_getD c
  have hms : ∀ k, msize (fun k => [a.getD k 0, b.getD k 0]) k = msize (fun k => [c.getD k 0]) k := by
    intro k
    induction k with
    | zero => rfl
    | succ k ih =>
      rw [msize, msize, ih, hab']; simp
  have hcp : c.prod = X2.shape.prod := by rw [s2, ← msize_eq, hms, msize_eq, hcf]
  obtain ⟨X3, e3, s3, v3⟩ := reshape_spec X2 (c.map some) c (resolveShape_some _ _ hcp)
  have hX3 : ∀ i j, Valid a i → Valid b j → X3.get ((List.range d).map fun k => i.getD k 0 * b.getD k 0 + j.getD k 0) = X1.get (i ++ j) := by
    intro i j hi hj
    have hvm : ∀ k < d, Valid [a.getD k 0, b.getD k 0] [i.getD k 0, j.getD k 0] := fun k hk =>
      ⟨((valid_iff_getD _ _).1 hi).2 k hk, ((valid_iff_getD _ _).1 hj).2 k (by omega), trivial⟩
    rw [← v2 i j hi.length_eq (by rw [hj.length_eq]; omega)]
    refine v3 _ _ (by rw [s2]; exact valid_flatMap _ _ _ hvm) ?_
    have q1 := mflat_eq (fun k => [a.getD k 0, b.getD k 0]) (fun k => [i.getD k 0, j.getD k 0]) d (fun _ _ => rfl)
    have q2 := mflat_eq (fun k => [c.getD k 0]) (fun k => [i.getD k 0 * b.getD k 0 + j.getD k 0]) d (fun _ _ => rfl)
    rw [hcf, ← List.map_eq_flatMap] at q2
    rw [s2, ← q1, ← q2]
    have : ∀ k, mflat (fun k => [c.getD k 0]) (fun k => [i.getD k 0 * b.getD k 0 + j.getD k 0]) k =
        mflat (fun k => [a.getD k 0, b.getD k 0]) (fun k => [i.getD k 0, j.getD k 0]) k := by
      intro k
      induction k with
      | zero => rfl
      | succ k ih =>
        rw [mflat, mflat, ih, hab']; simp [ravel]
    exact this d
  have hcpos : ∀ n ∈ X3.shape, 0 < n := by
    rw [s3]
    intro n hn
    obtain ⟨k, hk, rfl⟩ := List.getElem_of_mem hn
    rw [← List.getD_eq_getElem _ 0 hk, hab']
    exact Nat.mul_pos (getD_pos ha (by omega)) (getD_pos hb0 (by omega))
  have hX3l : X3.shape.length = d := by rw [s3, hcl]
  obtain ⟨x, ex, fx⟩ := toTTTensor_fit hsvd (X := X3) (by omega) hcpos (m := m) (b := bd) (by rw [hX3l]; exact hb) he
  have hwx := xTT_wf (X := X3) (by omega) hcpos
  have hnx : (xTT X3).ndims = d := by rw [xTT_ndims, hX3l]
  have hxn : x.ndims = d := by rw [ndims_eq_of_rawShape fx.wf hwx fx.rows, hnx]
  have hxr : x.rawShape = [c] := by rw [fx.rows, xTT_rawShape, s3]
  set M : ℕ → List ℕ := fun k => [a.getD k 0, b.getD k 0] with hM
  have hrows : rowsOf M d 2 = [a, b] := by
    have q1 := list_eq_range_map a 0
    have q2 := list_eq_range_map b 0
    rw [← hab] at q2
    rw [← hda] at q1
    conv_rhs => rw [q1, q2]
    rfl
  have hxm : ∀ k, x.modes k = [c.getD k 0] := fun k => by rw [TT.modes, hxr]; rfl
  have hMp : ∀ k, (M k).prod = c.getD k 0 := fun k => by rw [hab']; simp [hM]
  -- the cores of the result
  obtain ⟨cores, ec, hcl', hcv⟩ := mapRange_ok d (fun i => do
    let core ← pyGet x.cores i
    let r ← pyGet x.ttRanks i
    let r' ← pyGet x.ttRanks (i + 1)
    let n ← pyGet a i
    let m ← pyGet b i
    reshape core [some r, some n, some m, some r'])
    (fun k C => C.shape = x.rank k :: (M k ++ [x.rank (k + 1)]) ∧ Blk C [] (x.rank k) (x.N k) (x.rank (k + 1)) fun p α n β => x.fl p k n α β)
    (fun k hk => by
      have hb := blk_core fx.wf (k := k) (by omega)
      rw [show x.bpre = [] by simp [TT.bpre, fx.batch]] at hb
      obtain ⟨C, eC, sC, bC⟩ := hb.reshape_some (s := [x.rank k, a.getD k 0, b.getD k 0, x.rank (k + 1)]) (by
        rw [TT.N, hxm, hab']; simp [Nat.mul_assoc])
      refine ⟨C, ?_, sC, bC⟩
      have := fx.wf.ranks_len
      rw [pyGet_of_lt x.cores k default (by rw [TT.ndims] at hxn; omega), pyGet_of_lt x.ttRanks k 0 (by omega), pyGet_of_lt x.ttRanks (k + 1) 0 (by omega),
        pyGet_of_lt a k 0 (by omega), pyGet_of_lt b k 0 (by omega)]
      exact eC)
  have hch : Chain none cores x.rank M 2 := by
    refine ⟨by omega, fx.wf.rank_first, by rw [hcl', ← hxn]; exact fx.wf.rank_last, fun k hk => fx.wf.rank_pos k (by omega), Or.inr rfl,
      fun _ _ => rfl, fun k hk => ?_, by simp⟩
    exact (hcv k (by omega)).1
  have hy : toTTMatrix svd X ra rb m eps = Except.ok (chainTT none cores x.rank M 2) := by
    unfold toTTMatrix
    rw [hf]
    simp only [R.ok_bind, require, if_pos hab, e1, ← hda]
    rw [show (List.flatMap (fun k => [k, d + k]) (List.range d)) = ilPerm d from rfl, e2, R.ok_bind, e3, R.ok_bind, ex, R.ok_bind]
    refine (congrArg (fun z => z >>= _) ec).trans ?_
    refine mkTT_ok hch _ (Or.inr (hch.clean (by rw [hcl', hrows]))) _ (Or.inr ?_)
    have := list_eq_range_map x.ttRanks 0
    rw [fx.wf.ranks_len, hxn] at this
    rw [this, hcl']; rfl
  set y := chainTT none cores x.rank M 2 with hyd
  have hyn : y.ndims = d := hcl'
  have hyr : y.rawShape = [a, b] := by show rowsOf _ _ _ = _; rw [hcl', hrows]
  have hyrk : ∀ k ≤ d, y.rank k = x.rank k := fun k hk => chainTT_rank k (by omega)
  have hyfl : ∀ k < d, ∀ n < x.N k, ∀ α < x.rank k, ∀ β < x.rank (k + 1), y.fl [] k n α β = x.fl [] k n α β := by
    intro k hk n hn α hα β hβ
    have hn' : n < (M k).prod := by rw [hMp]; rw [TT.N, hxm] at hn; simpa using hn
    rw [TT.fl, hch.modes_eq k (by omega)]
    show ((cores.getD k default).get _) = _
    rw [(hcv k hk).2.core (M := M k) (p := []) (hcv k hk).1 (by rw [hMp, TT.N, hxm]; simp) trivial hα (unravel_valid hn') hβ, ravel_unravel hn']
  set z := remode (xTT X3) M 2 with hz
  have hzw : z.WF := remode_wf hwx (Or.inr rfl) (fun _ _ => rfl)
  have hzn : z.ndims = d := by rw [hz, remode_ndims, hnx]
  have hzr : z.rawShape = [a, b] := by rw [hz, remode_rawShape, hnx, hrows]
  have hNx : (xTT X3).N = fun k => c.getD k 0 := by funext k; rw [TT.N, TT.modes, xTT_rawShape, s3]; simp
  have hNz : z.N = (xTT X3).N := by
    rw [hNx]; funext k; rw [TT.N, TT.modes, hzr, ← hMp]; rfl
  have hzfl : ∀ k < (xTT X3).ndims, ∀ n < (xTT X3).N k, ∀ α < (xTT X3).rank k, ∀ β < (xTT X3).rank (k + 1),
      z.fl [] k n α β = (xTT X3).fl [] k n α β := by
    intro k hk n hn α _ β _
    refine remode_fl hwx (Or.inr rfl) (fun _ _ => rfl) hk ?_ α β
    rw [hNx] at hn
    rw [hMp]; exact hn
  obtain ⟨Z, eZ, sZ, vZ⟩ := full_ok hzw
  rw [hzr, show z.bpre = [] from rfl] at sZ vZ
  refine ⟨y, z, Z, hy, hzw, hzr, rfl, eZ, sZ, fun i hi j hj => ?_, ?_⟩
  · have q := vZ [] [i, j] trivial ⟨hi, hj, trivial⟩
    rw [List.nil_append] at q
    have hvi := unravel_valid hi
    have hvj := unravel_valid hj
    set l := (List.range d).map fun k => (unravel a i).getD k 0 * b.getD k 0 + (unravel b j).getD k 0 with hl
    have hlg : ∀ k < d, l.getD k 0 = (unravel a i).getD k 0 * b.getD k 0 + (unravel b j).getD k 0 := fun k hk => getD_range_map _ _ _ _ hk
    have hlv : Valid X3.shape l := by
      rw [s3, valid_iff_getD]
      refine ⟨by rw [hl, List.length_map, List.length_range, hcl], fun k hk => ?_⟩
      rw [hlg k (by omega), hab']
      exact mul_add_lt (((valid_iff_getD _ _).1 hvi).2 k (by omega)) (((valid_iff_getD _ _).1 hvj).2 k (by omega))
    rw [q, restModes_matrix, hz, remode_entry hwx (g := tIdx l), xTT_entry (by omega) hcpos hlv, hX3 _ _ hvi hvj,
      ← Tensor.flat_ravel X1 (by rw [s1]; exact valid_append hvi hvj), s1, ravel_append _ _ hvi.length_eq, ravel_unravel hi, ravel_unravel hj,
      v1 _ (by rw [hX]; exact mul_add_lt hi hj)]
    · intro k hk
      rw [TT.modes, xTT_rawShape]
      exact ⟨((valid_iff_getD _ _).1 hlv).2 k (by omega), trivial⟩
    · intro k hk
      rw [hnx] at hk
      rw [TT.modes, xTT_rawShape, tIdx, hlg k hk]
      simp [hM, mIdx, ravel]
  · have hxN : x.N = (xTT X3).N := by funext k; rw [TT.N, TT.modes, TT.N, TT.modes, fx.rows]
    have hyx : ∀ k ≤ (xTT X3).ndims, y.rank k = x.rank k := by rw [hnx]; exact hyrk
    have hzx : ∀ k ≤ (xTT X3).ndims, z.rank k = (xTT X3).rank k := fun k hk => remode_rank hk
    have hyf : ∀ k < (xTT X3).ndims, ∀ n < (xTT X3).N k, ∀ α < x.rank k, ∀ β < x.rank (k + 1), y.fl [] k n α β = x.fl [] k n α β := by
      rw [hnx, ← hxN]; exact hyfl
    have d1 : entryDist z y [] = entryDist (xTT X3) x [] :=
      entryDist_transfer hwx fx.wf hzw hch.wf fx.rows (by rw [hyr, hzr]) (by omega) (by omega) (by omega) hNz hzx hyx hzfl hyf
    have d2 : entryDot z z [] = entryDot (xTT X3) (xTT X3) [] := entryDot_transfer hwx hwx hzw rfl rfl rfl rfl (by omega) hNz hzx hzx hzfl hzfl
    have d3 : entryDot y y [] = entryDot x x [] :=
      entryDot_transfer fx.wf fx.wf hch.wf rfl rfl rfl rfl (by omega) (by
        funext k; rw [TT.N, TT.modes, hyr, TT.N, hxm, hab']; simp) (by rw [hxn]; exact hyrk) (by rw [hxn]; exact hyrk)
        (by rw [hxn]; exact hyfl) (by rw [hxn]; exact hyfl)
    obtain ⟨tail, t1, t2⟩ := fx.best
    refine ⟨hch.wf, by rw [hyr, hzr], rfl, fun k hk => ?_, fun k h0 hk => ?_, by rw [d1, d2, d3]; exact fx.error, ⟨tail, ?_, fun k hk S hS hSr hSb => ?_⟩, ?_⟩
    · rw [hyrk k (by omega), fx.exact k (by omega), hzn, hnx, hNz]
    · rw [hyrk k (by omega)]
      exact fx.rank k h0 (by omega)
    · rw [d1, t1, hzn, hnx]
    · have hSn : S.ndims = d := by rw [ndims_eq_of_rawShape hS hzw hSr, hzn]
      have hSt := remode_wf hS (M := fun k => [c.getD k 0]) (Or.inl rfl) (fun _ _ => rfl)
      have hStr : (remode S (fun k => [c.getD k 0]) 1).rawShape = (xTT X3).rawShape := by
        rw [remode_rawShape, xTT_rawShape, s3, hSn, ← hcl, rowsOf_single]
      have hSN : S.N = (xTT X3).N := by rw [← hNz]; funext k; rw [TT.N, TT.modes, TT.N, TT.modes, hSr]
      have q := t2 k (by omega) (remode S (fun k => [c.getD k 0]) 1) hSt hStr (by rw [remode_rank (by omega)]; exact hSb)
      refine q.trans (le_of_eq ?_)
      refine (entryDist_transfer hwx hSt hzw hS hStr hSr (by rw [remode_ndims]; omega) (by omega) (by omega) hNz hzx ?_ hzfl ?_).symm
      · intro k hk
        rw [remode_rank (by omega)]
      · intro k hk n hn α _ β _
        rw [hNx] at hn
        rw [remode_fl hS (Or.inl rfl) (fun _ _ => rfl) (by omega) (by simpa using hn)]
    · obtain ⟨rV, U, V, D, tl, g0, g1, g2, g3⟩ := fx.sweep
      rw [hnx] at g0 g1 g3
      have gr := fun i k (hk : k ≤ d) => blockRank_congr (rV := rV) (i := i) hyrk hk
      rw [hzn, hNz]
      refine ⟨rV, U, V, D, tl, g0, g1.congr_rank hyrk, ⟨fun k hk => ?_, fun k hk n hn α hα β hβ => ?_⟩, ⟨fun k hk => ?_, fun k hk n hn α hα β hβ => ?_⟩⟩
      · rw [gr 0 k (by omega), hzx k (by omega), g2.rank k (by omega)]
      · rw [hzn] at hk
        rw [gr _ _ (by omega)] at hα hβ
        rw [hNz] at hn
        rw [hzfl k (by omega) n hn α (by rw [g2.rank k (by omega)]; exact hα) β (by rw [g2.rank (k + 1) (by omega)]; exact hβ)]
        exact g2.core k (by omega) n hn α hα β hβ
      · rw [gr _ k (by omega), hyx k (by omega), g3.rank k (by omega)]
      · rw [hyn] at hk
        rw [gr _ _ (by omega)] at hα hβ
        have hn' : n < x.N k := by
          have : y.N k = x.N k := by rw [TT.N, TT.modes, hyr, TT.N, hxm, hab']; simp
          omega
        rw [hyfl k hk n hn' α (by rw [g3.rank k (by omega)]; exact hα) β (by rw [g3.rank (k + 1) (by omega)]; exact hβ)]
        exact g3.core k (by omega) n hn' α hα β hβ

theorem Fit.dense_error {z x : TT ℝ} {b : ℕ → ℕ} (f : Fit z x b) (h : z.WF) (hz : z.batch = none) {Z X : Tensor ℝ}
    (hZ : full z = Except.ok Z) (hZX : Z ≃ₜ X) :
    ∃ Y, full x = Except.ok Y ∧ Y.shape = X.shape ∧ X.distSq Y [] X.shape = X.normSq [] X.shape - Y.normSq [] X.shape ∧
      ∀ (S : ℕ → TT ℝ) (F : ℕ → Tensor ℝ), (∀ k, 0 < k → k < z.ndims → (S k).WF ∧ (S k).rawShape = z.rawShape ∧ (S k).batch = none ∧
          (S k).rank k ≤ b k ∧ full (S k) = Except.ok (F k)) →
        X.distSq Y [] X.shape ≤ ∑ k ∈ Finset.Ico 1 z.ndims, X.distSq (F k) [] X.shape := by
  obtain ⟨Y, eY, -⟩ := full_ok f.wf
  obtain ⟨s1, d1, n1, n2⟩ := dense_dist_eqv h f.wf f.rows hz f.batch hZ hZX eY
  obtain ⟨tail, t1, t2⟩ := f.best
  refine ⟨Y, eY, s1, by rw [d1, n1, n2]; exact f.error, fun S F hSF => ?_⟩
  rw [d1, t1, Finset.sum_Ico_eq_sum_range]
  refine Finset.sum_le_sum fun j hj => ?_
  rw [Finset.mem_range] at hj
  obtain ⟨q1, q2, q3, q4, q5⟩ := hSF (1 + j) (by omega) (by omega)
  rw [(dense_dist_eqv h q1 q2 hz q3 hZ hZX q5).2.1]
  exact t2 j (by omega) _ q1 q2 (by rw [Nat.add_comm 1 j] at q4 ⊢; exact q4)

end T3f
