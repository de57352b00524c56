import Verif.Proofs.ToTTErrTT
import Verif.Proofs.ToTTMatrix

/-! # `to_tt_matrix` in floating point arithmetic -/

namespace T3f

theorem prod_zipWith_mul {a b : List ℕ} (h : a.length = b.length) : (List.zipWith (· * ·) a b).prod = a.prod * b.prod := by
  induction a generalizing b with
  | nil => cases b with
    | nil => rfl
    | cons y b => simp at h
  | cons x a ih => cases b with
    | nil => simp at h
    | cons y b =>
      rw [List.zipWith_cons_cons, List.prod_cons, List.prod_cons, List.prod_cons, ih (by simpa using h)]
      ring

theorem toTTMatrixF_fit {F : FloatRoutines} {A : Arith} (hF : F.Follows A) {ε : ℝ} (hε : 0 ≤ ε) {size : ℕ} {svd : SVDRoutine} (hsvd : svd.Backward ε size)
    {X : Tensor ℝ} {a b : List ℕ} (hX : X.shape.prod = a.prod * b.prod) (hsz : X.shape.prod ≤ size)
    (hab : a.length = b.length) (hd : 2 ≤ a.length) (ha : ∀ n ∈ a, 0 < n) (hb0 : ∀ n ∈ b, 0 < n) {ra rb : Option (List ℕ)}
    (hf : fillRows ra rb = Except.ok (a, b)) {m : MaxRank} {bd : ℕ → ℕ} (hb : m.Bounds a.length bd) {eps : Option ℝ} (he : ∀ e ∈ eps, 0 ≤ e) :
    ∃ y z Z, toTTMatrixF F svd X ra rb m eps = Except.ok y ∧ z.WF ∧ z.rawShape = [a, b] ∧ z.batch = none ∧ full z = Except.ok Z ∧
      Z.shape = [a.prod, b.prod] ∧ (∀ x < a.prod, ∀ y < b.prod, Z.get [x, y] = X.flat (x * b.prod + y)) ∧ FitF A ε z y bd := by
  set d := a.length with hda
  obtain ⟨X1, e1, s1, v1⟩ := reshape_flat X ((a ++ b).map some) (a ++ b) (resolveShape_some _ _ (by rw [List.prod_append, hX]))
  obtain ⟨X2, e2, s2, v2⟩ := transpose_il X1 (a := a) (b := b) (d := d) rfl hab.symm s1
  have hab' : ∀ k, (List.zipWith (· * ·) a b).getD k 0 = a.getD k 0 * b.getD k 0 := by
    intro k
    rcases Nat.lt_or_ge k d with hk | hk
    · rw [List.getD_eq_getElem _ _ (by rw [List.length_zipWith]; omega), List.getD_eq_getElem _ _ (by omega),
        List.getD_eq_getElem _ _ (by omega), List.getElem_zipWith]
    · rw [List.getD_eq_default _ _ (by rw [List.length_zipWith]; omega), List.getD_eq_default _ _ (by omega)]; simp
  set c := List.zipWith (· * ·) a b with hc
  have hcl : c.length = d := by rw [hc, List.length_zipWith]; omega
  have hcf : (List.range d).flatMap (fun k => [c.getD k 0]) = c := by rw [← hcl]; exact flatMap_singleton_getD c
  have hms : ∀ k, msize (fun k => [a.getD k 0, b.getD k 0]) k = msize (fun k => [c.getD k 0]) k := by
    intro k
    induction k with
    | zero => rfl
    | succ k ih =>
      rw [msize, msize, ih, hab']; simp
  have hcp : c.prod = X2.shape.prod := by rw [s2, ← msize_eq, hms, msize_eq, hcf]
  obtain ⟨X3, e3, s3, v3⟩ := reshape_spec X2 (c.map some) c (resolveShape_some _ _ hcp)
  have hX3 : ∀ i j, Valid a i → Valid b j → X3.get ((List.range d).map fun k => i.getD k 0 * b.getD k 0 + j.getD k 0) = X1.get (i ++ j) := by
    intro i j hi hj
    have hvm : ∀ k < d, Valid [a.getD k 0, b.getD k 0] [i.getD k 0, j.getD k 0] := fun k hk =>
      ⟨((valid_iff_getD _ _).1 hi).2 k hk, ((valid_iff_getD _ _).1 hj).2 k (by omega), trivial⟩
    rw [← v2 i j hi.length_eq (by rw [hj.length_eq]; omega)]
    refine v3 _ _ (by rw [s2]; exact valid_flatMap _ _ _ hvm) ?_
    have q1 := mflat_eq (fun k => [a.getD k 0, b.getD k 0]) (fun k => [i.getD k 0, j.getD k 0]) d (fun _ _ => rfl)
    have q2 := mflat_eq (fun k => [c.getD k 0]) (fun k => [i.getD k 0 * b.getD k 0 + j.getD k 0]) d (fun _ _ => rfl)
    rw [hcf, ← List.map_eq_flatMap] at q2
    rw [s2, ← q1, ← q2]
    have : ∀ k, mflat (fun k => [c.getD k 0]) (fun k => [i.getD k 0 * b.getD k 0 + j.getD k 0]) k =
        mflat (fun k => [a.getD k 0, b.getD k 0]) (fun k => [i.getD k 0, j.getD k 0]) k := by
      intro k
      induction k with
      | zero => rfl
      | succ k ih =>
        rw [mflat, mflat, ih, hab']; simp [ravel]
    exact this d
  have hcpos : ∀ n ∈ X3.shape, 0 < n := by
    rw [s3]
    intro n hn
    obtain ⟨k, hk, rfl⟩ := List.getElem_of_mem hn
    rw [← List.getD_eq_getElem _ 0 hk, hab']
    exact Nat.mul_pos (getD_pos ha (by omega)) (getD_pos hb0 (by omega))
  have hX3p : X3.shape.prod ≤ size := by
    rw [s3, hc, prod_zipWith_mul hab, ← hX]
    exact hsz
  have hX3l : X3.shape.length = d := by rw [s3, hcl]
  obtain ⟨x, ex, fx⟩ := toTTTensorF_fit hF hε hsvd (X := X3) (by omega) hcpos hX3p (m := m) (b := bd) (by rw [hX3l]; exact hb) he
  have hwx := xTT_wf (X := X3) (by omega) hcpos
  have hnx : (xTT X3).ndims = d := by rw [xTT_ndims, hX3l]
  have hxn : x.ndims = d := by rw [ndims_eq_of_rawShape fx.wf hwx fx.rows, hnx]
  have hxr : x.rawShape = [c] := by rw [fx.rows, xTT_rawShape, s3]
  set M : ℕ → List ℕ := fun k => [a.getD k 0, b.getD k 0] with hM
  have hrows : rowsOf M d 2 = [a, b] := by
    have q1 := list_eq_range_map a 0
    have q2 := list_eq_range_map b 0
    rw [← hab] at q2
    rw [← hda] at q1
    conv_rhs => rw [q1, q2]
    rfl
  have hxm : ∀ k, x.modes k = [c.getD k 0] := fun k => by rw [TT.modes, hxr]; rfl
  have hMp : ∀ k, (M k).prod = c.getD k 0 := fun k => by rw [hab']; simp [hM]
  -- the cores of the result
  obtain ⟨cores, ec, hcl', hcv⟩ := mapRange_ok d (fun i => do
    let core ← pyGet x.cores i
    let r ← pyGet x.ttRanks i
    let r' ← pyGet x.ttRanks (i + 1)
    let n ← pyGet a i
    let m ← pyGet b i
    reshape core [some r, some n, some m, some r'])
    (fun k C => C.shape = x.rank k :: (M k ++ [x.rank (k + 1)]) ∧ Blk C [] (x.rank k) (x.N k) (x.rank (k + 1)) fun p α n β => x.fl p k n α β)
    (fun k hk => by
      have hb := blk_core fx.wf (k := k) (by omega)
      rw [show x.bpre = [] by simp [TT.bpre, fx.batch]] at hb
      obtain ⟨C, eC, sC, bC⟩ := hb.reshape_some (s := [x.rank k, a.getD k 0, b.getD k 0, x.rank (k + 1)]) (by
        rw [TT.N, hxm, hab']; simp [Nat.mul_assoc])
      refine ⟨C, ?_, sC, bC⟩
      have := fx.wf.ranks_len
      rw [pyGet_of_lt x.cores k default (by rw [TT.ndims] at hxn; omega), pyGet_of_lt x.ttRanks k 0 (by omega), pyGet_of_lt x.ttRanks (k + 1) 0 (by omega),
        pyGet_of_lt a k 0 (by omega), pyGet_of_lt b k 0 (by omega)]
      exact eC)
  have hch : Chain none cores x.rank M 2 := by
    refine ⟨by omega, fx.wf.rank_first, by rw [hcl', ← hxn]; exact fx.wf.rank_last, fun k hk => fx.wf.rank_pos k (by omega), Or.inr rfl,
      fun _ _ => rfl, fun k hk => ?_, by simp⟩
    exact (hcv k (by omega)).1
  have hy : toTTMatrixF F svd X ra rb m eps = Except.ok (chainTT none cores x.rank M 2) := by
    unfold toTTMatrixF
    rw [hf]
    simp only [R.ok_bind, require, if_pos hab, e1, ← hda]
    rw [show (List.flatMap (fun k => [k, d + k]) (List.range d)) = ilPerm d from rfl, e2, R.ok_bind, e3, R.ok_bind, ex, R.ok_bind]
    refine (congrArg (fun z => z >>= _) ec).trans ?_
    refine mkTT_ok hch _ (Or.inr (hch.clean (by rw [hcl', hrows]))) _ (Or.inr ?_)
    have := list_eq_range_map x.ttRanks 0
    rw [fx.wf.ranks_len, hxn] at this
    rw [this, hcl']; rfl
  set y := chainTT none cores x.rank M 2 with hyd
  have hyn : y.ndims = d := hcl'
  have hyr : y.rawShape = [a, b] := by show rowsOf _ _ _ = _; rw [hcl', hrows]
  have hyrk : ∀ k ≤ d, y.rank k = x.rank k := fun k hk => chainTT_rank k (by omega)
  have hyfl : ∀ k < d, ∀ n < x.N k, ∀ α < x.rank k, ∀ β < x.rank (k + 1), y.fl [] k n α β = x.fl [] k n α β := by
    intro k hk n hn α hα β hβ
    have hn' : n < (M k).prod := by rw [hMp]; rw [TT.N, hxm] at hn; simpa using hn
    rw [TT.fl, hch.modes_eq k (by omega)]
    show ((cores.getD k default).get _) = _
    rw [(hcv k hk).2.core (M := M k) (p := []) (hcv k hk).1 (by rw [hMp, TT.N, hxm]; simp) trivial hα (unravel_valid hn') hβ, ravel_unravel hn']
  set z := remode (xTT X3) M 2 with hz
  have hzw : z.WF := remode_wf hwx (Or.inr rfl) (fun _ _ => rfl)
  have hzn : z.ndims = d := by rw [hz, remode_ndims, hnx]
  have hzr : z.rawShape = [a, b] := by rw [hz, remode_rawShape, hnx, hrows]
  have hNx : (xTT X3).N = fun k => c.getD k 0 := by funext k; rw [TT.N, TT.modes, xTT_rawShape, s3]; simp
  have hNz : z.N = (xTT X3).N := by
    rw [hNx]; funext k; rw [TT.N, TT.modes, hzr, ← hMp]; rfl
  have hzfl : ∀ k < (xTT X3).ndims, ∀ n < (xTT X3).N k, ∀ α < (xTT X3).rank k, ∀ β < (xTT X3).rank (k + 1),
      z.fl [] k n α β = (xTT X3).fl [] k n α β := by
    intro k hk n hn α _ β _
    refine remode_fl hwx (Or.inr rfl) (fun _ _ => rfl) hk ?_ α β
    rw [hNx] at hn
    rw [hMp]; exact hn
  obtain ⟨Z, eZ, sZ, vZ⟩ := full_ok hzw
  rw [hzr, show z.bpre = [] from rfl] at sZ vZ
  refine ⟨y, z, Z, hy, hzw, hzr, rfl, eZ, sZ, fun i hi j hj => ?_, ?_⟩
  · have q := vZ [] [i, j] trivial ⟨hi, hj, trivial⟩
    rw [List.nil_append] at q
    have hvi := unravel_valid hi
    have hvj := unravel_valid hj
    set l := (List.range d).map fun k => (unravel a i).getD k 0 * b.getD k 0 + (unravel b j).getD k 0 with hl
    have hlg : ∀ k < d, l.getD k 0 = (unravel a i).getD k 0 * b.getD k 0 + (unravel b j).getD k 0 := fun k hk => getD_range_map _ _ _ _ hk
    have hlv : Valid X3.shape l := by
      rw [s3, valid_iff_getD]
      refine ⟨by rw [hl, List.length_map, List.length_range, hcl], fun k hk => ?_⟩
      rw [hlg k (by omega), hab']
      exact mul_add_lt (((valid_iff_getD _ _).1 hvi).2 k (by omega)) (((valid_iff_getD _ _).1 hvj).2 k (by omega))
    rw [q, restModes_matrix, hz, remode_entry hwx (g := tIdx l), xTT_entry (by omega) hcpos hlv, hX3 _ _ hvi hvj,
      ← Tensor.flat_ravel X1 (by rw [s1]; exact valid_append hvi hvj), s1, ravel_append _ _ hvi.length_eq, ravel_unravel hi, ravel_unravel hj,
      v1 _ (by rw [hX]; exact mul_add_lt hi hj)]
    · intro k hk
      rw [TT.modes, xTT_rawShape]
      exact ⟨((valid_iff_getD _ _).1 hlv).2 k (by omega), trivial⟩
    · intro k hk
      rw [hnx] at hk
      rw [TT.modes, xTT_rawShape, tIdx, hlg k hk]
      simp [hM, mIdx, ravel]
  · have hxN : x.N = (xTT X3).N := by funext k; rw [TT.N, TT.modes, TT.N, TT.modes, fx.rows]
    have hyx : ∀ k ≤ (xTT X3).ndims, y.rank k = x.rank k := by rw [hnx]; exact hyrk
    have hzx : ∀ k ≤ (xTT X3).ndims, z.rank k = (xTT X3).rank k := fun k hk => remode_rank hk
    have hyf : ∀ k < (xTT X3).ndims, ∀ n < (xTT X3).N k, ∀ α < x.rank k, ∀ β < x.rank (k + 1), y.fl [] k n α β = x.fl [] k n α β := by
      rw [hnx, ← hxN]; exact hyfl
    have d1 : entryDist z y [] = entryDist (xTT X3) x [] :=
      entryDist_transfer hwx fx.wf hzw hch.wf fx.rows (by rw [hyr, hzr]) (by omega) (by omega) (by omega) hNz hzx hyx hzfl hyf
    have d2 : entryDot z z [] = entryDot (xTT X3) (xTT X3) [] := entryDot_transfer hwx hwx hzw rfl rfl rfl rfl (by omega) hNz hzx hzx hzfl hzfl
    have hyN : y.N = x.N := by funext k; rw [TT.N, TT.modes, hyr, TT.N, hxm, hab']; simp
    refine ⟨hch.wf, by rw [hyr, hzr], rfl, fun k hk => ?_, fun k hk => ?_, fun S hS hSr hSb => ?_⟩
    · rw [hyrk k (by omega), fx.exact k (by omega), hzn, hnx, hNz]
    · obtain ⟨U, u1, u2⟩ := fx.near k (by omega)
      refine ⟨U, ?_, ?_⟩
      · rw [hyrk k (by omega), hyrk (k + 1) (by omega), hNz]
        exact u1
      · rw [hyrk k (by omega), hyrk (k + 1) (by omega), hNz]
        refine le_trans (le_of_eq (bn_congr fun n hn α hα β hβ => ?_)) u2
        rw [hyf k (by omega) n hn α hα β hβ]
    · have hSn : S.ndims = d := by rw [ndims_eq_of_rawShape hS hzw hSr, hzn]
      have hSt := remode_wf hS (M := fun k => [c.getD k 0]) (Or.inl rfl) (fun _ _ => rfl)
      have hStr : (remode S (fun k => [c.getD k 0]) 1).rawShape = (xTT X3).rawShape := by
        rw [remode_rawShape, xTT_rawShape, s3, hSn, ← hcl, rowsOf_single]
      have hSN : S.N = (xTT X3).N := by rw [← hNz]; funext k; rw [TT.N, TT.modes, TT.N, TT.modes, hSr]
      have q := fx.error (remode S (fun k => [c.getD k 0]) 1) hSt hStr (fun k h1 h2 => by rw [remode_rank (by omega)]; exact hSb k h1 (by omega))
      have d4 : entryDist z S [] = entryDist (xTT X3) (remode S (fun k => [c.getD k 0]) 1) [] := by
        refine entryDist_transfer hwx hSt hzw hS hStr hSr (by rw [remode_ndims]; omega) (by omega) (by omega) hNz hzx ?_ hzfl ?_
        · intro k hk
          rw [remode_rank (by omega)]
        · intro k hk n hn α _ β _
          rw [hNx] at hn
          rw [remode_fl hS (Or.inl rfl) (fun _ _ => rfl) (by omega) (by simpa using hn)]
      rw [d1, d2, d4, hzn]
      rw [hnx] at q
      have hpr : ∏ k ∈ Finset.range (d - 1), svdGrowth A ε (y.rank (k + 1)) = ∏ k ∈ Finset.range (d - 1), svdGrowth A ε (x.rank (k + 1)) :=
        Finset.prod_congr rfl fun k hk => by rw [hyrk _ (by rw [Finset.mem_range] at hk; omega)]
      rw [hpr]
      exact q

end T3f
