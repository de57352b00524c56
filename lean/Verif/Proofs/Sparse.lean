import Verif.Proofs.Gather

/-!
# `unravel_index` and inner products with sparse tensors
-/

namespace T3f

variable {K : Type}

/-- The digits of a flat index (taken modulo the number of positions). -/
theorem unravel_digit : ∀ (S : List ℕ) (n k : ℕ), 0 < S.prod → k < S.length →
    (n / (S.drop (k + 1)).prod) % S.getD k 0 = (unravel S (n % S.prod)).getD k 0
  | [], _, _, _, h => absurd h (by simp)
  | s :: S, n, 0, hp, _ => by
      rw [List.prod_cons] at hp
      have h1 : 0 < S.prod := Nat.pos_of_mul_pos_left hp
      simp only [List.drop_succ_cons, List.drop_zero, List.getD_cons_zero, unravel_cons, List.prod_cons]
      rw [Nat.mod_mul_left_div_self]
  | s :: S, n, k + 1, hp, hk => by
      rw [List.prod_cons] at hp
      have h1 : 0 < S.prod := Nat.pos_of_mul_pos_left hp
      have ih := unravel_digit S n k h1 (by simpa using hk)
      simp only [List.drop_succ_cons, List.getD_cons_succ, unravel_cons, List.prod_cons]
      rw [ih, Nat.mod_mod_of_dvd _ (Dvd.intro_left _ rfl)]

theorem bproj_pair {s0 s1 x y : ℕ} (hx : s0 = 1 → x = 0) (hy : s1 = 1 → y = 0) : bproj [s0, s1] [x, y] = [x, y] := by
  simp only [bproj, List.length_cons, List.length_nil, Nat.sub_self, List.drop_zero, List.zipWith_cons_cons,
    List.zipWith_nil_left]
  congr 1
  · split_ifs with h
    · exact (hx h).symm
    · rfl
  · congr 1
    split_ifs with h
    · exact (hy h).symm
    · rfl

theorem bproj_pair_left {s1 x y : ℕ} (hy : s1 = 1 → y = 0) : bproj [1, s1] [x, y] = [0, y] := by
  simp only [bproj, List.length_cons, List.length_nil, Nat.sub_self, List.drop_zero, List.zipWith_cons_cons,
    List.zipWith_nil_left, if_true]
  congr 2
  split_ifs with h
  · exact (hy h).symm
  · rfl

theorem bproj_pair_right {s0 x y : ℕ} (hx : s0 = 1 → x = 0) : bproj [s0, 1] [x, y] = [x, 0] := by
  simp only [bproj, List.length_cons, List.length_nil, Nat.sub_self, List.drop_zero, List.zipWith_cons_cons,
    List.zipWith_nil_left, if_true]
  congr 1
  split_ifs with h
  · exact (hx h).symm
  · rfl

theorem intBinop_row (f : ℕ → ℕ → ℕ) (a : Tensor ℕ) {c : ℕ} (b : List ℕ) (ha : a.shape = [1, c]) (hb : 0 ∉ b) :
    ∃ Q, intBinop f a b = Except.ok Q ∧ Q.shape = [b.length, c] ∧
      ∀ o < c, ∀ k < b.length, Q.get [k, o] = f (a.get [0, o]) (b.getD k 0) := by
  obtain ⟨Q, eQ, sQ, vQ⟩ := binop_ok f a (columnOf b) [b.length, c] (by
    simp only [ha, columnOf, List.reverse_cons, List.reverse_nil, List.nil_append, List.cons_append, bshape]
    split_ifs <;> simp_all)
  refine ⟨Q, by rw [intBinop, if_neg (by simp [hb]), eQ], sQ, fun o ho k hk => ?_⟩
  rw [vQ, ha, bproj_pair_left (by omega), show (columnOf b).shape = [b.length, 1] from rfl,
    bproj_pair_right (by omega)]
  rfl

theorem intBinop_mat (f : ℕ → ℕ → ℕ) (a : Tensor ℕ) {c : ℕ} (b : List ℕ) (ha : a.shape = [b.length, c]) (hb : 0 ∉ b) :
    ∃ Q, intBinop f a b = Except.ok Q ∧ Q.shape = [b.length, c] ∧
      ∀ o < c, ∀ k < b.length, Q.get [k, o] = f (a.get [k, o]) (b.getD k 0) := by
  obtain ⟨Q, eQ, sQ, vQ⟩ := binop_ok f a (columnOf b) [b.length, c] (by
    simp only [ha, columnOf, List.reverse_cons, List.reverse_nil, List.nil_append, List.cons_append, bshape]
    split_ifs <;> simp_all)
  refine ⟨Q, by rw [intBinop, if_neg (by simp [hb]), eQ], sQ, fun o ho k hk => ?_⟩
  rw [vQ, ha, bproj_pair (by omega) (by omega), show (columnOf b).shape = [b.length, 1] from rfl,
    bproj_pair_right (by omega)]
  rfl

theorem transpose10 {C : Tensor K} {m n : ℕ} (h : C.shape = [m, n]) :
    ∃ T, transpose C [1, 0] = Except.ok T ∧ T.shape = [n, m] ∧ ∀ x y, T.get [y, x] = C.get [x, y] := by
  refine ⟨_, if_pos (by simp only [h, List.length_cons, List.length_nil]; decide), by simp [h], fun x y => ?_⟩
  simp [h, List.range_succ, List.idxOf_cons]

theorem unravelIndex_spec (idx : Tensor ℕ) {c : ℕ} (S : List ℕ) (hs : idx.shape = [c]) (hS : 0 < S.prod) :
    ∃ U, unravelIndex idx S = Except.ok U ∧ U.shape = [c, S.length] ∧
      ∀ o < c, ∀ k < S.length, U.get [o, k] = (unravel S (idx.get [o] % S.prod)).getD k 0 := by
  have h0 : 0 ∉ S := fun h => by rw [List.prod_eq_zero h] at hS; exact absurd hS (by omega)
  have h1 : 0 ∉ cumprodExclRev S := by
    intro h
    obtain ⟨k, -, hk⟩ := List.mem_map.1 h
    exact h0 (List.mem_of_mem_drop (List.prod_eq_zero_iff.1 hk))
  have hl : (cumprodExclRev S).length = S.length := by simp [cumprodExclRev]
  obtain ⟨E, eE, sE, vE⟩ : ∃ E, expandDims idx 0 = Except.ok E ∧ E.shape = [1, c] ∧ ∀ o, E.get [0, o] = idx.get [o] :=
    ⟨_, if_pos (by simp), by simp [hs], fun o => rfl⟩
  obtain ⟨Q, eQ, sQ, vQ⟩ := intBinop_row (· / ·) E (cumprodExclRev S) sE h1
  obtain ⟨P, eP, sP, vP⟩ := intBinop_mat (· % ·) Q S (by rw [sQ, hl]) h0
  obtain ⟨U, eU, sU, vU⟩ := transpose10 sP
  refine ⟨U, by simp [unravelIndex, eE, eQ, eP, eU], sU, fun o ho k hk => ?_⟩
  rw [vU, vP o ho k hk, vQ o ho k (by omega), vE, ← unravel_digit S _ k hS hk, cumprodExclRev,
    getD_range_map _ _ _ _ hk]

variable [CommRing K]

theorem sparseStep_spec {t : TT K} (h : t.WF) {I J : List ℕ} (hr : t.rawShape = [I, J]) (hb : t.batch = none)
    {U V : Tensor ℕ} {c : ℕ} (hU : U.shape = [c, I.length]) (hV : V.shape = [c, J.length]) {k : ℕ} (hk : k < t.ndims)
    {el : Tensor K} (hi : ∀ o < c, U.get [o, k] < I.getD k 0) (hj : ∀ o < c, V.get [o, k] < J.getD k 0)
    (hI : GatherInv t c (fun _ => []) (fun o k => [U.get [o, k], V.get [o, k]]) k el) :
    ∃ el', sparseStep t U V k el = Except.ok el' ∧
      GatherInv t c (fun _ => []) (fun o k => [U.get [o, k], V.get [o, k]]) (k + 1) el' := by
  have hIl : I.length = t.ndims := h.rows_len I (by simp [hr])
  have hJl : J.length = t.ndims := h.rows_len J (by simp [hr])
  have hcore := h.core_shape k hk
  have hmod : t.modes k = [I.getD k 0, J.getD k 0] := by simp [TT.modes, hr]
  rw [hmod, bpre_none hb] at hcore
  simp only [List.nil_append, List.cons_append] at hcore
  generalize hn : I.getD k 0 = n at *
  generalize hm : J.getD k 0 = m at *
  obtain ⟨T, eT, sT, vT⟩ := transpose1203 hcore
  obtain ⟨W, eW, sW, vW⟩ := reshape_spec T [some (n * m), some (t.rank k), some (t.rank (k + 1))]
    [n * m, t.rank k, t.rank (k + 1)]
    (resolveShape_some [n * m, t.rank k, t.rank (k + 1)] _ (by simp [sT, mul_assoc]))
  obtain ⟨C, eC, sC, vC⟩ := column_spec U hU (by omega : k < I.length)
  obtain ⟨D, eD, sD, vD⟩ := column_spec V hV (by omega : k < J.length)
  obtain ⟨X, eX, sX, vX⟩ := binop_ok (· + ·) (C.map (· * m)) D [c] (by
    rw [show (C.map (· * m)).shape = C.shape from rfl, sC, sD]; exact bshape_self _)
  have hX : ∀ o < c, X.get [o] = U.get [o, k] * m + V.get [o, k] := by
    intro o ho
    rw [vX, show (C.map (· * m)).shape = C.shape from rfl, sC, sD, bproj_valid (by simpa using ho)]
    change C.get [o] * m + D.get [o] = _
    rw [vC o ho, vD o ho]
  obtain ⟨G, eG, sG, vG⟩ := gather_spec W X sW sX (fun o ho => by
    rw [hX o ho]
    have h1 := hi o ho
    have h2 := hj o ho
    calc U.get [o, k] * m + V.get [o, k] < U.get [o, k] * m + m := by omega
      _ = (U.get [o, k] + 1) * m := by ring
      _ ≤ n * m := Nat.mul_le_mul_right _ h1)
  obtain ⟨E, eE, hE⟩ := gatherInv_step (S := G) hI sG (fun o ho a ha b hb' => by
    rw [vG, hX o ho, vW _ [U.get [o, k], V.get [o, k], a, b] (by
      rw [sT]; exact ⟨hi o ho, hj o ho, ha, hb', trivial⟩) (by
      simp only [sT, ravel_cons, ravel_nil, List.prod_cons, List.prod_nil, mul_one, add_zero]
      ring), vT, TT.slice]; rfl)
  refine ⟨E, ?_, hE⟩
  have p0 : pyGet I k = Except.ok n := by rw [pyGet_of_lt I k 0 (by omega), hn]
  have p1 : pyGet J k = Except.ok m := by rw [pyGet_of_lt J k 0 (by omega), hm]
  have q0 : pyGet t.rawShape 0 = Except.ok I := by rw [hr]; rfl
  have q1 : pyGet t.rawShape 1 = Except.ok J := by rw [hr]; rfl
  simp only [sparseStep, h.pyCore hk, h.pyRank (show k ≤ t.ndims by omega), h.pyRank (show k + 1 ≤ t.ndims by omega),
    R.ok_bind, eT, q0, q1, p0, p1, eW, eC, eD, eX, eG, eE]

theorem dot_spec {el v : Tensor K} {c : ℕ} (he : el.shape.prod = c) (hv : v.shape = [c]) (f : ℕ → K)
    (hf : ∀ o < c, el.get (unravel el.shape o) = f o) :
    (do
      let el ← reshape el [some 1, none]
      let v ← reshape v [none, some 1]
      let res ← matmul el v
      let res ← getItem res [.int 0, .int 0]
      pure (res.get []) : R K) = Except.ok (∑ o ∈ Finset.range c, f o * v.get [o]) := by
  obtain ⟨E, eE, sE, vE⟩ := reshape_spec el [some 1, none] [1, c]
    (resolveShape_infer [some 1, none] c _ rfl (by simp [knownProd]) (by simp [he, knownProd]))
  obtain ⟨V, eV, sV, vV⟩ := reshape_spec v [none, some 1] [c, 1]
    (resolveShape_infer [none, some 1] c _ rfl (by simp [knownProd]) (by simp [hv, knownProd]))
  obtain ⟨P, eP, sP, vP⟩ := matmul2 E V 1 c 1 sE sV
  have hg : getItem P [.int 0, .int 0] = Except.ok ⟨[], fun idx => P.get (selIdx [Sel.one 0, Sel.one 0] idx)⟩ := by
    simp [getItem, sP, resolveIx, intPosition, selShape]
  rw [eE, R.ok_bind, eV, R.ok_bind, eP, R.ok_bind, hg]
  simp only [R.ok_bind, selIdx, R.pure_eq]
  congr 1
  rw [vP]
  refine Finset.sum_congr rfl fun o ho => ?_
  have ho := Finset.mem_range.1 ho
  rw [vE [0, o] (unravel el.shape o) (unravel_valid (by omega)) (by rw [ravel_unravel (by omega)]; simp), hf o ho,
    vV [o, 0] [o] (by simpa [hv] using ho) (by simp [hv])]

/-- The value of `tt_sparse_flat_inner` for TT-matrices: indices are taken modulo the size. -/
theorem ttSparse_matrix {t : TT K} (h : t.WF) {I J : List ℕ} (hr : t.rawShape = [I, J]) (hb : t.batch = none)
    (hIp : 0 < I.prod) (hJp : 0 < J.prod) {idx : Tensor ℕ} {v : Tensor K} {c : ℕ} (hs : idx.shape = [c, 2])
    (hv : v.shape = [c]) :
    ttSparseFlatInner t idx v = Except.ok (∑ o ∈ Finset.range c,
      t.entry [] (mIdx (unravel I (idx.get [o, 0] % I.prod)) (unravel J (idx.get [o, 1] % J.prod))) * v.get [o]) := by
  have hm : t.isMatrix := by simp [TT.isMatrix, hr]
  have hIl : I.length = t.ndims := h.rows_len I (by simp [hr])
  have hJl : J.length = t.ndims := h.rows_len J (by simp [hr])
  obtain ⟨C0, eC0, sC0, vC0⟩ := column_spec idx (k := 0) hs (by omega)
  obtain ⟨C1, eC1, sC1, vC1⟩ := column_spec idx (k := 1) hs (by omega)
  obtain ⟨U, eU, sU, vU⟩ := unravelIndex_spec C0 I sC0 hIp
  obtain ⟨V, eV, sV, vV⟩ := unravelIndex_spec C1 J sC1 hJp
  have hu : ∀ o < c, ∀ k < t.ndims, U.get [o, k] < I.getD k 0 := fun o ho k hk => by
    rw [vU o ho k (by omega)]
    exact ((valid_iff_getD _ _).1 (unravel_valid (Nat.mod_lt _ hIp))).2 k (by omega)
  have hv' : ∀ o < c, ∀ k < t.ndims, V.get [o, k] < J.getD k 0 := fun o ho k hk => by
    rw [vV o ho k (by omega)]
    exact ((valid_iff_getD _ _).1 (unravel_valid (Nat.mod_lt _ hJp))).2 k (by omega)
  obtain ⟨F, eF, hF⟩ := forRange_inv (GatherInv t c (fun _ => []) (fun o k => [U.get [o, k], V.get [o, k]]))
    (sparseStep t U V) 0 t.ndims (ones [c, 1, 1]) (gatherInv_ones h rfl fun _ _ => rfl)
    (fun k el _ hk hI => sparseStep_spec h hr hb sU sV (by omega) (fun o ho => hu o ho k (by omega))
      (fun o ho => hv' o ho k (by omega)) hI)
  rw [zero_add] at hF
  have hFs : F.shape = [c, 1, 1] := by rw [hF.1, h.rank_last]
  have q0 : pyGet t.rawShape 0 = Except.ok I := by rw [hr]; rfl
  have q1 : pyGet t.rawShape 1 = Except.ok J := by rw [hr]; rfl
  have q2 : pyGet idx.shape 0 = Except.ok c := by rw [hs]; rfl
  unfold ttSparseFlatInner
  rw [q2, R.ok_bind, if_pos hm, q0, R.ok_bind, q1, R.ok_bind, eC0, R.ok_bind, eU, R.ok_bind, eC1, R.ok_bind, eV,
    R.ok_bind, eF, R.ok_bind]
  refine dot_spec (by simp [hFs]) hv _ fun o ho => ?_
  rw [hFs, show unravel [c, 1, 1] o = [o, 0, 0] by simp [Nat.mod_one], hF.2 o ho 0 (by rw [h.rank_last]; omega),
    TT.entry]
  refine lprod_congr' fun j hj => ?_
  funext a b
  simp only [TT.slice, mIdx]
  rw [vU o ho j (by omega), vV o ho j (by omega), vC0 o ho, vC1 o ho]

theorem ttSparse_tensor {t : TT K} (h : t.WF) {I : List ℕ} (hr : t.rawShape = [I]) (hb : t.batch = none)
    {idx : Tensor ℕ} {v : Tensor K} {c : ℕ} (hs : idx.shape = [c, t.ndims])
    (hv : v.shape = [c]) (hi : ∀ o < c, ∀ k < t.ndims, idx.get [o, k] < I.getD k 0) :
    ttSparseFlatInner t idx v = Except.ok (∑ o ∈ Finset.range c,
      t.entry [] (fun k => [idx.get [o, k]]) * v.get [o]) := by
  have hm : ¬ t.isMatrix := by simp [TT.isMatrix, hr]
  have hbp := bpre_none hb
  have hbb : t.isBatch = false := by simp [TT.isBatch, hb]
  obtain ⟨G, eG, sG, vG⟩ := ttGatherNd_spec h hr (idx := idx) (c := c) (by simp [hbp, hs])
    (fun o ho => by simp [rowBatch, hbb, hbp]) (by simpa [hbp] using hi)
  have q2 : pyGet idx.shape 0 = Except.ok c := by rw [hs]; rfl
  unfold ttSparseFlatInner
  rw [q2, R.ok_bind, if_neg hm, eG, R.ok_bind]
  refine dot_spec (by simp [sG]) hv _ fun o ho => ?_
  rw [sG, show unravel [c] o = [o] by simp, vG o ho]
  have e1 : rowBatch t idx o = [] := by simp [rowBatch, hbb]
  have e2 : rowModes t idx o = fun k => [idx.get [o, k]] := by funext k; simp [rowModes, hbp]
  rw [e1, e2]

end T3f
