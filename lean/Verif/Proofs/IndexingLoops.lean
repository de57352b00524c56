import Verif.Proofs.Indexing

/-!
# The two indexing loops
-/

namespace T3f

variable {K : Type} [CommRing K]

omit [CommRing K] in
theorem getD_range_lt {n x d : ℕ} (h : x < n) : (List.range n).getD x d = x := by
  rw [List.getD_eq_getElem _ _ (by simpa using h)]; simp

/-! ## Slicing one core -/

omit [CommRing K] in
theorem getItem_core_one {C : Tensor K} {r n r' p : ℕ} (hC : C.shape = [r, n, r']) {ix : Ix}
    (hx : resolve1 n ix = Except.ok (.one p)) :
    ∃ S, getItem C [.all, ix, .all] = Except.ok S ∧ S.shape = [r, r'] ∧
      ∀ a b, a < r → b < r' → S.get [a, b] = C.get [a, p, b] := by
  refine ⟨⟨selShape [.many (List.range r), .one p, .many (List.range r')], fun idx => C.get (selIdx [.many (List.range r), .one p, .many (List.range r')] idx)⟩,
    ?_, ?_, ?_⟩
  · simp only [getItem, hC, resolveIx_cons, hx, resolveIx_nil]; rfl
  · simp [selShape]
  · intro a b ha hb
    simp only [selIdx, List.headD_cons, List.tail_cons, getD_range_lt ha, getD_range_lt hb]

omit [CommRing K] in
theorem getItem_core_many {C : Tensor K} {r n r' : ℕ} {ps : List ℕ} (hC : C.shape = [r, n, r']) {ix : Ix}
    (hx : resolve1 n ix = Except.ok (.many ps)) :
    ∃ S, getItem C [.all, ix, .all] = Except.ok S ∧ S.shape = [r, ps.length, r'] ∧
      ∀ a j b, a < r → b < r' → S.get [a, j, b] = C.get [a, ps.getD j 0, b] := by
  refine ⟨⟨selShape [.many (List.range r), .many ps, .many (List.range r')], fun idx => C.get (selIdx [.many (List.range r), .many ps, .many (List.range r')] idx)⟩,
    ?_, ?_, ?_⟩
  · simp only [getItem, hC, resolveIx_cons, hx, resolveIx_nil]; rfl
  · simp [selShape]
  · intro a j b ha hb
    simp only [selIdx, List.headD_cons, List.tail_cons, getD_range_lt ha, getD_range_lt hb]

omit [CommRing K] in
theorem getItem_bcore_one {C : Tensor K} {N r n r' p : ℕ} (hC : C.shape = [N, r, n, r']) {b0 ix : Ix}
    {x0 : Sel} (h0 : resolve1 N b0 = Except.ok x0) (hx : resolve1 n ix = Except.ok (.one p)) :
    ∃ S, getItem C [b0, .all, ix, .all] = Except.ok S ∧ S.shape = selShape [x0] ++ [r, r'] ∧
      ∀ q a b, Valid (selShape [x0]) q → a < r → b < r' →
        S.get (q ++ [a, b]) = C.get (selIdx [x0] q ++ [a, p, b]) := by
  refine ⟨⟨selShape [x0, .many (List.range r), .one p, .many (List.range r')], fun idx => C.get (selIdx [x0, .many (List.range r), .one p, .many (List.range r')] idx)⟩,
    ?_, ?_, ?_⟩
  · simp only [getItem, hC, resolveIx_cons, h0, hx, resolveIx_nil]; rfl
  · cases x0 <;> simp [selShape]
  · intro q a b hq ha hb
    have := selIdx_append [x0] [.many (List.range r), .one p, .many (List.range r')] q [a, b] hq.length_eq
    simp only [List.cons_append, List.nil_append] at this
    simp only [this, selIdx, List.headD_cons, List.tail_cons, getD_range_lt ha, getD_range_lt hb]

omit [CommRing K] in
theorem getItem_bcore_many {C : Tensor K} {N r n r' : ℕ} {ps : List ℕ} (hC : C.shape = [N, r, n, r'])
    {b0 ix : Ix} {x0 : Sel} (h0 : resolve1 N b0 = Except.ok x0) (hx : resolve1 n ix = Except.ok (.many ps)) :
    ∃ S, getItem C [b0, .all, ix, .all] = Except.ok S ∧ S.shape = selShape [x0] ++ [r, ps.length, r'] ∧
      ∀ q a j b, Valid (selShape [x0]) q → a < r → b < r' →
        S.get (q ++ [a, j, b]) = C.get (selIdx [x0] q ++ [a, ps.getD j 0, b]) := by
  refine ⟨⟨selShape [x0, .many (List.range r), .many ps, .many (List.range r')], fun idx => C.get (selIdx [x0, .many (List.range r), .many ps, .many (List.range r')] idx)⟩,
    ?_, ?_, ?_⟩
  · simp only [getItem, hC, resolveIx_cons, h0, hx, resolveIx_nil]; rfl
  · cases x0 <;> simp [selShape]
  · intro q a j b hq ha hb
    have := selIdx_append [x0] [.many (List.range r), .many ps, .many (List.range r')] q [a, j, b] hq.length_eq
    simp only [List.cons_append, List.nil_append] at this
    simp only [this, selIdx, List.headD_cons, List.tail_cons, getD_range_lt ha, getD_range_lt hb]

/-! ## The contractions -/

macro "ein_ok" hA:ident hB:ident : tactic => `(tactic|
  (refine ⟨_, if_pos (by simp [einDims, $hA:ident, $hB:ident, List.lookup]), by
      simp [einDims, $hA:ident, $hB:ident, List.lookup, lookupLabel], ?_⟩))

macro "ein_val" hA:ident hB:ident : tactic => `(tactic|
  (simp [einDims, $hA:ident, $hB:ident, List.lookup, lookupLabel, sumOver, List.eraseDupsBy,
      List.eraseDupsBy.loop]))

theorem ein_mm {A B : Tensor K} {x y z : ℕ} (hA : A.shape = [x, y]) (hB : B.shape = [y, z]) :
    ∃ T, einsum (ein! "ab,bd->ad") [A, B] = Except.ok T ∧ T.shape = [x, z] ∧
      ∀ a b, T.get [a, b] = ∑ c ∈ Finset.range y, A.get [a, c] * B.get [c, b] := by
  ein_ok hA hB
  intro a b
  ein_val hA hB

theorem ein_bmm {A B : Tensor K} {N x y z : ℕ} (hA : A.shape = [N, x, y]) (hB : B.shape = [N, y, z]) :
    ∃ T, einsum (ein! "oab,obd->oad") [A, B] = Except.ok T ∧ T.shape = [N, x, z] ∧
      ∀ o a b, T.get [o, a, b] = ∑ c ∈ Finset.range y, A.get [o, a, c] * B.get [o, c, b] := by
  ein_ok hA hB
  intro o a b
  ein_val hA hB

theorem ein_mc {A B : Tensor K} {x y n z : ℕ} (hA : A.shape = [x, y]) (hB : B.shape = [y, n, z]) :
    ∃ T, einsum (ein! "ab,bid->aid") [A, B] = Except.ok T ∧ T.shape = [x, n, z] ∧
      ∀ a j b, T.get [a, j, b] = ∑ c ∈ Finset.range y, A.get [a, c] * B.get [c, j, b] := by
  ein_ok hA hB
  intro a j b
  ein_val hA hB

theorem ein_bmc {A B : Tensor K} {N x y n z : ℕ} (hA : A.shape = [N, x, y]) (hB : B.shape = [N, y, n, z]) :
    ∃ T, einsum (ein! "oab,obid->oaid") [A, B] = Except.ok T ∧ T.shape = [N, x, n, z] ∧
      ∀ o a j b, T.get [o, a, j, b] = ∑ c ∈ Finset.range y, A.get [o, a, c] * B.get [o, c, j, b] := by
  ein_ok hA hB
  intro o a j b
  ein_val hA hB

theorem ein_cm {A B : Tensor K} {x y n z : ℕ} (hA : A.shape = [x, n, y]) (hB : B.shape = [y, z]) :
    ∃ T, einsum (ein! "aib,bd->aid") [A, B] = Except.ok T ∧ T.shape = [x, n, z] ∧
      ∀ a j b, T.get [a, j, b] = ∑ c ∈ Finset.range y, A.get [a, j, c] * B.get [c, b] := by
  ein_ok hA hB
  intro a j b
  ein_val hA hB

theorem ein_bcm {A B : Tensor K} {N x y n z : ℕ} (hA : A.shape = [N, x, n, y]) (hB : B.shape = [N, y, z]) :
    ∃ T, einsum (ein! "oaib,obd->oaid") [A, B] = Except.ok T ∧ T.shape = [N, x, n, z] ∧
      ∀ o a j b, T.get [o, a, j, b] = ∑ c ∈ Finset.range y, A.get [o, a, j, c] * B.get [o, c, b] := by
  ein_ok hA hB
  intro o a j b
  ein_val hA hB

/-! ## TensorTrain -/

omit [CommRing K] in
theorem pyLast_concat {α : Type} (l : List α) (a : α) : pyLast (l ++ [a]) = Except.ok a := by
  simp [pyLast]

theorem tensor_core_shape {t : TT K} (h : t.WF) {row : List ℕ} (hrow : t.rawShape = [row]) {k : ℕ}
    (hk : k < t.ndims) : (t.core k).shape = t.bpre ++ [t.rank k, row.getD k 0, t.rank (k + 1)] := by
  rw [h.core_shape k hk]; simp [TT.modes, hrow]

theorem ttGetItemStep_spec {t : TT K} (h : t.WF) (hb : t.batch = none) {row : List ℕ}
    (hrow : t.rawShape = [row]) {spec : List Ix} {l : List Sel} (hl : resolveIx row spec = Except.ok l)
    (hlen : spec.length = row.length) (i : ℕ) (st : List (Tensor K) × Option (Tensor K)) (hi : i < t.ndims)
    (hg : GInv [] id t l i st) :
    ∃ st', ttGetItemStep t spec i st = Except.ok st' ∧ GInv [] id t l (i + 1) st' := by
  have hrl : row.length = t.ndims := h.rows_len row (by simp [hrow])
  have hll : l.length = t.ndims := (resolveIx_length hl).trans hrl
  have hC := tensor_core_shape h hrow hi
  rw [show t.bpre = [] by simp [TT.bpre, hb], List.nil_append] at hC
  have hm : ¬ t.isMatrix := by simp [TT.isMatrix, hrow]
  have hx := resolveIx_getD hl hlen i (by omega) (.one 0) .all 0
  obtain ⟨L, rem⟩ := st
  have hpos := h.rank_pos (i + 1) hi
  simp only [ttGetItemStep, h.pyCore hi, R.ok_bind, if_neg hm,
    pyGet_of_lt spec i .all (by omega)]
  cases hs : l.getD i (.one 0) with
  | one p =>
    rw [hs] at hx
    obtain ⟨S, eS, sS, vS⟩ := getItem_core_one hC hx
    have vS' : ∀ q a b, Valid [] q → a < t.rank i → b < t.rank (i + 1) →
      S.get (q ++ [a, b]) = (t.core i).get (id q ++ [a, p, b]) := by
      intro q a b hq ha hb; rw [valid_nil_iff] at hq; subst hq; exact vS a b ha hb
    rw [eS, R.ok_bind, if_pos (by simp [hC, sS])]
    cases rem with
    | none => exact ⟨_, rfl, hg.one_none (by omega) hs S (by simpa using sS) vS'⟩
    | some r =>
      obtain ⟨rk, _, hr, _⟩ := id hg
      obtain ⟨T, eT, sT, vT⟩ := matmul2 r S _ _ _ hr sS
      refine ⟨(L, some T), by simp only [eT, R.ok_bind, R.pure_eq], hg.one_some (by omega) hs S T vS' ?_ ?_⟩
      · intro x hx'
        have hr' : r.shape = [] ++ [rk L.length, t.rank i] := hr
        rw [hr'] at hx'
        simp at hx'
        rw [sT, ← hx']; rfl
      · intro q a b hq; rw [valid_nil_iff] at hq; subst hq; exact vT a b
  | many ps =>
    rw [hs] at hx
    obtain ⟨S, eS, sS, vS⟩ := getItem_core_many hC hx
    have vS' : ∀ q a j b, Valid [] q → a < t.rank i → j < ps.length → b < t.rank (i + 1) →
      S.get (q ++ [a, j, b]) = (t.core i).get (id q ++ [a, ps.getD j 0, b]) := by
      intro q a j b hq ha _ hb; rw [valid_nil_iff] at hq; subst hq; exact vS a j b ha hb
    rw [eS, R.ok_bind, if_neg (by simp [hC, sS])]
    cases rem with
    | none => exact ⟨_, rfl, hg.many_none (by omega) hs hpos S (by simpa using sS) vS'⟩
    | some r =>
      obtain ⟨rk, _, hr, _⟩ := id hg
      obtain ⟨T, eT, sT, vT⟩ := ein_mc hr sS
      refine ⟨(L ++ [T], none), by simp only [eT, R.ok_bind, R.pure_eq],
        hg.many_some (by omega) hs hpos S T vS' ?_ ?_⟩
      · intro x hx'
        have hr' : r.shape = [] ++ [rk L.length, t.rank i] := hr
        rw [hr'] at hx'
        simp at hx'
        rw [sT, ← hx']; rfl
      · intro q a j b hq; rw [valid_nil_iff] at hq; subst hq; exact vT a j b

theorem ttGetItem_spec {t : TT K} (h : t.WF) (hb : t.batch = none) {row : List ℕ}
    (hrow : t.rawShape = [row]) {spec : List Ix} {l : List Sel} (hl : resolveIx row spec = Except.ok l)
    (hlen : spec.length = row.length) (hne : selShape l ≠ []) :
    ∃ T, ttGetItem t spec = Except.ok T ∧ T.WF ∧ T.rawShape = [selShape l] ∧ T.batch = none ∧
      ∀ idx, Valid (selShape l) idx → T.entry [] (tIdx idx) = t.entry [] (tIdx (selIdx l idx)) := by
  have hrl : row.length = t.ndims := h.rows_len row (by simp [hrow])
  have hll : l.length = t.ndims := (resolveIx_length hl).trans hrl
  obtain ⟨⟨L, rem⟩, e, hg⟩ := forRange_inv (GInv [] id t l) (ttGetItemStep t spec) 0 t.ndims ([], none)
    (GInv.zero [] id h l) (fun i st _ hi hg => ttGetItemStep_spec h hb hrow hl hlen i st (by omega) hg)
  rw [Nat.zero_add] at hg
  have key : ∀ L, GInv [] id t l t.ndims (L, none) →
      ∃ T, mkTT L = Except.ok T ∧ T.WF ∧ T.rawShape = [selShape l] ∧ T.batch = none ∧
      ∀ idx, Valid (selShape l) idx → T.entry [] (tIdx idx) = t.entry [] (tIdx (selIdx l idx)) := by
    intro L hg
    obtain ⟨rk, hch, hLl, hv⟩ := finish_none (bs := none) (by simp) h hll hne hg
    refine ⟨_, mkTT_ok hch _ (Or.inl rfl) _ (Or.inl rfl), hch.wf, ?_, rfl, ?_⟩
    · change rowsOf _ _ _ = _
      simp only [rowsOf, hLl, List.range_one, List.map_cons, List.map_nil, List.getD_cons_zero]
      rw [← list_eq_range_map]
    · exact fun idx hidx => hv [] idx trivial hidx
  rw [ttGetItem, require_pos (by omega), R.ok_bind, e, R.ok_bind]
  cases rem with
  | none => exact key L hg
  | some r =>
    obtain ⟨Li, last, x, y, n, rfl, slast, sr, hfin⟩ := finish_some (bs := none) h hll hne hg
    obtain ⟨T, eT, sT, vT⟩ := ein_cm slast sr
    simp only [pyLast_concat, R.ok_bind, eT, List.dropLast_concat]
    refine key _ (hfin T sT ?_)
    intro q a j b hq; change Valid [] q at hq; rw [valid_nil_iff] at hq; subst hq; exact vT a j b

/-! ## TensorTrainBatch -/

theorem batchStep_spec {t : TT K} (h : t.WF) {N : ℕ} (hb : t.batch = some N) {row : List ℕ}
    (hrow : t.rawShape = [row]) {b0 : Ix} {x0 : Sel} (h0 : resolve1 N b0 = Except.ok x0)
    {spec : List Ix} {l : List Sel} (hl : resolveIx row spec = Except.ok l)
    (hlen : spec.length = row.length) (i : ℕ) (st : List (Tensor K) × Option (Tensor K)) (hi : i < t.ndims)
    (hg : GInv (selShape [x0]) (selIdx [x0]) t l i st) :
    ∃ st', batchFullGetItemStep t b0 spec i st = Except.ok st' ∧
      GInv (selShape [x0]) (selIdx [x0]) t l (i + 1) st' := by
  have hrl : row.length = t.ndims := h.rows_len row (by simp [hrow])
  have hll : l.length = t.ndims := (resolveIx_length hl).trans hrl
  have hC := tensor_core_shape h hrow hi
  rw [show t.bpre = [N] by simp [TT.bpre, hb], List.singleton_append] at hC
  have hm : ¬ t.isMatrix := by simp [TT.isMatrix, hrow]
  have hx := resolveIx_getD hl hlen i (by omega) (.one 0) .all 0
  have hc0 := resolve1_collapse h0
  obtain ⟨L, rem⟩ := st
  have hpos := h.rank_pos (i + 1) hi
  simp only [batchFullGetItemStep, h.pyCore hi, R.ok_bind, if_neg hm,
    pyGet_of_lt spec i .all (by omega)]
  cases hs : l.getD i (.one 0) with
  | one p =>
    rw [hs] at hx
    obtain ⟨S, eS, sS, vS⟩ := getItem_bcore_one hC h0 hx
    rw [eS, R.ok_bind, if_pos ((resolve1_collapse hx).2 ⟨p, rfl⟩)]
    cases rem with
    | none => exact ⟨_, rfl, hg.one_none (by omega) hs S sS vS⟩
    | some r =>
      obtain ⟨rk, _, hr, _⟩ := id hg
      cases x0 with
      | one p0 =>
        obtain ⟨T, eT, sT, vT⟩ := ein_mm hr sS
        refine ⟨(L, some T), by simp only [hc0.2 ⟨p0, rfl⟩, if_true, eT, R.ok_bind, R.pure_eq],
          hg.one_some (by omega) hs S T vS ?_ ?_⟩
        · intro x hx'
          have hr' : r.shape = [] ++ [rk L.length, t.rank i] := hr
          rw [hr'] at hx'
          simp [selShape] at hx'
          rw [sT, ← hx']; rfl
        · intro q a b hq; change Valid [] q at hq; rw [valid_nil_iff] at hq; subst hq; exact vT a b
      | many ps0 =>
        obtain ⟨T, eT, sT, vT⟩ := ein_bmm hr sS
        have hn : doCollapseDim b0 = false := by
          rw [← Bool.not_eq_true, hc0]; simp
        refine ⟨(L, some T), by simp only [hn, Bool.false_eq_true, if_false, eT, R.ok_bind, R.pure_eq],
          hg.one_some (by omega) hs S T vS ?_ ?_⟩
        · intro x hx'
          have hr' : r.shape = [ps0.length] ++ [rk L.length, t.rank i] := hr
          rw [hr'] at hx'
          simp [selShape] at hx'
          rw [sT, ← hx']; rfl
        · intro q a b hq
          obtain ⟨o, rfl, ho⟩ := (valid_singleton _ _).1 hq
          exact vT o a b
  | many ps =>
    rw [hs] at hx
    obtain ⟨S, eS, sS, vS⟩ := getItem_bcore_many hC h0 hx
    have vS' : ∀ q a j b, Valid (selShape [x0]) q → a < t.rank i → j < ps.length → b < t.rank (i + 1) →
      S.get (q ++ [a, j, b]) = (t.core i).get (selIdx [x0] q ++ [a, ps.getD j 0, b]) :=
      fun q a j b hq ha _ hb => vS q a j b hq ha hb
    have hcn : doCollapseDim (spec.getD i .all) = false := by
      rw [← Bool.not_eq_true, resolve1_collapse hx]; simp
    rw [eS, R.ok_bind, if_neg (by simp only [hcn, Bool.false_eq_true, not_false_eq_true])]
    cases rem with
    | none => exact ⟨_, rfl, hg.many_none (by omega) hs hpos S sS vS'⟩
    | some r =>
      obtain ⟨rk, _, hr, _⟩ := id hg
      cases x0 with
      | one p0 =>
        obtain ⟨T, eT, sT, vT⟩ := ein_mc hr sS
        refine ⟨(L ++ [T], none), by simp only [hc0.2 ⟨p0, rfl⟩, if_true, eT, R.ok_bind, R.pure_eq],
          hg.many_some (by omega) hs hpos S T vS' ?_ ?_⟩
        · intro x hx'
          have hr' : r.shape = [] ++ [rk L.length, t.rank i] := hr
          rw [hr'] at hx'
          simp [selShape] at hx'
          rw [sT, ← hx']; rfl
        · intro q a j b hq; change Valid [] q at hq; rw [valid_nil_iff] at hq; subst hq; exact vT a j b
      | many ps0 =>
        obtain ⟨T, eT, sT, vT⟩ := ein_bmc hr sS
        have hn : doCollapseDim b0 = false := by
          rw [← Bool.not_eq_true, hc0]; simp
        refine ⟨(L ++ [T], none), by simp only [hn, Bool.false_eq_true, if_false, eT, R.ok_bind, R.pure_eq],
          hg.many_some (by omega) hs hpos S T vS' ?_ ?_⟩
        · intro x hx'
          have hr' : r.shape = [ps0.length] ++ [rk L.length, t.rank i] := hr
          rw [hr'] at hx'
          simp [selShape] at hx'
          rw [sT, ← hx']; rfl
        · intro q a j b hq
          obtain ⟨o, rfl, ho⟩ := (valid_singleton _ _).1 hq
          exact vT o a j b

/-- Batch attribute after selecting with an item of the batch axis. -/
def Sel.batch : Sel → Option ℕ
  | .one _ => none
  | .many ps => some ps.length

theorem Sel.batch_toList (x : Sel) : x.batch.toList = selShape [x] := by cases x <;> rfl

theorem batchFullGetItem_spec {t : TT K} (h : t.WF) {N : ℕ} (hb : t.batch = some N) {row : List ℕ}
    (hrow : t.rawShape = [row]) {b0 : Ix} {x0 : Sel} (h0 : resolve1 N b0 = Except.ok x0)
    (hne0 : selShape [x0] ≠ [0])
    {spec : List Ix} {l : List Sel} (hl : resolveIx row spec = Except.ok l)
    (hlen : spec.length = row.length) (hne : selShape l ≠ []) :
    ∃ T, batchFullGetItem t b0 spec = Except.ok T ∧ T.WF ∧ T.rawShape = [selShape l] ∧ T.batch = x0.batch ∧
      ∀ q idx, Valid (selShape [x0]) q → Valid (selShape l) idx →
        T.entry q (tIdx idx) = t.entry (selIdx [x0] q) (tIdx (selIdx l idx)) := by
  have hrl : row.length = t.ndims := h.rows_len row (by simp [hrow])
  have hll : l.length = t.ndims := (resolveIx_length hl).trans hrl
  have hc0 := resolve1_collapse h0
  obtain ⟨⟨L, rem⟩, e, hg⟩ := forRange_inv (GInv (selShape [x0]) (selIdx [x0]) t l)
    (batchFullGetItemStep t b0 spec) 0 t.ndims ([], none)
    (GInv.zero _ _ h l) (fun i st _ hi hg => batchStep_spec h hb hrow h0 hl hlen i st (by omega) hg)
  rw [Nat.zero_add, ← Sel.batch_toList] at hg
  have hbs : x0.batch ≠ some 0 := by
    intro hh; apply hne0; rw [← Sel.batch_toList, hh]; rfl
  have key : ∀ L, GInv x0.batch.toList (selIdx [x0]) t l t.ndims (L, none) →
      ∃ T, (if doCollapseDim b0 then mkTT L else mkBatch L) = Except.ok T ∧ T.WF ∧
        T.rawShape = [selShape l] ∧ T.batch = x0.batch ∧
      ∀ q idx, Valid (selShape [x0]) q → Valid (selShape l) idx →
        T.entry q (tIdx idx) = t.entry (selIdx [x0] q) (tIdx (selIdx l idx)) := by
    intro L hg
    obtain ⟨rk, hch, hLl, hv⟩ := finish_none hbs h hll hne hg
    refine ⟨chainTT x0.batch L rk (fun k => [(selShape l).getD k 0]) 1, ?_, hch.wf, ?_, rfl, ?_⟩
    · cases x0 with
      | one p => rw [if_pos (hc0.2 ⟨p, rfl⟩)]; exact mkTT_ok hch _ (Or.inl rfl) _ (Or.inl rfl)
      | many ps =>
        rw [if_neg (by rw [hc0]; simp)]
        exact mkBatch_ok hch _ (Or.inl rfl) _ (Or.inl rfl) _ (Or.inl rfl)
    · change rowsOf _ _ _ = _
      simp only [rowsOf, hLl, List.range_one, List.map_cons, List.map_nil, List.getD_cons_zero]
      rw [← list_eq_range_map]
    · exact fun q idx hq hidx => hv q idx (by rw [Sel.batch_toList]; exact hq) hidx
  rw [batchFullGetItem, require_pos (by omega), R.ok_bind, e, R.ok_bind]
  cases rem with
  | none => exact key L hg
  | some r =>
    obtain ⟨Li, last, x, y, n, rfl, slast, sr, hfin⟩ := finish_some h hll hne hg
    simp only [pyLast_concat, R.ok_bind, List.dropLast_concat]
    cases x0 with
    | one p =>
      obtain ⟨T, eT, sT, vT⟩ := ein_cm slast sr
      have hcc := hc0.2 ⟨p, rfl⟩
      have hk := key _ (hfin T sT (by
        intro q a j b hq; change Valid [] q at hq; rw [valid_nil_iff] at hq; subst hq; exact vT a j b))
      simp only [hcc, if_true] at hk
      simp only [hcc, if_true, eT, R.ok_bind, R.pure_eq]
      exact hk
    | many ps =>
      obtain ⟨T, eT, sT, vT⟩ := ein_bcm slast sr
      have hcc : doCollapseDim b0 = false := by rw [← Bool.not_eq_true, hc0]; simp
      have hk := key _ (hfin T sT (by
        intro q a j b hq
        obtain ⟨o, rfl, ho⟩ := (valid_singleton _ _).1 hq
        exact vT o a j b))
      simp only [hcc, Bool.false_eq_true, if_false] at hk
      simp only [hcc, Bool.false_eq_true, if_false, eT, R.ok_bind, R.pure_eq]
      exact hk

end T3f
