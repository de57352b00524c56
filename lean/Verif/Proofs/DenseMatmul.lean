import Verif.Proofs.TTTranspose

/-!
# Products of a TT-matrix and a dense matrix
-/

namespace T3f

variable {K : Type} [CommRing K]

/-- First components of the first `k` mode indices. -/
def pre (g : ℕ → List ℕ) (k : ℕ) : List ℕ := (List.range k).map fun j => (g j).getD 0 0

theorem pre_succ (g : ℕ → List ℕ) (k : ℕ) : pre g (k + 1) = pre g k ++ [(g k).getD 0 0] := by
  simp [pre, List.range_succ]

theorem pre_length (g : ℕ → List ℕ) (k : ℕ) : (pre g k).length = k := by simp [pre]

theorem pre_update (g : ℕ → List ℕ) (k n : ℕ) (v : List ℕ) (h : n ≤ k) :
    pre (Function.update g k v) n = pre g n := by
  unfold pre
  apply List.map_congr_left
  intro j hj
  have : j < n := by simpa using hj
  rw [Function.update_of_ne (by omega)]

theorem pre_valid {J : List ℕ} {g : ℕ → List ℕ} {k : ℕ} (hk : k ≤ J.length)
    (h : ∀ j < k, Valid [J.getD j 0] (g j)) : Valid (J.take k) (pre g k) := by
  rw [valid_iff_getD]
  refine ⟨by simp [pre_length, hk], fun j hj => ?_⟩
  have hj' : j < k := by simp at hj; omega
  obtain ⟨u, hu, hu'⟩ := (valid_singleton _ _).1 (h j hj')
  rw [pre, getD_range_map _ _ _ _ hj', hu]
  simp only [List.getD_cons_zero]
  simpa [List.getD_eq_getElem?_getD, List.getElem?_take, hj'] using hu'

theorem take_succ_getD (J : List ℕ) (k : ℕ) (h : k < J.length) :
    J.take (k + 1) = J.take k ++ [J.getD k 0] := by
  rw [List.take_add_one, List.getElem?_eq_getElem h, List.getD_eq_getElem _ _ h]; rfl

theorem drop_getD (I : List ℕ) (k : ℕ) (h : k < I.length) :
    I.drop k = I.getD k 0 :: I.drop (k + 1) := by
  rw [List.drop_eq_getElem_cons h, List.getD_eq_getElem _ _ h]

/-- The left factors in the sum over column indices. -/
def lfac (a : TT K) (i : List ℕ) (g : ℕ → List ℕ) (k b : ℕ) : K :=
  lprod a.rank (fun j x y => (a.core j).get [x, i.getD j 0, (g j).getD 0 0, y]) k b

theorem lfac_update (a : TT K) (i : List ℕ) (g : ℕ → List ℕ) (k b : ℕ) (v : List ℕ) :
    lfac a i (Function.update g k v) k b = lfac a i g k b :=
  lprod_congr' fun j hj => by rw [Function.update_of_ne (by omega)]

/-- Loop invariant of `tt_dense_matmul` when `n` cores remain to be processed. -/
def DenseInv (a : TT K) (I J : List ℕ) (c : ℕ) (target : List ℕ → ℕ → K) : ℕ → Tensor K → Prop
  | 0, D => D.shape = [I.getD 0 0, (I.drop 1 ++ [c]).prod, 1] ∧ ∀ i q, Valid I i → q < c →
      target i q = D.get [i.getD 0 0, ravel (I.drop 1 ++ [c]) (i.drop 1 ++ [q]), 0]
  | k + 1, D => D.shape = [(I.drop (k + 1) ++ c :: J.take k).prod, J.getD k 0, a.rank (k + 1)] ∧
      ∀ i q, Valid I i → q < c →
      target i q = msum (fun j => [J.getD j 0]) (k + 1) fun g => ∑ b ∈ Finset.range (a.rank (k + 1)),
        lfac a i g (k + 1) b * D.get [ravel (I.drop (k + 1) ++ c :: J.take k)
          (i.drop (k + 1) ++ q :: pre g k), (g k).getD 0 0, b]

theorem denseEin {A B : Tensor K} {r i j r' R : ℕ} (hA : A.shape = [r, i, j, r'])
    (hB : B.shape = [R, j, r']) :
    ∃ E, einsum (ein! "aijb,rjb->ira") [A, B] = Except.ok E ∧ E.shape = [i, R, r] ∧
      ∀ u p a, E.get [u, p, a] = ∑ v ∈ Finset.range j, ∑ b ∈ Finset.range r',
        A.get [a, u, v, b] * B.get [p, v, b] := by
  refine ⟨_, if_pos (by simp [einDims, hA, hB, List.lookup]), by
      simp [einDims, hA, hB, List.lookup, lookupLabel], fun u p a => ?_⟩
  simp [einDims, hA, hB, List.lookup, lookupLabel, sumOver, List.eraseDupsBy,
          List.eraseDupsBy.loop]

theorem valid_drop {s i : List ℕ} (h : Valid s i) (n : ℕ) : Valid (s.drop n) (i.drop n) := by
  rw [valid_iff_getD] at *
  refine ⟨by simp [h.1], fun k hk => ?_⟩
  simp only [List.length_drop] at hk
  have := h.2 (n + k) (by omega)
  simpa [List.getD_eq_getElem?_getD, List.getElem?_drop] using this

theorem denseStep_spec {a : TT K} (h : a.WF) {I J : List ℕ} (hr : a.rawShape = [I, J]) (hb : a.batch = none)
    (hJ : 0 < J.prod) (c : ℕ) (target : List ℕ → ℕ → K) (k : ℕ) (hk : k < a.ndims) (D : Tensor K)
    (hD : DenseInv a I J c target (k + 1) D) :
    ∃ D', denseStep a k D = Except.ok D' ∧ DenseInv a I J c target k D' := by
  have hIl : I.length = a.ndims := h.rows_len I (by simp [hr])
  have hJl : J.length = a.ndims := h.rows_len J (by simp [hr])
  have hJpos : ∀ j < a.ndims, 0 < J.getD j 0 := by
    intro j hj
    rw [List.getD_eq_getElem _ _ (by omega)]
    rw [Nat.pos_iff_ne_zero]
    intro h0
    exact hJ.ne' (List.prod_eq_zero (h0 ▸ List.getElem_mem (by omega)))
  obtain ⟨sD, vD⟩ := hD
  have sC := h.core_shape k hk
  rw [show a.modes k = [I.getD k 0, J.getD k 0] by simp [TT.modes, hr], bpre_none hb] at sC
  obtain ⟨E, eE, sE, vE⟩ := denseEin sC sD
  -- values after the contraction
  have key : ∀ i q, Valid I i → q < c → target i q =
      msum (fun j => [J.getD j 0]) k fun g => ∑ x ∈ Finset.range (a.rank k), lfac a i g k x *
        E.get [i.getD k 0, ravel (I.drop (k + 1) ++ c :: J.take k) (i.drop (k + 1) ++ q :: pre g k), x] := by
    intro i q hi hq
    rw [vD i q hi hq, msum]
    simp only [vE]
    have hu : ∀ n, n < J.getD k 0 → unravel [J.getD k 0] n = [n] := by
      intro n hn; simp
    calc _ = ∑ n ∈ Finset.range (J.getD k 0), msum (fun j => [J.getD j 0]) k fun g =>
          ∑ x ∈ Finset.range (a.rank k), lfac a i g k x * ∑ b ∈ Finset.range (a.rank (k + 1)),
            (a.core k).get [x, i.getD k 0, n, b] * D.get [ravel (I.drop (k + 1) ++ c :: J.take k)
              (i.drop (k + 1) ++ q :: pre g k), n, b] := by
          simp only [List.prod_cons, List.prod_nil, mul_one]
          refine Finset.sum_congr rfl fun n hn => msum_congr_all _ _ _ _ fun g => ?_
          rw [hu n (by simpa using hn)]
          simp only [pre_update _ _ _ _ le_rfl, Function.update_self, List.getD_cons_zero]
          have : ∀ b, lfac a i (Function.update g k [n]) (k + 1) b = ∑ x ∈ Finset.range (a.rank k),
              lfac a i g k x * (a.core k).get [x, i.getD k 0, n, b] := by
            intro b
            rw [lfac, lprod]
            simp only [Function.update_self, List.getD_cons_zero]
            exact Finset.sum_congr rfl fun x _ => by rw [← lfac, lfac_update]
          simp only [this, Finset.sum_mul, Finset.mul_sum]
          rw [Finset.sum_comm]
          exact Finset.sum_congr rfl fun x _ => Finset.sum_congr rfl fun b _ => by ring
      _ = _ := by
          rw [← msum_sum]
          refine msum_congr_all _ _ _ _ fun g => ?_
          rw [Finset.sum_comm]
          exact Finset.sum_congr rfl fun x _ => by rw [Finset.mul_sum]
  unfold denseStep
  rw [h.pyCore hk, R.ok_bind]
  simp only [eE, R.ok_bind]
  rcases k with _ | k
  · refine ⟨E, by simp, ?_, ?_⟩
    · rw [sE, h.rank_first]; simp
    · intro i q hi hq
      rw [key i q hi hq]
      simp [msum, h.rank_first, lfac, lprod, pre]
  · rw [if_pos (by omega)]
    have hkJ : k < J.length := by omega
    have hIk := drop_getD I (k + 1) (by omega)
    have hres : resolveShape E.shape.prod [none, some (J.getD k 0), some (a.rank (k + 1))] =
        Except.ok [(I.drop (k + 1) ++ c :: J.take k).prod, J.getD k 0, a.rank (k + 1)] := by
      rw [resolveShape_infer _ ((I.drop (k + 1) ++ c :: J.take k).prod)]
      · simp
      · rfl
      · simp only [knownProd, mul_one]
        exact Nat.mul_pos (hJpos k (by omega)) (h.rank_pos (k + 1) (by omega))
      · rw [sE, hIk, take_succ_getD J k hkJ]
        simp only [knownProd, List.prod_cons, List.prod_append, List.prod_nil, List.cons_append]
        ring
    obtain ⟨T, eT, sT, vT⟩ := reshape_spec E _ _ hres
    refine ⟨T, ?_, sT, ?_⟩
    · rw [hr]
      have p1 : pyGet [I, J] 1 = Except.ok J := rfl
      have e1 : pyGet J (k + 1 - 1) = Except.ok (J.getD k 0) := pyGet_of_lt _ _ _ (by omega)
      simp only [p1, R.ok_bind, e1, h.pyRank (show k + 1 ≤ a.ndims by omega)]
      exact eT
    · intro i q hi hq
      rw [key i q hi hq]
      have hil : i.length = I.length := hi.length_eq
      refine msum_congr _ _ _ _ fun g hg => Finset.sum_congr rfl fun x hx => ?_
      have hx' : x < a.rank (k + 1) := by simpa using hx
      congr 1
      have hgk := hg k (by omega)
      obtain ⟨u, hu, hu'⟩ := (valid_singleton _ _).1 hgk
      have hpre : Valid (J.take (k + 1)) (pre g (k + 1)) :=
        pre_valid (by omega) (fun j hj => hg j (by omega))
      have hpk : Valid (J.take k) (pre g k) := pre_valid (by omega) (fun j hj => hg j (by omega))
      have hdr := valid_drop hi (k + 1 + 1)
      have hik := ((valid_iff_getD _ _).1 hi).2 (k + 1) (by omega)
      have hv2 : Valid (I.drop (k + 1 + 1) ++ c :: J.take (k + 1)) (i.drop (k + 1 + 1) ++ q :: pre g (k + 1)) :=
        valid_append hdr ⟨hq, hpre⟩
      refine (vT _ _ ?_ ?_).symm
      · rw [sE]
        exact ⟨hik, ravel_lt hv2, hx', trivial⟩
      · rw [sE, drop_getD i (k + 1) (by omega), hIk, take_succ_getD J k hkJ, pre_succ, hu]
        simp only [List.cons_append, ravel_cons, List.prod_cons, List.prod_nil, ravel_nil, mul_one,
          List.getD_cons_zero, List.prod_append]
        rw [ravel_append _ _ hdr.length_eq, ravel_append _ _ hdr.length_eq]
        simp only [ravel_cons, List.prod_cons, List.prod_append, List.prod_nil]
        rw [ravel_append _ _ hpk.length_eq]
        simp only [ravel_cons, ravel_nil, List.prod_cons, List.prod_nil]
        ring

theorem denseLoop {a : TT K} (h : a.WF) {I J : List ℕ} (hr : a.rawShape = [I, J]) (hb : a.batch = none)
    (hJ : 0 < J.prod) (c : ℕ) (target : List ℕ → ℕ → K) (n : ℕ) (hn : n ≤ a.ndims) (D : Tensor K)
    (hD : DenseInv a I J c target n D) :
    ∃ D', forReversed (denseStep a) n D = Except.ok D' ∧ DenseInv a I J c target 0 D' := by
  induction n generalizing D with
  | zero => exact ⟨D, rfl, hD⟩
  | succ n ih =>
    obtain ⟨D', e, hD'⟩ := denseStep_spec h hr hb hJ c target n (by omega) D hD
    obtain ⟨D'', e', h''⟩ := ih (by omega) D' hD'
    exact ⟨D'', by rw [forReversed, e, R.ok_bind, e'], h''⟩

/-- What `tt_dense_matmul` guarantees. -/
theorem ttDenseMatmul_spec {a : TT K} (h : a.WF) {I J : List ℕ} (hr : a.rawShape = [I, J])
    (hb : a.batch = none) (hJ : 0 < J.prod) {B : Tensor K} {c : ℕ} (hB : B.shape = [J.prod, c]) :
    ∃ D, ttDenseMatmul a B = Except.ok D ∧ D.shape = [I.prod, c] ∧
      ∀ i q, Valid I i → q < c → D.get [ravel I i, q] = ∑ n ∈ Finset.range J.prod,
        a.entry [] (mIdx i (unravel J n)) * B.get [n, q] := by
  have hm : a.isMatrix := by simp [TT.isMatrix, hr]
  have hIl : I.length = a.ndims := h.rows_len I (by simp [hr])
  have hJl : J.length = a.ndims := h.rows_len J (by simp [hr])
  have hpos := h.pos
  obtain ⟨d, hd⟩ : ∃ d, a.ndims = d + 1 := ⟨a.ndims - 1, by omega⟩
  obtain ⟨T, eT, sT, vT⟩ := transpose2 hB
  have hlast : pyLast J = Except.ok (J.getD d 0) := by
    rw [pyLast, List.getLast?_eq_getElem?, show J.length - 1 = d by omega,
      List.getElem?_eq_getElem (by omega), List.getD_eq_getElem _ _ (by omega)]
  have hJd : 0 < J.getD d 0 := by
    rw [List.getD_eq_getElem _ _ (by omega), Nat.pos_iff_ne_zero]
    intro h0
    exact hJ.ne' (List.prod_eq_zero (h0 ▸ List.getElem_mem (by omega)))
  have hJfull : J = J.take d ++ [J.getD d 0] := by
    rw [← take_succ_getD J d (by omega), List.take_of_length_le (by omega)]
  have hres : resolveShape T.shape.prod [none, some (J.getD d 0), some 1] =
      Except.ok [(I.drop (d + 1) ++ c :: J.take d).prod, J.getD d 0, 1] := by
    rw [resolveShape_infer _ ((I.drop (d + 1) ++ c :: J.take d).prod)]
    · simp
    · rfl
    · simpa [knownProd] using hJd
    · have : J.prod = (J.take d).prod * J.getD d 0 := by
        conv_lhs => rw [hJfull]
        simp
      rw [sT, List.drop_of_length_le (by omega)]
      simp only [knownProd, List.prod_cons, List.prod_nil, List.nil_append]
      rw [this]; ring
  obtain ⟨D0, eD0, sD0, vD0⟩ := reshape_spec T _ _ hres
  have hrd : a.rank (d + 1) = 1 := by rw [← hd]; exact h.rank_last
  have hinv : DenseInv a I J c (fun i q => ∑ n ∈ Finset.range J.prod,
        a.entry [] (mIdx i (unravel J n)) * B.get [n, q]) (d + 1) D0 := by
    refine ⟨by rw [sD0, hrd], fun i q hi hq => ?_⟩
    have hil : i.length = I.length := hi.length_eq
    have hdep : DependsBelow (d + 1) (fun g : ℕ → List ℕ => ∑ b ∈ Finset.range (a.rank (d + 1)),
        lfac a i g (d + 1) b * D0.get [ravel (I.drop (d + 1) ++ c :: J.take d)
          (i.drop (d + 1) ++ q :: pre g d), (g d).getD 0 0, b]) := by
      intro g g' hg
      refine Finset.sum_congr rfl fun b _ => ?_
      have e1 : lfac a i g (d + 1) b = lfac a i g' (d + 1) b :=
        lprod_congr' fun j hj => by rw [hg j hj]
      have e2 : pre g d = pre g' d := by
        unfold pre; exact List.map_congr_left fun j hj => by rw [hg j (by simp at hj; omega)]
      rw [e1, e2, hg d (by omega)]
    have hJl' : d + 1 = J.length := by omega
    rw [hJl'] at hdep ⊢
    rw [msum_tensor J _ (fun _ _ => rfl) _ hdep, ← hJl', hrd]
    refine Finset.sum_congr rfl fun n hn => ?_
    have hn' : n < J.prod := by simpa using hn
    have hv := unravel_valid hn'
    have hvl := hv.length_eq
    have hvg := ((valid_iff_getD _ _).1 hv).2
    have hpre : pre (tIdx (unravel J n)) d ++ [(unravel J n).getD d 0] = unravel J n := by
      have := list_eq_range_map (unravel J n) 0
      rw [hvl, ← hJl', List.range_succ, List.map_append] at this
      exact this.symm
    have hpd : Valid (J.take d) (pre (tIdx (unravel J n)) d) :=
      pre_valid (by omega) (fun j hj => by
        have := hvg j (by omega)
        simpa [tIdx] using this)
    rw [Finset.sum_range_one]
    congr 1
    · rw [TT.entry, hd, lfac]
      exact lprod_congr' fun j hj => by funext x y; simp [TT.slice, mIdx, tIdx]
    · rw [vD0 _ [q, n] (by rw [sT]; exact ⟨hq, hn', trivial⟩), vT]
      rw [sT, List.drop_of_length_le (by omega), List.drop_of_length_le (by omega)]
      have hrav : ravel J (unravel J n) = n := ravel_unravel hn'
      rw [← hpre] at hrav
      conv at hrav => lhs; arg 1; rw [hJfull]
      rw [ravel_append _ _ hpd.length_eq] at hrav
      have hJp : J.prod = (J.take d).prod * J.getD d 0 := by
        conv_lhs => rw [hJfull]
        simp
      simp only [ravel_cons, ravel_nil, List.prod_cons, List.prod_nil, List.nil_append, mul_one,
        tIdx, List.getD_cons_zero] at hrav ⊢
      rw [hJp]
      linear_combination hrav
  obtain ⟨D1, eD1, sD1, vD1⟩ := denseLoop h hr hb hJ c _ (d + 1) (by omega) D0 hinv
  have hI0 : I = I.getD 0 0 :: I.drop 1 := by
    have := drop_getD I 0 (by omega)
    simpa using this
  obtain ⟨D2, eD2, sD2, vD2⟩ := reshape_spec D1 ([I.prod, c].map some) [I.prod, c] (by
    rw [resolveShape_some _ _ ?_]
    rw [sD1]
    conv_lhs => rw [hI0]
    simp only [List.prod_cons, List.prod_nil, List.prod_append]; ring)
  refine ⟨D2, ?_, sD2, ?_⟩
  · unfold ttDenseMatmul
    have hsh : a.getShape = Except.ok [I.prod, J.prod] := by
      rw [getShape_eq h, denseShape_eq, hr, bpre_none hb]; rfl
    have q0 : pyGet [I.prod, J.prod] 0 = Except.ok I.prod := rfl
    have q1 : pyGet [I.prod, J.prod] 1 = Except.ok J.prod := rfl
    have q2 : pyGet [I, J] 1 = Except.ok J := rfl
    have q3 : pyGet [J.prod, c] 0 = Except.ok J.prod := rfl
    have q4 : pyGet [J.prod, c] 1 = Except.ok c := rfl
    rw [hB] at eT
    simp only [require_pos (show a.batch = none ∧ a.isMatrix from ⟨hb, hm⟩), hsh, R.ok_bind,
      hB, hr, q0, q1, q2, q3, q4, require_pos, eT, hlast, eD0, hd, eD1]
    exact eD2
  · intro i q hi hq
    refine Eq.trans ?_ (vD1 i q hi hq).symm
    have hi0 : i = i.getD 0 0 :: i.drop 1 := by
      have := drop_getD i 0 (by rw [hi.length_eq]; omega)
      simpa using this
    have hdr := valid_drop hi 1
    have h0 := ((valid_iff_getD _ _).1 hi).2 0 (by omega)
    refine vD2 _ _ ?_ ?_
    · rw [sD1]
      exact ⟨h0, ravel_lt (valid_append hdr ⟨hq, trivial⟩), by omega, trivial⟩
    · rw [sD1]
      have e : ravel I i = i.getD 0 0 * (I.drop 1).prod + ravel (I.drop 1) (i.drop 1) := by
        conv_lhs => rw [hI0, hi0]
        rfl
      rw [e]
      simp only [ravel_cons, ravel_nil, List.prod_cons, List.prod_nil, List.prod_append]
      rw [ravel_append _ _ hdr.length_eq]
      simp only [ravel_cons, ravel_nil, List.prod_cons, List.prod_nil]
      ring

end T3f
