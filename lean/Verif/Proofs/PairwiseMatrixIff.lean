import Verif.Proofs.BilinearIff
import Verif.Proofs.RoundLast

/-! # When the pairwise inner products with a matrix succeed -/

namespace T3f

variable {K : Type} [CommRing K]

theorem length_five {l : List ℕ} (h : l.length = 5) : ∃ a b c d e, l = [a, b, c, d, e] := by
  match l, h with
  | [a, b, c, d, e], _ => exact ⟨a, b, c, d, e, rfl⟩

theorem length_four {l : List ℕ} (h : l.length = 4) : ∃ a b c d, l = [a, b, c, d] := by
  match l, h with
  | [a, b, c, d], _ => exact ⟨a, b, c, d, rfl⟩

omit [CommRing K] in
theorem pairMatFirst_inv {A M B : Tensor K} (h : EinOk (ein! "pakib,cijd,qekjf->pqbdf") [A, M, B]) :
    M.shape.length = 4 ∧ A.shape.getD 3 0 = M.shape.getD 1 0 ∧ B.shape.getD 3 0 = M.shape.getD 2 0 := by
  obtain ⟨h1, h2, -⟩ := h
  simp only [List.map_cons, List.map_nil, List.cons.injEq] at h1
  obtain ⟨hA, hM, hB, -⟩ := h1
  obtain ⟨_, _, _, _, _, hA⟩ := length_five hA.symm
  obtain ⟨_, _, _, _, hM⟩ := length_four hM.symm
  obtain ⟨_, _, _, _, _, hB⟩ := length_five hB.symm
  simp [einDims, List.lookup, hA, hM, hB] at h2
  simp [hA, hM, hB]
  omega

omit [CommRing K] in
theorem pairMatStep_inv {Q A M B : Tensor K} (h : EinOk (ein! "pqace,pakib,cijd,qekjf->pqbdf") [Q, A, M, B]) :
    A.shape.getD 3 0 = M.shape.getD 1 0 ∧ B.shape.getD 3 0 = M.shape.getD 2 0 := by
  obtain ⟨h1, h2, -⟩ := h
  simp only [List.map_cons, List.map_nil, List.cons.injEq] at h1
  obtain ⟨hQ, hA, hM, hB, -⟩ := h1
  obtain ⟨_, _, _, _, _, hQ⟩ := length_five hQ.symm
  obtain ⟨_, _, _, _, _, hA⟩ := length_five hA.symm
  obtain ⟨_, _, _, _, hM⟩ := length_four hM.symm
  obtain ⟨_, _, _, _, _, hB⟩ := length_five hB.symm
  simp [einDims, List.lookup, hQ, hA, hM, hB] at h2
  simp [hA, hM, hB]
  omega

/-- What is known about the arguments after the transpositions. -/
theorem rowVector_inv {t c : TT K} (h : t.WF) {I C : List ℕ} (hr : t.rawShape = [I, C]) (e : rowVector t = Except.ok c) :
    (∃ m, t.batch = some m) ∧ (C.prod = 1 ∨ c = t) := by
  unfold rowVector at e
  have hsh : t.getShape = Except.ok (t.bpre ++ [I.prod, C.prod]) := by rw [getShape_eq h, denseShape_eq, hr]; rfl
  rw [hsh, R.ok_bind] at e
  cases hb : t.batch with
  | none =>
    rw [TT.bpre, hb] at e
    cases e
  | some m =>
    refine ⟨⟨m, rfl⟩, ?_⟩
    rw [TT.bpre, hb] at e
    change ((Except.ok C.prod : R ℕ) >>= _) = _ at e
    rw [R.ok_bind] at e
    split_ifs at e with h1
    · exact Or.inl h1
    · exact Or.inr (Except.ok.inj e).symm

theorem prod_eq_one_of_getD {I C : List ℕ} (hl : C.length = I.length) (hI : I.prod = 1) (h : ∀ k < I.length, C.getD k 0 = I.getD k 0) : C.prod = 1 := by
  rw [← hI]
  congr 1
  refine List.ext_getElem hl fun k h1 h2 => ?_
  have := h k h2
  rwa [List.getD_eq_getElem _ _ h1, List.getD_eq_getElem _ _ h2] at this

theorem pairwiseFlatInnerMatrix_inv {a b M : TT K} (ha : a.WF) (hb : b.WF) (hM : M.WF) {I C J D I' J' : List ℕ} (ra : a.rawShape = [I, C])
    (rb : b.rawShape = [J, D]) (rM : M.rawShape = [I', J']) {F : Tensor K} (h : pairwiseFlatInnerMatrix a b M = Except.ok F) :
    (∃ m, a.batch = some m) ∧ (∃ n, b.batch = some n) ∧ M.batch = none ∧ I = I' ∧ J = J' ∧ C.prod = 1 ∧ D.prod = 1 := by
  have hI : I.length = a.ndims := ha.rows_len I (by simp [ra])
  have hC : C.length = a.ndims := ha.rows_len C (by simp [ra])
  have hJ : J.length = b.ndims := hb.rows_len J (by simp [rb])
  have hD : D.length = b.ndims := hb.rows_len D (by simp [rb])
  have hI' : I'.length = M.ndims := hM.rows_len I' (by simp [rM])
  have hJ' : J'.length = M.ndims := hM.rows_len J' (by simp [rM])
  unfold pairwiseFlatInnerMatrix at h
  rw [require_pos ⟨by simp [TT.isMatrix, ra], by simp [TT.isMatrix, rb], by simp [TT.isMatrix, rM]⟩, ra, rb, rM] at h
  simp only [show ∀ x y : List ℕ, pyGet [x, y] 0 = Except.ok x from fun _ _ => rfl,
    show ∀ x y : List ℕ, pyGet [x, y] 1 = Except.ok y from fun _ _ => rfl, R.ok_bind] at h
  by_cases e1 : I = I'
  swap
  · rw [require_neg e1] at h; cases h
  rw [require_pos e1, R.ok_bind] at h
  by_cases e2 : J = J'
  swap
  · rw [require_neg e2] at h; cases h
  rw [require_pos e2, R.ok_bind] at h
  subst e1 e2
  obtain ⟨a', ea, h⟩ := bind_ok_iff.1 h
  obtain ⟨b', eb, h⟩ := bind_ok_iff.1 h
  obtain ⟨⟨m, hm⟩, ca⟩ := rowVector_inv ha ra ea
  obtain ⟨⟨n, hn⟩, cb⟩ := rowVector_inv hb rb eb
  obtain ⟨sa, esa, h⟩ := bind_ok_iff.1 h
  obtain ⟨sa1, esa1, h⟩ := bind_ok_iff.1 h
  obtain ⟨_, q1, h⟩ := bind_ok_iff.1 h
  obtain ⟨sb, esb, h⟩ := bind_ok_iff.1 h
  obtain ⟨sb1, esb1, h⟩ := bind_ok_iff.1 h
  obtain ⟨_, q2, h⟩ := bind_ok_iff.1 h
  have hsa : sa1 = 1 := by
    by_contra hne
    rw [require, if_neg hne] at q1
    cases q1
  have hsb : sb1 = 1 := by
    by_contra hne
    rw [require, if_neg hne] at q2
    cases q2
  obtain ⟨a0, ea0, h⟩ := bind_ok_iff.1 h
  obtain ⟨b0, eb0, h⟩ := bind_ok_iff.1 h
  obtain ⟨M0, eM0, h⟩ := bind_ok_iff.1 h
  obtain ⟨R0, eR0, h⟩ := bind_ok_iff.1 h
  obtain ⟨R1, eR1, -⟩ := bind_ok_iff.1 h
  obtain ⟨v, -, hv⟩ := forRange_steps eR1
  rw [hM.pyCore hM.pos] at eM0
  cases eM0
  have sM : ∀ k < M.ndims, (M.core k).shape = M.batch.toList ++ [M.rank k, I.getD k 0, J.getD k 0, M.rank (k + 1)] := by
    intro k hk; rw [hM.core_shape k hk]; simp [TT.modes, rM, TT.bpre]
  have sA : ∀ k < a.ndims, (a.core k).shape = [m, a.rank k, I.getD k 0, C.getD k 0, a.rank (k + 1)] := by
    intro k hk; rw [ha.core_shape k hk, bpre_some hm]; simp [TT.modes, ra]
  have sB : ∀ k < b.ndims, (b.core k).shape = [n, b.rank k, J.getD k 0, D.getD k 0, b.rank (k + 1)] := by
    intro k hk; rw [hb.core_shape k hk, bpre_some hn]; simp [TT.modes, rb]
  have f0 := pairMatFirst_inv (einOk_of_ok eR0)
  have bM : M.batch = none := by
    have := f0.1
    rw [sM 0 hM.pos] at this
    cases hbM : M.batch with
    | none => rfl
    | some q => simp [hbM] at this
  have steps : ∀ k < a.ndims, ∃ ac bc, pyGet a'.cores k = Except.ok ac ∧ pyGet b'.cores k = Except.ok bc ∧
      ac.shape.getD 3 0 = I.getD k 0 ∧ bc.shape.getD 3 0 = J.getD k 0 := by
    intro k hk
    have hkM : k < M.ndims := by omega
    rcases Nat.eq_zero_or_pos k with rfl | h0
    · refine ⟨a0, b0, ea0, eb0, ?_⟩
      rw [f0.2.1, f0.2.2, sM 0 hkM, bM]
      exact ⟨rfl, rfl⟩
    · have hs := hv k h0 (by omega)
      obtain ⟨ac, e1, hs⟩ := bind_ok_iff.1 hs
      obtain ⟨bc, e2, hs⟩ := bind_ok_iff.1 hs
      rw [hM.pyCore hkM, R.ok_bind] at hs
      refine ⟨ac, bc, e1, e2, ?_⟩
      obtain ⟨g1, g2⟩ := pairMatStep_inv (einOk_of_ok hs)
      rw [g1, g2, sM k hkM, bM]
      exact ⟨rfl, rfl⟩
  refine ⟨⟨m, hm⟩, ⟨n, hn⟩, bM, rfl, rfl, ?_, ?_⟩
  · rcases ca with ca | rfl
    · exact ca
    · have hI1 : I.prod = 1 := by
        rw [getShape_eq ha, denseShape_eq, ra, bpre_some hm] at esa
        cases esa
        rw [← hsa]
        exact Except.ok.inj esa1
      refine prod_eq_one_of_getD (by omega) hI1 fun k hk => ?_
      obtain ⟨ac, bc, e1, -, g, -⟩ := steps k (by omega)
      rw [ha.pyCore (by omega)] at e1
      cases e1
      rw [← g, sA k (by omega)]
      rfl
  · rcases cb with cb | rfl
    · exact cb
    · have hJ1 : J.prod = 1 := by
        rw [getShape_eq hb, denseShape_eq, rb, bpre_some hn] at esb
        cases esb
        rw [← hsb]
        exact Except.ok.inj esb1
      refine prod_eq_one_of_getD (by omega) hJ1 fun k hk => ?_
      obtain ⟨ac, bc, -, e1, -, g⟩ := steps k (by omega)
      rw [hb.pyCore (by omega)] at e1
      cases e1
      rw [← g, sB k (by omega)]
      rfl

end T3f
