import Verif.Proofs.Batch
import Verif.Proofs.FullGet

/-!
# Transposition of TT-matrices
-/

namespace T3f

variable {K : Type} [CommRing K]

omit [CommRing K] in
theorem transpose4 {C : Tensor K} {r i j r' : ℕ} (h : C.shape = [r, i, j, r']) :
    ∃ T, transpose C [0, 2, 1, 3] = Except.ok T ∧ T.shape = [r, j, i, r'] ∧
      ∀ x u v y, T.get [x, v, u, y] = C.get [x, u, v, y] := by
  refine ⟨_, if_pos (by simp only [h, List.length_cons, List.length_nil]; decide), by simp [h], fun x u v y => ?_⟩
  simp [h, List.range_succ, List.idxOf_cons]

omit [CommRing K] in
theorem transpose5 {C : Tensor K} {n r i j r' : ℕ} (h : C.shape = [n, r, i, j, r']) :
    ∃ T, transpose C [0, 1, 3, 2, 4] = Except.ok T ∧ T.shape = [n, r, j, i, r'] ∧
      ∀ o x u v y, T.get [o, x, v, u, y] = C.get [o, x, u, v, y] := by
  refine ⟨_, if_pos (by simp only [h, List.length_cons, List.length_nil]; decide), by simp [h], fun o x u v y => ?_⟩
  simp [h, List.range_succ, List.idxOf_cons]

omit [CommRing K] in
theorem transpose2 {C : Tensor K} {m n : ℕ} (h : C.shape = [m, n]) :
    ∃ T, transpose C (List.range C.shape.length).reverse = Except.ok T ∧ T.shape = [n, m] ∧
      ∀ x y, T.get [y, x] = C.get [x, y] := by
  rw [h]
  refine ⟨_, if_pos (by simp only [h, List.length_cons, List.length_nil]; decide), by simp [h, List.range_succ], fun x y => ?_⟩
  simp [h, List.range_succ, List.idxOf_cons]

omit [CommRing K] in
theorem rowsOf_pair (I L : List ℕ) (d : ℕ) (hI : I.length = d) (hL : L.length = d) :
    rowsOf (fun k => [I.getD k 0, L.getD k 0]) d 2 = [I, L] := by
  have h1 := list_eq_range_map I 0
  have h2 := list_eq_range_map L 0
  rw [rowsOf]
  simp only [List.range_succ, List.range_zero, List.nil_append, List.map_cons,
    List.map_nil, List.cons_append]
  conv_rhs => rw [h1, h2, hI, hL]
  rfl

/-- What `transpose` guarantees on entries. -/
theorem ttTranspose_spec {t : TT K} (h : t.WF) {I J : List ℕ} (hr : t.rawShape = [I, J]) :
    ∃ c, ttTranspose t = Except.ok c ∧ c.WF ∧ c.rawShape = [J, I] ∧ c.batch = t.batch ∧
      c.ndims = t.ndims ∧ c.ttRanks = t.ttRanks ∧
      ∀ p i j, Valid t.bpre p → c.entry p (mIdx j i) = t.entry p (mIdx i j) := by
  have hm : t.isMatrix := by simp [TT.isMatrix, hr]
  have hI : I.length = t.ndims := h.rows_len I (by simp [hr])
  have hJ : J.length = t.ndims := h.rows_len J (by simp [hr])
  obtain ⟨cores, ec, lc, hch, hv⟩ := Chain.build (fun i => do
      let c ← pyGet t.cores i
      if t.isBatch then transpose c [0, 1, 3, 2, 4] else transpose c [0, 2, 1, 3]) t.ndims t.batch t.rank
    (fun k => [J.getD k 0, I.getD k 0]) 2
    (fun k C => ∀ p x u v y, Valid t.bpre p →
      C.get (p ++ x :: ([v, u] ++ [y])) = (t.core k).get (p ++ x :: ([u, v] ++ [y])))
    h.pos h.rank_first h.rank_last h.rank_pos (Or.inr rfl) (fun _ _ => rfl) h.batch_pos (by
      intro k hk
      have sC := h.core_shape k hk
      rw [show t.modes k = [I.getD k 0, J.getD k 0] by simp [TT.modes, hr]] at sC
      rw [h.pyCore hk, R.ok_bind]
      rcases hb : t.batch with _ | n
      · have hnb : t.isBatch = false := by simp [TT.isBatch, hb]
        rw [bpre_none hb] at sC
        obtain ⟨T, eT, sT, vT⟩ := transpose4 sC
        refine ⟨T, by simp [hnb, eT], sT, fun p x u v y hp => ?_⟩
        rw [bpre_none hb, valid_nil_iff] at hp
        subst hp
        exact vT x u v y
      · have hnb : t.isBatch = true := by simp [TT.isBatch, hb]
        rw [bpre_some hb] at sC
        obtain ⟨T, eT, sT, vT⟩ := transpose5 sC
        refine ⟨T, by simp [hnb, eT], sT, fun p x u v y hp => ?_⟩
        rw [bpre_some hb] at hp
        obtain ⟨o, rfl, ho⟩ := (valid_singleton _ _).1 hp
        exact vT o x u v y)
  have hrows := rowsOf_pair J I cores.length (by omega) (by omega)
  have hmk := mkLike_ok hch [J, I] hrows.symm t.ttRanks (by rw [lc]; exact h.ranks_eq)
  refine ⟨_, ?_, hch.wf, hrows, rfl, lc, ?_, ?_⟩
  · unfold ttTranspose
    simp only [require_pos hm, R.ok_bind]
    rw [ec, R.ok_bind, hr]
    exact hmk
  · change ranksOf _ _ = _
    rw [lc]; exact h.ranks_eq.symm
  · intro p i j hp
    rw [hch.entry_eq, lc, TT.entry]
    refine lprod_congr' fun k hk => ?_
    funext x y
    exact hv k hk p x (i.getD k 0) (j.getD k 0) y hp

end T3f
