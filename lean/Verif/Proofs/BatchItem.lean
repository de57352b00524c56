import Verif.Proofs.GetItem
import Verif.Proofs.ChainEntry
import Verif.Model.Indexing

/-!
# Subscripting the batch dimension
-/

namespace T3f

variable {K : Type} [CommRing K]

omit [CommRing K] in
theorem mkTT_eq_mkLike (cores : List (Tensor K)) (rows : List (List ℕ)) (rk : List ℕ) :
    mkTT cores (.shapes rows) (some rk) = mkLike none cores rows rk := rfl

theorem batchDimGetItem_spec {t : TT K} (h : t.WF) (n : ℕ) (hb : t.batch = some n) (ix : Ix) (x : Sel)
    (hx : resolve1 n ix = Except.ok x) (hne : selShape [x] ≠ [0]) :
    ∃ T, batchDimGetItem t ix = Except.ok T ∧ T.WF ∧ T.rawShape = t.rawShape ∧ T.ttRanks = t.ttRanks ∧
      T.ndims = t.ndims ∧ T.bpre = selShape [x] ∧ (T.batch = none ↔ doCollapseDim ix) ∧
      ∀ p m, Valid T.bpre p → T.ValidModes m T.ndims → T.entry p m = t.entry (selIdx [x] p) m := by
  obtain ⟨bs, hbs⟩ : ∃ bs : Option ℕ, selShape [x] = bs.toList := by
    cases x with
    | one p => exact ⟨none, rfl⟩
    | many ps => exact ⟨some ps.length, rfl⟩
  have hML : ∀ k, (t.modes k).length = t.rawShape.length := fun k => by simp [TT.modes]
  have hd := h.pos
  have hxc : doCollapseDim ix = true ↔ bs = none := by
    cases ix with
    | all => simp [resolve1] at hx; subst hx; cases bs <;> simp [selShape, doCollapseDim] at hbs ⊢
    | int i =>
      simp only [resolve1] at hx
      cases hi : intPosition n i <;> simp [hi] at hx
      subst hx; cases bs <;> simp [selShape, doCollapseDim] at hbs ⊢
    | slice a b c =>
      simp only [resolve1] at hx
      split_ifs at hx
      simp at hx; subst hx; cases bs <;> simp [selShape, doCollapseDim] at hbs ⊢
  obtain ⟨cores, ec, lc, hch, hv⟩ := Chain.build (fun i => do
      let core ← pyGet t.cores i
      if t.isMatrix then getItem core [ix, .all, .all, .all, .all]
      else getItem core [ix, .all, .all, .all]) t.ndims bs t.rank t.modes t.rawShape.length
    (fun k C => ∀ q idx, Valid bs.toList q → Valid (t.rank k :: (t.modes k ++ [t.rank (k + 1)])) idx →
      C.get (q ++ idx) = (t.core k).get (selIdx [x] q ++ idx)) hd h.rank_first h.rank_last h.rank_pos
    h.rows (fun k _ => hML k) (by rintro rfl; exact hne hbs)
    (by
      intro k hk
      have hs := h.core_shape k hk
      rw [TT.bpre, hb] at hs
      obtain ⟨T, eT, sT, vT⟩ := getItem_first (t.core k) n
        (t.rank k :: (t.modes k ++ [t.rank (k + 1)])) hs ix x hx (t.rawShape.length + 1 + 1)
        (by simp [hML])
      rw [hbs] at sT vT
      refine ⟨T, ?_, sT, vT⟩
      rw [h.pyCore hk, R.ok_bind, ← eT]
      by_cases hm : t.isMatrix
      · rw [if_pos hm, show t.rawShape.length = 2 from hm]; rfl
      · rw [if_neg hm, h.rows.resolve_right hm]; rfl)
  have hmk := mkLike_ok hch t.rawShape (by rw [lc]; exact h.rows_eq) t.ttRanks
    (by rw [lc]; exact h.ranks_eq)
  refine ⟨_, ?_, hch.wf, ?_, ?_, lc, by simp [chainTT, TT.bpre, hbs], by rw [hxc]; rfl, ?_⟩
  · unfold batchDimGetItem
    rw [ec, R.ok_bind]
    cases hb0 : bs with
    | none =>
      rw [hb0] at hmk
      rw [if_pos (hxc.2 hb0)]
      exact hmk
    | some c =>
      rw [if_neg (fun h' => by rw [hxc.1 h'] at hb0; cases hb0)]
      rw [pyGet_of_lt cores 0 default (by omega), R.ok_bind, hch.shape 0 (by omega), hb0]
      rw [hb0] at hmk
      exact hmk
  · change rowsOf _ _ _ = _
    rw [lc]; exact h.rows_eq.symm
  · change ranksOf _ _ = _
    rw [lc]; exact h.ranks_eq.symm
  · intro p m hp hm
    rw [hch.entry_eq, lc, TT.entry]
    refine lprod_congr (fun _ _ => rfl) (fun j hj a b ha hb => ?_) (by rw [h.rank_last]; omega)
    exact hv j hj p _ hp (valid_core ha (hch.validModes hm (by omega)) hb)

theorem squeezeBatchDim_spec {t : TT K} (h : t.WF) :
    ∃ T, squeezeBatchDim t = Except.ok T ∧ T.WF ∧ T.rawShape = t.rawShape ∧ T.ttRanks = t.ttRanks ∧
      T.ndims = t.ndims ∧ T.batch = (if t.batch = some 1 then none else t.batch) ∧
      ∀ q m, Valid t.bpre (bproj t.bpre q) → T.ValidModes m T.ndims →
        T.entry (bproj T.bpre q) m = t.entry (bproj t.bpre q) m := by
  unfold squeezeBatchDim
  by_cases hb : t.batch = some 1
  · obtain ⟨T, eT, wT, rT, kT, nT, bT, cT, vT⟩ := batchDimGetItem_spec h 1 hb (.int 0) (.one 0) rfl
      (by simp [selShape])
    have hbT : T.batch = none := cT.2 rfl
    have hp : T.bpre = [] := by simp [TT.bpre, hbT]
    refine ⟨T, by rw [if_pos hb]; exact eT, wT, rT, kT, nT, by rw [if_pos hb]; exact hbT, ?_⟩
    intro q m hq hm
    have hpt : t.bpre = [1] := by simp [TT.bpre, hb]
    rw [hpt] at hq ⊢
    obtain ⟨o, ho, ho1⟩ := (valid_singleton _ _).1 hq
    rw [show bproj T.bpre q = [] by rw [hp]; rfl, vT [] m (by rw [hp]; trivial) hm, ho,
      show o = 0 by omega]
    rfl
  · exact ⟨t, by rw [if_neg hb]; rfl, h, rfl, rfl, rfl, by rw [if_neg hb], fun _ _ _ _ => rfl⟩

end T3f
