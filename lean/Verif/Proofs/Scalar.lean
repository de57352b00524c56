import Verif.Proofs.Multiply
import Verif.Proofs.Add

/-!
# Multiplication by a number, negation, subtraction
-/

namespace T3f

variable {K : Type}

/-- Scaling the factors of a chain. -/
theorem lprod_scale [CommRing K] (r : ℕ → ℕ) (s : ℕ → K) (A : ℕ → ℕ → ℕ → K) (k b : ℕ) :
    lprod r (fun j x y => s j * A j x y) k b = (∏ j ∈ Finset.range k, s j) * lprod r A k b := by
  induction k generalizing b with
  | zero => simp [lprod]
  | succ k ih =>
    simp only [lprod, ih, Finset.prod_range_succ, Finset.mul_sum]
    exact Finset.sum_congr rfl fun a _ => by ring

/-- Rescaling all cores (by factors `s k`) keeps a chain and scales the entries. -/
theorem scale_cores [CommRing K] {a : TT K} (ha : a.WF) (cores : List (Tensor K)) (s : ℕ → K)
    (hl : cores.length = a.ndims)
    (hs : ∀ k < a.ndims, cores.getD k default = (a.core k).map (s k * ·)) :
    Chain a.batch cores a.rank a.modes a.rawShape.length ∧
      ∀ p m, (chainTT a.batch cores a.rank a.modes a.rawShape.length).entry p m =
        (∏ j ∈ Finset.range a.ndims, s j) * a.entry p m := by
  have hch : Chain a.batch cores a.rank a.modes a.rawShape.length := by
    have h := ha.chain
    refine ⟨hl ▸ ha.pos, h.r0, hl ▸ ha.rank_last, hl ▸ ha.rank_pos, h.nm12, fun k _ => by simp [TT.modes],
      fun k hk => ?_, h.bpos⟩
    rw [hs k (hl ▸ hk)]
    exact ha.core_shape k (hl ▸ hk)
  refine ⟨hch, fun p m => ?_⟩
  rw [hch.entry_eq, hl, TT.entry, ← lprod_scale]
  refine lprod_congr' fun j hj => ?_
  funext x y
  rw [hs j hj]
  rfl

/-- What `multiply(a, c)` guarantees. -/
theorem multiplyScalar_spec {a : TT ℝ} (ha : a.WF) (c : ℝ) :
    ∃ t, multiplyScalar a c = Except.ok t ∧ t.WF ∧ t.rawShape = a.rawShape ∧ t.batch = a.batch ∧
      t.ttRanks = a.ttRanks ∧ t.ndims = a.ndims ∧ ∀ p m, t.entry p m = c * a.entry p m := by
  have hpos := ha.pos
  set fact : ℝ := |c| ^ (1 / (a.ndims : ℝ)) with hf
  have hne : (a.cores.map (smul fact)) ≠ [] := by
    intro h; simp at h; rw [TT.ndims, h] at hpos; simp at hpos
  set cs := (a.cores.map (smul fact)).set 0 (((a.cores.map (smul fact)).getD 0 default).map (· * SignType.sign c))
    with hcs
  obtain ⟨hch, hent⟩ := scale_cores ha cs (fun k => if k = 0 then fact * SignType.sign c else fact)
    (by simp [hcs, TT.ndims]) (by
      intro k hk
      have hk' : k < a.cores.length := hk
      by_cases h0 : k = 0
      · subst h0
        rw [hcs, List.getD_eq_getElem _ _ (by simpa using hk'), List.getElem_set_self,
          List.getD_eq_getElem _ _ (by simpa using hk'), List.getElem_map, TT.core,
          List.getD_eq_getElem _ _ hk']
        simp only [smul, Tensor.map, if_true]
        congr 1
        funext idx
        ring
      · rw [hcs, List.getD_eq_getElem _ _ (by simpa using hk'),
          List.getElem_set_ne (by omega), List.getElem_map, TT.core, List.getD_eq_getElem _ _ hk']
        simp [smul, h0])
  have hlen : cs.length = a.ndims := by simp [hcs, TT.ndims]
  have hmk := mkLike_ok hch a.rawShape (by rw [hlen]; exact ha.rows_eq) a.ttRanks
    (by rw [hlen]; exact ha.ranks_eq)
  refine ⟨_, ?_, hch.wf, ?_, rfl, ?_, hlen, fun p m => ?_⟩
  · have hp : pyGet (a.cores.map (smul fact)) 0 = Except.ok ((a.cores.map (smul fact)).getD 0 default) :=
      pyGet_of_lt _ _ _ (by simpa [TT.ndims] using hpos)
    unfold multiplyScalar
    simp only [← hf, hp, R.ok_bind]
    exact hmk
  · change rowsOf _ _ _ = _
    rw [hlen]; exact ha.rows_eq.symm
  · change ranksOf _ _ = _
    rw [hlen]; exact ha.ranks_eq.symm
  · rw [hent]
    congr 1
    obtain ⟨e, he⟩ : ∃ e, a.ndims = e + 1 := ⟨a.ndims - 1, by omega⟩
    rw [he, Finset.prod_range_succ']
    simp only [Nat.add_eq_zero_iff, one_ne_zero, and_false, if_false, if_true, Finset.prod_const,
      Finset.card_range]
    rw [← mul_assoc, ← pow_succ, ← he, hf, one_div, Real.rpow_inv_natCast_pow (abs_nonneg c) (by omega)]
    rw [mul_comm]; exact sign_mul_abs c

end T3f
