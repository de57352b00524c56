import Verif.Model.Gather
import Verif.Spec.Norm
import Verif.Proofs.Scalar
import Verif.Proofs.FullGet

/-!
# `cast` and `renormalize_tt_cores`
-/

namespace T3f

variable {K : Type} [CommRing K]

theorem lprod_hom {L : Type} [CommRing L] (f : K →+* L) (r : ℕ → ℕ) (A : ℕ → ℕ → ℕ → K) (k b : ℕ) :
    lprod r (fun j x y => f (A j x y)) k b = f (lprod r A k b) := by
  induction k generalizing b with
  | zero => simp only [lprod]; split_ifs <;> simp
  | succ k ih => simp only [lprod, ih, map_sum, map_mul]

theorem ttCast_spec {L : Type} [CommRing L] (f : K →+* L) {t : TT K} (h : t.WF) :
    ∃ c, ttCast f t = Except.ok c ∧ c.WF ∧ c.rawShape = t.rawShape ∧ c.batch = t.batch ∧
      c.ttRanks = t.ttRanks ∧ ∀ p m, c.entry p m = f (t.entry p m) := by
  obtain ⟨cores, ec, lc, hch, hv⟩ := Chain.build (fun i => do
      let c ← pyGet t.cores i
      pure (c.map f)) t.ndims t.batch t.rank t.modes t.rawShape.length
    (fun k C => C = (t.core k).map f)
    h.pos h.rank_first h.rank_last h.rank_pos h.rows (fun k _ => by simp [TT.modes]) h.batch_pos (by
      intro k hk
      refine ⟨(t.core k).map f, by simp [h.pyCore hk], ?_, rfl⟩
      exact h.core_shape k hk)
  refine ⟨chainTT t.batch cores t.rank t.modes t.rawShape.length, ?_, hch.wf, ?_, rfl, ?_, ?_⟩
  · unfold ttCast
    rw [ec, R.ok_bind, mkLike_ok hch _ (by rw [lc, ← h.rows_eq]) _ (by rw [lc, ← h.ranks_eq])]
  · change rowsOf _ _ _ = _
    rw [lc, ← h.rows_eq]
  · change ranksOf _ _ = _
    rw [lc, ← h.ranks_eq]
  · intro p m
    rw [hch.entry_eq, lc, TT.entry, ← lprod_hom]
    refine lprod_congr' fun j hj => ?_
    funext a b
    rw [hv j hj]
    rfl

/-- Cores that are multiples (depending on the batch element) of the cores of `t`. -/
theorem scaled_chain {t : TT K} (h : t.WF) (f : ℕ → R (Tensor K)) (σ : ℕ → List ℕ → K)
    (hf : ∀ k < t.ndims, ∃ C, f k = Except.ok C ∧ C.shape = (t.core k).shape ∧
      ∀ p i, Valid t.bpre p → Valid (t.coreShape k) i → C.get (p ++ i) = σ k p * (t.core k).get (p ++ i)) :
    ∃ cores, mapRange t.ndims f = Except.ok cores ∧
      Chain t.batch cores t.rank t.modes t.rawShape.length ∧
      (chainTT t.batch cores t.rank t.modes t.rawShape.length).rawShape = t.rawShape ∧
      (chainTT t.batch cores t.rank t.modes t.rawShape.length).ttRanks = t.ttRanks ∧
      (∀ p m, Valid t.bpre p → t.ValidModes m t.ndims →
        (chainTT t.batch cores t.rank t.modes t.rawShape.length).entry p m =
          (∏ k ∈ Finset.range t.ndims, σ k p) * t.entry p m) ∧
      ∀ p k, Valid t.bpre p → k < t.ndims →
        (chainTT t.batch cores t.rank t.modes t.rawShape.length).coreNormSq p k = σ k p ^ 2 * t.coreNormSq p k := by
  obtain ⟨cores, ec, lc, hch, hv⟩ := Chain.build f t.ndims t.batch t.rank t.modes t.rawShape.length
    (fun k C => ∀ p i, Valid t.bpre p → Valid (t.coreShape k) i → C.get (p ++ i) = σ k p * (t.core k).get (p ++ i))
    h.pos h.rank_first h.rank_last h.rank_pos h.rows (fun k _ => by simp [TT.modes]) h.batch_pos (by
      intro k hk
      obtain ⟨C, e, s, v⟩ := hf k hk
      exact ⟨C, e, by rw [s]; exact h.core_shape k hk, v⟩)
  refine ⟨cores, ec, hch, ?_, ?_, ?_, ?_⟩
  · change rowsOf _ _ _ = _
    rw [lc, ← h.rows_eq]
  · change ranksOf _ _ = _
    rw [lc, ← h.ranks_eq]
  · intro p m hp hm
    rw [hch.entry_eq, lc, TT.entry, ← lprod_scale]
    refine lprod_congr (fun _ _ => rfl) (fun j hj a b ha hb => ?_) (by rw [h.rank_last]; omega)
    rw [hv j hj p (a :: (m j ++ [b])) hp (valid_core ha (hm j hj) hb)]
    rfl
  · intro p k hp hk
    have e1 : (chainTT t.batch cores t.rank t.modes t.rawShape.length).coreShape k = t.coreShape k := by
      unfold TT.coreShape
      rw [chainTT_rank k (by omega), chainTT_rank (k + 1) (by omega), hch.modes_eq k (by omega)]
    unfold TT.coreNormSq
    rw [e1, Finset.mul_sum]
    refine Finset.sum_congr rfl fun x hx => ?_
    have := hv k hk p _ hp (unravel_valid (Finset.mem_range.1 hx))
    change (cores.getD k default).get _ ^ 2 = _
    rw [this, mul_pow]

theorem list_sum_range (f : ℕ → K) (n : ℕ) : ((List.range n).map f).sum = ∑ k ∈ Finset.range n, f k := by
  induction n with
  | zero => simp
  | succ n ih => rw [List.range_succ, List.map_append, List.sum_append, ih, Finset.sum_range_succ]; simp

section real

/-- Product of the factors used by `renormalize_tt_cores`. -/
theorem renorm_prod (n : ℕ → ℝ) (d : ℕ) (hd : 0 < d) (hn : ∀ k, 0 < n k) :
    ∏ k ∈ Finset.range d, Real.exp ((∑ k ∈ Finset.range d, Real.log (n k)) / d) / n k = 1 := by
  rw [Finset.prod_div_distrib, Finset.prod_const, Finset.card_range, ← Real.exp_nat_mul, mul_div_cancel₀ _ (by
    exact_mod_cast hd.ne'), Real.exp_sum]
  simp only [Real.exp_log (hn _)]
  exact div_self (Finset.prod_ne_zero_iff.2 fun k _ => (hn k).ne')

/-- What both versions of `renormalize_tt_cores` guarantee. -/
def RenormOk (t : TT ℝ) (eps : ℝ) (c : TT ℝ) : Prop :=
  c.WF ∧ c.rawShape = t.rawShape ∧ c.batch = t.batch ∧ c.ttRanks = t.ttRanks ∧
    (∀ p m, Valid t.bpre p → t.ValidModes m t.ndims → c.entry p m = t.entry p m) ∧
    ∀ p, Valid t.bpre p → ∃ F > 0, ∀ k < t.ndims,
      c.coreNormSq p k = F * (t.coreNormSq p k / max eps (t.coreNormSq p k))

theorem renormalize_finish {t : TT ℝ} (h : t.WF) {eps : ℝ} (heps : 0 < eps) (f : ℕ → R (Tensor ℝ))
    (nrm : ℕ → List ℕ → ℝ) (hnrm : ∀ k p, k < t.ndims → nrm k p = Real.sqrt (max eps (t.coreNormSq p k)))
    (hf : ∀ k < t.ndims, ∃ C, f k = Except.ok C ∧ C.shape = (t.core k).shape ∧
      ∀ p i, Valid t.bpre p → Valid (t.coreShape k) i → C.get (p ++ i) =
        Real.exp ((∑ k ∈ Finset.range t.ndims, Real.log (nrm k p)) / t.ndims) / nrm k p * (t.core k).get (p ++ i)) :
    ∃ cores, mapRange t.ndims f = Except.ok cores ∧
      Chain t.batch cores t.rank t.modes t.rawShape.length ∧
      RenormOk t eps (chainTT t.batch cores t.rank t.modes t.rawShape.length) := by
  obtain ⟨cores, ec, hch, h1, h2, h3, h4⟩ := scaled_chain h f _ hf
  refine ⟨cores, ec, hch, hch.wf, h1, rfl, h2, ?_, ?_⟩
  · intro p m hp hm
    rw [h3 p m hp hm]
    have := renorm_prod (fun k => if k < t.ndims then nrm k p else 1) t.ndims h.pos (fun k => by
      split_ifs with hk
      · rw [hnrm k p hk]; exact Real.sqrt_pos.2 (lt_max_of_lt_left heps)
      · exact one_pos)
    have e : ∀ k ∈ Finset.range t.ndims, (if k < t.ndims then nrm k p else 1) = nrm k p := fun k hk =>
      if_pos (Finset.mem_range.1 hk)
    rw [Finset.sum_congr rfl (fun k hk => by rw [e k hk])] at this
    rw [Finset.prod_congr rfl (fun k hk => by rw [e k hk])] at this
    rw [this, one_mul]
  · intro p hp
    refine ⟨Real.exp ((∑ k ∈ Finset.range t.ndims, Real.log (nrm k p)) / t.ndims) ^ 2, by positivity, fun k hk => ?_⟩
    rw [h4 p k hp hk, div_pow, hnrm k p hk, Real.sq_sqrt (le_max_of_le_left heps.le)]
    ring

theorem coreNormSq_none {t : TT ℝ} (h : t.WF) (hb : t.batch = none) {k : ℕ} (hk : k < t.ndims) :
    reduceSum ((t.core k).map (· ^ 2)) = t.coreNormSq [] k := by
  have hs := h.core_shape k hk
  rw [bpre_none hb, List.nil_append] at hs
  unfold reduceSum TT.coreNormSq TT.coreShape Tensor.map
  simp only [hs, List.nil_append]

theorem renormalizeTT_spec {t : TT ℝ} (h : t.WF) (hb : t.batch = none) {eps : ℝ} (heps : 0 < eps) :
    ∃ c, renormalizeTT t eps = Except.ok c ∧ RenormOk t eps c := by
  set nrm : ℕ → List ℕ → ℝ := fun k p => Real.sqrt (max eps (t.coreNormSq p k)) with hn
  set norms := t.cores.map fun c => Real.sqrt (max (reduceSum (c.map (· ^ 2))) eps) with hno
  have hl : norms.length = t.ndims := by simp [hno, TT.ndims]
  have hg : ∀ k < t.ndims, norms.getD k 0 = nrm k [] := by
    intro k hk
    rw [hn]
    simp only
    rw [← coreNormSq_none h hb hk, max_comm, List.getD_eq_getElem _ _ (by omega)]
    simp only [hno, List.getElem_map]
    rw [TT.core, List.getD_eq_getElem _ _ hk]
    rfl
  have hsum : (norms.map Real.log).sum = ∑ k ∈ Finset.range t.ndims, Real.log (nrm k []) := by
    rw [list_eq_range_map norms 0, List.map_map, hl, list_sum_range]
    exact Finset.sum_congr rfl fun k hk => by rw [← hg k (Finset.mem_range.1 hk)]; rfl
  obtain ⟨cores, ec, hch, hok⟩ := renormalize_finish h heps (fun i => do
      let c ← pyGet t.cores i
      let n ← pyGet norms i
      pure (c.map fun x => x * Real.exp ((norms.map Real.log).sum / (t.ndims : ℝ)) / n)) nrm (fun _ _ _ => rfl) (by
    intro k hk
    refine ⟨(t.core k).map fun x => x * Real.exp ((norms.map Real.log).sum / (t.ndims : ℝ)) / norms.getD k 0,
      by rw [h.pyCore hk, R.ok_bind, pyGet_of_lt norms k 0 (by omega), R.ok_bind]; rfl, rfl, ?_⟩
    intro p i hp hi
    rw [bpre_none hb, valid_nil_iff] at hp
    subst hp
    change _ * _ / _ = _
    rw [hg k hk, hsum]
    ring)
  refine ⟨_, ?_, hok⟩
  unfold renormalizeTT
  simp only [← hno]
  rw [ec, R.ok_bind, hb]
  exact mkTT_ok (hb ▸ hch) .omitted (Or.inl rfl) none (Or.inl rfl)

theorem bshape_keep (s : List ℕ) (n : ℕ) :
    bshape (s ++ [n]) (List.replicate s.length 1 ++ [n]) = some (s ++ [n]) := by
  induction s with
  | nil => simp [bshape]
  | cons x s ih =>
    simp only [List.cons_append, List.length_cons, List.replicate_succ, bshape, ih]
    split_ifs <;> simp_all

theorem bproj_keep {n o : ℕ} (ho : o < n) {s i : List ℕ} (hi : i.length = s.length) :
    bproj (n :: List.replicate s.length 1) (o :: i) = o :: List.replicate s.length 0 := by
  have hz : ∀ (l : List ℕ) (m : ℕ), l.length = m →
      List.zipWith (fun n i => if n = 1 then 0 else i) (List.replicate m 1) l = List.replicate m 0 := by
    intro l
    induction l with
    | nil => intro m hm; subst hm; rfl
    | cons x l ih => intro m hm; subst hm; simp [List.replicate_succ]; simpa using ih l.length rfl
  simp only [bproj, List.length_cons, List.length_replicate, hi, Nat.sub_self, List.drop_zero,
    List.zipWith_cons_cons, hz i s.length hi]
  congr 1
  split_ifs with h
  · omega
  · rfl

theorem valid_replicate (n : ℕ) : Valid (List.replicate n 1) (List.replicate n 0) := by
  induction n with
  | zero => trivial
  | succ n ih => rw [List.replicate_succ, List.replicate_succ]; exact ⟨one_pos, ih⟩

/-- Elementwise operation of two tensors of shape `n × 1 × ⋯ × 1`. -/
theorem binop_col (f : ℝ → ℝ → ℝ) (A B : Tensor ℝ) {n l : ℕ} (hA : A.shape = n :: List.replicate l 1)
    (hB : B.shape = n :: List.replicate l 1) :
    ∃ C, binop f A B = Except.ok C ∧ C.shape = n :: List.replicate l 1 ∧
      ∀ o < n, C.get (o :: List.replicate l 0) = f (A.get (o :: List.replicate l 0)) (B.get (o :: List.replicate l 0)) := by
  obtain ⟨C, e, s, v⟩ := binop_ok f A B (n :: List.replicate l 1) (by rw [hA, hB]; exact bshape_self _)
  refine ⟨C, e, s, fun o ho => ?_⟩
  have hv : Valid (n :: List.replicate l 1) (o :: List.replicate l 0) := ⟨ho, valid_replicate l⟩
  rw [v, hA, hB, bproj_valid hv]

theorem coreNormSq_some {t : TT ℝ} (h : t.WF) {n : ℕ} (hb : t.batch = some n) {k : ℕ} (hk : k < t.ndims) :
    ∃ S, reduceSumKeepFirst ((t.core k).map (· ^ 2)) = Except.ok S ∧
      S.shape = n :: List.replicate (t.coreShape k).length 1 ∧ ∀ o l, S.get (o :: l) = t.coreNormSq [o] k := by
  have hs := h.core_shape k hk
  rw [bpre_some hb] at hs
  unfold reduceSumKeepFirst Tensor.map
  simp only [hs, List.cons_append, List.nil_append]
  refine ⟨_, rfl, ?_, fun o l => rfl⟩
  change n :: (t.coreShape k).map (fun _ => 1) = _
  rw [List.map_const']

theorem renormalizeBatch_spec {t : TT ℝ} (h : t.WF) {n : ℕ} (hb : t.batch = some n) {eps : ℝ} (heps : 0 < eps) :
    ∃ c, renormalizeBatch t eps = Except.ok c ∧ RenormOk t eps c := by
  set nrm : ℕ → List ℕ → ℝ := fun k p => Real.sqrt (max eps (t.coreNormSq p k)) with hn
  set L := t.rawShape.length + 2 with hL
  have hcl : ∀ k, (t.coreShape k).length = L := fun k => by simp [TT.coreShape, TT.modes, hL]
  obtain ⟨norms, eN, lN, hN⟩ := mapRange_ok t.ndims (fun i => do
      let c ← pyGet t.cores i
      let nsq ← reduceSumKeepFirst (c.map (· ^ 2))
      pure (nsq.map fun x => Real.sqrt (max eps x)))
    (fun k N => N.shape = n :: List.replicate L 1 ∧ ∀ o l, N.get (o :: l) = nrm k [o]) (by
      intro k hk
      obtain ⟨S, e, s, v⟩ := coreNormSq_some h hb hk
      refine ⟨S.map fun x => Real.sqrt (max eps x), by rw [h.pyCore hk, R.ok_bind, e, R.ok_bind]; rfl, ?_, ?_⟩
      · rw [hcl k] at s; exact s
      · intro o l
        change Real.sqrt (max eps (S.get _)) = _
        rw [v])
  obtain ⟨Lg, eL, sL, vL⟩ := forRange_inv (fun i (s : Tensor ℝ) => s.shape = n :: List.replicate L 1 ∧
      ∀ o < n, s.get (o :: List.replicate L 0) = ∑ k ∈ Finset.range i, Real.log (nrm k [o]))
    (fun i s => do
      let n ← pyGet norms i
      binop (· + ·) s (n.map Real.log)) 0 t.ndims (zeros (n :: List.replicate L 1))
    ⟨rfl, fun o _ => by simp [zeros]⟩ (by
      intro i s _ hi hs
      obtain ⟨hs1, hs2⟩ := hN i (by omega)
      obtain ⟨C, eC, sC, vC⟩ := binop_col (· + ·) s ((norms.getD i default).map Real.log) hs.1 hs1
      refine ⟨C, by rw [pyGet_of_lt norms i default (by omega), R.ok_bind, eC], sC, fun o ho => ?_⟩
      rw [vC o ho, hs.2 o ho, Finset.sum_range_succ]
      change _ + Real.log ((norms.getD i default).get _) = _
      rw [hs2])
  rw [zero_add] at vL
  obtain ⟨cores, ec, hch, hok⟩ := renormalize_finish h heps (fun i => do
      let c ← pyGet t.cores i
      let n ← pyGet norms i
      let f ← binop (· / ·) (Lg.map fun x => Real.exp (x / (t.ndims : ℝ))) n
      binop (· * ·) c f) nrm (fun _ _ _ => rfl) (by
    intro k hk
    obtain ⟨hs1, hs2⟩ := hN k hk
    obtain ⟨F, eF, sF, vF⟩ := binop_col (· / ·) (Lg.map fun x => Real.exp (x / (t.ndims : ℝ))) (norms.getD k default)
      sL hs1
    have hs := h.core_shape k hk
    rw [bpre_some hb] at hs
    have hs' : (t.core k).shape = n :: t.coreShape k := hs
    obtain ⟨C, eC, sC, vC⟩ := binop_ok (· * ·) (t.core k) F (t.core k).shape (by
      rw [sF, hs', ← hcl k, List.reverse_cons, List.reverse_cons, List.reverse_replicate]
      have := bshape_keep (t.coreShape k).reverse n
      rwa [List.length_reverse] at this)
    refine ⟨C, by rw [h.pyCore hk, R.ok_bind, pyGet_of_lt norms k default (by omega), R.ok_bind, eF, R.ok_bind, eC],
      sC, ?_⟩
    intro p i hp hi
    rw [bpre_some hb] at hp
    obtain ⟨o, rfl, ho⟩ := (valid_singleton _ _).1 hp
    have hv : Valid (n :: t.coreShape k) (o :: i) := ⟨ho, hi⟩
    rw [vC, List.singleton_append, hs', bproj_valid hv, sF, ← hcl k, bproj_keep ho hi.length_eq, hcl k, vF o ho, hs2]
    change _ * (Real.exp (Lg.get _ / _) / _) = _
    rw [vL o ho]
    ring)
  refine ⟨_, ?_, hok⟩
  have hc0 : pyGet t.cores 0 = Except.ok (t.core 0) := h.pyCore h.pos
  have hl0 : (t.core 0).shape.length - 1 = L := by
    rw [h.core_shape 0 h.pos, bpre_some hb]; simp [TT.modes, hL]
  unfold renormalizeBatch
  simp only [TT.lazyBatchSize, hb, R.ok_bind, hc0, hl0, eN, eL, ec]
  exact mkBatch_ok (hb ▸ hch) .omitted (Or.inl rfl) none (Or.inl rfl) none (Or.inl rfl)

theorem renormalize_spec {t : TT ℝ} (h : t.WF) {eps : ℝ} (heps : 0 < eps) :
    ∃ c, renormalize t eps = Except.ok c ∧ RenormOk t eps c := by
  unfold renormalize TT.isBatch
  rcases hb : t.batch with _ | n
  · simpa using renormalizeTT_spec h hb heps
  · simpa using renormalizeBatch_spec h hb heps

end real

end T3f
