import Verif.Proofs.Blk
import Verif.Proofs.Sweep
import Verif.Proofs.ChainEntry
import Verif.Proofs.Contract
import Verif.Spec.Orth

/-! # Left-to-right orthogonalization -/

namespace T3f

theorem getD_set_self {α : Type} (l : List α) (i : ℕ) (x d : α) (h : i < l.length) : (l.set i x).getD i d = x := by
  simp [List.getD_eq_getElem?_getD, h]

theorem getD_set_ne {α : Type} (l : List α) {i j : ℕ} (x d : α) (h : i ≠ j) : (l.set i x).getD j d = l.getD j d := by
  simp [List.getD_eq_getElem?_getD, List.getElem?_set_ne h]

theorem modes_pos {t : TT ℝ} (h : t.WF) (hp : t.ModesPos) {k : ℕ} (hk : k < t.ndims) : 0 < (t.modes k).prod := by
  apply List.prod_pos
  intro n hn
  obtain ⟨row, hrow, rfl⟩ := List.mem_map.1 hn
  have hl := h.rows_len row hrow
  rw [List.getD_eq_getElem _ _ (by omega)]
  exact hp row hrow _ (List.getElem_mem _)

theorem batch_prod_pos {bs : Option ℕ} (h : bs ≠ some 0) : 0 < bs.toList.prod := by
  cases bs with
  | none => simp
  | some n =>
    have : n ≠ 0 := fun e => h (by rw [e])
    simp; omega

theorem lprod_pred (r : ℕ → ℕ) (A : ℕ → ℕ → ℕ → ℝ) (b : ℕ) {d : ℕ} (hd : 0 < d) :
    lprod r A d b = ∑ a ∈ Finset.range (r (d - 1)), lprod r A (d - 1) a * A (d - 1) a b := by
  cases d with
  | zero => omega
  | succ d => rfl

/-- TT-ranks after the left-to-right sweep. -/
def lrRank (N r : ℕ → ℕ) : ℕ → ℕ
  | 0 => 1
  | k + 1 => min (lrRank N r k * N k) (r (k + 1))

theorem lrRank_le (N r : ℕ → ℕ) (h0 : r 0 = 1) (k : ℕ) : lrRank N r k ≤ r k := by
  cases k with
  | zero => simp [lrRank, h0]
  | succ k => exact min_le_right _ _

theorem lrRank_pos {N r : ℕ → ℕ} {d : ℕ} (hN : ∀ k < d, 0 < N k) (hr : ∀ k ≤ d, 0 < r k) {k : ℕ} (hk : k ≤ d) : 0 < lrRank N r k := by
  induction k with
  | zero => simp [lrRank]
  | succ k ih =>
    rw [lrRank]
    exact lt_min (Nat.mul_pos (ih (by omega)) (hN k (by omega))) (hr _ hk)

/-- Mode sizes as flat numbers. -/
def TT.N {K : Type} (t : TT K) (k : ℕ) : ℕ := (t.modes k).prod

/-- Cores as functions of flat mode indices. -/
def cfl (cores : List (Tensor ℝ)) (M : ℕ → List ℕ) (p : List ℕ) (k n a b : ℕ) : ℝ :=
  (cores.getD k default).get (p ++ a :: (unravel (M k) n ++ [b]))

/-- Cores as functions of mode indices. -/
def cvl (cores : List (Tensor ℝ)) (p : List ℕ) (g : ℕ → List ℕ) (k a b : ℕ) : ℝ :=
  (cores.getD k default).get (p ++ a :: (g k ++ [b]))

structure LRInv (t : TT ℝ) (i : ℕ) (s : List (Tensor ℝ) × ℕ) : Prop where
  len : s.1.length = t.ndims
  rk : s.2 = lrRank t.N t.rank i
  shape : ∀ k < i, (s.1.getD k default).shape = t.bpre ++ lrRank t.N t.rank k :: (t.modes k ++ [lrRank t.N t.rank (k + 1)])
  orth : ∀ p, Valid t.bpre p → ∀ k < i, LOrth t.N (lrRank t.N t.rank) (cfl s.1 t.modes p) k
  rest : ∀ k, i < k → k < t.ndims → s.1.getD k default = t.core k
  cur : ∃ T : List ℕ → ℕ → ℕ → ℝ,
    Blk (s.1.getD i default) t.bpre (lrRank t.N t.rank i) (t.N i) (t.rank (i + 1))
      (fun p α n β => ∑ l ∈ Finset.range (t.rank i), T p α l * t.fl p i n l β) ∧
    ∀ p, Valid t.bpre p → ∀ g, (∀ j < i, Valid (t.modes j) (g j)) → ∀ b < t.rank i,
      lprod t.rank (t.slice p g) i b = ∑ a ∈ Finset.range (lrRank t.N t.rank i), lprod (lrRank t.N t.rank) (cvl s.1 p g) i a * T p a b

theorem blk_core {t : TT ℝ} (h : t.WF) {k : ℕ} (hk : k < t.ndims) :
    Blk (t.core k) t.bpre (t.rank k) (t.N k) (t.rank (k + 1)) (fun p α n β => t.fl p k n α β) :=
  blk_of_core (h.core_shape k hk)

theorem LRInv.init {t : TT ℝ} (h : t.WF) : LRInv t 0 (t.cores, 1) where
  len := rfl
  rk := rfl
  shape := fun k hk => absurd hk (by omega)
  orth := fun p _ k hk => absurd hk (by omega)
  rest := fun k _ _ => rfl
  cur := by
    refine ⟨fun _ a b => δ a b, ?_, fun p _ g _ b hb => ?_⟩
    · have := blk_core h h.pos
      rw [h.rank_first] at this ⊢
      refine this.congr fun p _ α hα n _ β _ => ?_
      rw [sum_δ_left hα]
    · rw [h.rank_first] at hb
      obtain rfl : b = 0 := by omega
      simp [lrRank, lprod, δ]

theorem orthoLRStep_ok {qr : QRRoutine} (hqr : qr.Correct) {t : TT ℝ} (h : t.WF) (i : ℕ) (hi : i + 1 < t.ndims)
    (s : List (Tensor ℝ) × ℕ) (hs : LRInv t i s) :
    ∃ s', orthoLRStep qr t i s = Except.ok s' ∧ LRInv t (i + 1) s' := by
  obtain ⟨T, hB, hT⟩ := hs.cur
  set r' := lrRank t.N t.rank with hr'
  have hbp : 0 < t.bpre.prod := batch_prod_pos h.batch_pos
  obtain ⟨Y, eY, sY, bY⟩ := hB.reshape_some (s := t.bpre ++ [r' i * t.N i, t.rank (i + 1)])
    (by rw [List.prod_append]; simp only [List.prod_cons, List.prod_nil]; ring)
  obtain ⟨Q, S, q, τ, eQ, sQ, bQ, sS, vS, hq⟩ := qr_tall hqr (bs := t.batch) bY sY
  have hmin : min (r' i * t.N i) (t.rank (i + 1)) = r' (i + 1) := rfl
  rw [hmin] at sQ bQ sS hq
  obtain ⟨C, eC, sC, bC⟩ := bQ.reshape_some (s := t.batch.toList ++ r' i :: (t.modes i ++ [r' (i + 1)]))
    (by simp [List.prod_append, TT.N])
  have hnext := blk_core h hi
  obtain ⟨Z, eZ, sZ, bZ⟩ := hnext.reshape_last (t.rank (i + 1)) (t.N (i + 1) * t.rank (i + 2))
    (Nat.mul_pos hbp (h.rank_pos _ (by omega))) rfl
  obtain ⟨W, eW, sW, bW⟩ := bZ.mul_left (bs := t.batch) sZ sS
  have p1 : pyGet s.1 i = Except.ok (s.1.getD i default) := pyGet_of_lt _ _ _ (by rw [hs.len]; omega)
  have p2 : pyGet s.1 (i + 1) = Except.ok (t.core (i + 1)) := by
    rw [pyGet_of_lt _ _ default (by rw [hs.len]; omega), hs.rest (i + 1) (by omega) hi]
  have p3 : pyGet S.shape t.batch.toList.length = Except.ok (r' (i + 1)) := by
    rw [sS, pyGet_of_lt _ _ 0 (by simp), List.getD_append_right _ _ _ _ le_rfl]; simp
  have p4 : pyGet S.shape (t.batch.toList.length + 1) = Except.ok (t.rank (i + 1)) := by
    rw [sS, pyGet_of_lt _ _ 0 (by simp), List.getD_append_right _ _ _ _ (by omega)]; simp
  refine ⟨((s.1.set i C).set (i + 1) W, r' (i + 1)), ?_, ?_⟩
  · unfold orthoLRStep
    simp only [p1, hs.rk, h.pyRank (show i + 1 ≤ t.ndims by omega), R.ok_bind]
    rw [show reshape (s.1.getD i default) ((t.batch.toList ++ [lrRank t.N t.rank i * (coreModes t i).prod, t.rank (i + 1)]).map some) =
      Except.ok Y from eY]
    simp only [R.ok_bind, eQ, p3, p4]
    rw [show reshape Q ((t.batch.toList ++ lrRank t.N t.rank i :: (coreModes t i ++ [r' (i + 1)])).map some) = Except.ok C from eC]
    simp only [R.ok_bind, p2]
    rw [show reshape (t.core (i + 1)) (t.batch.toList.map some ++ [some (t.rank (i + 1)), none]) = Except.ok Z from eZ]
    simp only [R.ok_bind, eW, R.pure_eq]
  · have hlen : i < s.1.length := by rw [hs.len]; omega
    have ge : ∀ k, k < i → ((s.1.set i C).set (i + 1) W).getD k default = s.1.getD k default := fun k hk => by
      rw [getD_set_ne _ _ _ (by omega), getD_set_ne _ _ _ (by omega)]
    have gi : ((s.1.set i C).set (i + 1) W).getD i default = C := by
      rw [getD_set_ne _ _ _ (by omega), getD_set_self _ _ _ _ hlen]
    have gi1 : ((s.1.set i C).set (i + 1) W).getD (i + 1) default = W :=
      getD_set_self _ _ _ _ (by rw [List.length_set, hs.len]; omega)
    have hCv : ∀ p, Valid t.bpre p → ∀ v, Valid (t.modes i) v → ∀ a < r' i, ∀ b < r' (i + 1),
        C.get (p ++ a :: (v ++ [b])) = q p a (ravel (t.modes i) v) b := fun p hp v hv a ha b hb =>
      bC.core sC rfl hp ha hv hb
    refine ⟨by simp [hs.len], rfl, fun k hk => ?_, fun p hp k hk => ?_, fun k hk hk' => ?_, fun p γ l => τ p γ l, ?_, ?_⟩
    · rcases Nat.lt_succ_iff_lt_or_eq.1 hk with h1 | rfl
      · rw [ge k h1]; exact hs.shape k h1
      · rw [gi]; exact sC
    · rcases Nat.lt_succ_iff_lt_or_eq.1 hk with h1 | rfl
      · have := hs.orth p hp k h1
        intro b hb b' hb'
        rw [← this b hb b' hb']
        simp only [cfl, ge k h1]
      · intro b hb b' hb'
        have := (hq p hp).2 b hb b' hb'
        rw [δ, ← this]
        refine Finset.sum_congr rfl fun a ha => Finset.sum_congr rfl fun n hn => ?_
        rw [Finset.mem_range] at ha hn
        simp only [cfl, gi]
        rw [hCv p hp _ (unravel_valid hn) a ha b hb, hCv p hp _ (unravel_valid hn) a ha b' hb', ravel_unravel hn]
    · simp only []
      rw [getD_set_ne _ _ _ (by omega), getD_set_ne _ _ _ (by omega)]
      exact hs.rest k (by omega) hk'
    · simp only []
      rw [gi1]
      refine bW.congr fun p hp γ hγ n hn β hβ => ?_
      exact Finset.sum_congr rfl fun l _ => by rw [vS]
    · intro p hp g hg b hb
      have hcong : ∀ a, lprod r' (cvl ((s.1.set i C).set (i + 1) W) p g) i a = lprod r' (cvl s.1 p g) i a := fun a =>
        lprod_congr' fun j hj => by funext x y; simp only [cvl]; rw [ge j hj]
      have hgi := hg i (by omega)
      calc lprod t.rank (t.slice p g) (i + 1) b
          = ∑ l ∈ Finset.range (t.rank i), (∑ a ∈ Finset.range (r' i), lprod r' (cvl s.1 p g) i a * T p a l) * t.slice p g i l b := by
            rw [lprod]
            refine Finset.sum_congr rfl fun l hl => ?_
            rw [hT p hp g (fun j hj => hg j (by omega)) l (Finset.mem_range.1 hl)]
        _ = ∑ a ∈ Finset.range (r' i), lprod r' (cvl s.1 p g) i a *
              ∑ l ∈ Finset.range (t.rank i), T p a l * t.fl p i (ravel (t.modes i) (g i)) l b := by
            simp only [Finset.sum_mul, Finset.mul_sum]
            rw [Finset.sum_comm]
            refine Finset.sum_congr rfl fun a _ => Finset.sum_congr rfl fun l _ => ?_
            rw [TT.fl, unravel_ravel hgi, TT.slice]; ring
        _ = ∑ a ∈ Finset.range (r' i), lprod r' (cvl s.1 p g) i a *
              ∑ γ ∈ Finset.range (r' (i + 1)), q p a (ravel (t.modes i) (g i)) γ * τ p γ b := by
            refine Finset.sum_congr rfl fun a ha => ?_
            rw [(hq p hp).1 a (Finset.mem_range.1 ha) _ (ravel_lt hgi) b hb]
        _ = _ := by
            simp only [lprod, Finset.sum_mul, Finset.mul_sum]
            rw [Finset.sum_comm]
            refine Finset.sum_congr rfl fun γ hγ => Finset.sum_congr rfl fun a ha => ?_
            rw [hcong, show cvl ((s.1.set i C).set (i + 1) W) p g i a γ = q p a (ravel (t.modes i) (g i)) γ by
              simp only [cvl]; rw [gi, hCv p hp _ hgi a (Finset.mem_range.1 ha) γ (Finset.mem_range.1 hγ)]]
            ring

/-- What the left-to-right sweep returns. -/
theorem orthoLR_ok {qr : QRRoutine} (hqr : qr.Correct) {t : TT ℝ} (h : t.WF) (hm : t.ModesPos) :
    ∃ o, orthoLR qr t = Except.ok o ∧ o.WF ∧ o.rawShape = t.rawShape ∧ o.batch = t.batch ∧ o.ndims = t.ndims ∧
      (∀ k ≤ t.ndims, o.rank k = lrRank t.N t.rank k) ∧
      (∀ p, Valid t.bpre p → ∀ k, k + 1 < t.ndims → o.LeftOrthonormal p k) ∧
      ∀ p, Valid t.bpre p → ∀ g, (∀ j < t.ndims, Valid (t.modes j) (g j)) → o.entry p g = t.entry p g := by
  have hpos := h.pos
  obtain ⟨s, es, hs⟩ := forRange_inv (LRInv t) (orthoLRStep qr t) 0 (t.ndims - 1) (t.cores, 1) (LRInv.init h)
    (fun i s _ hi hP => orthoLRStep_ok hqr h i (by omega) s hP)
  rw [Nat.zero_add] at hs
  obtain ⟨T, hB, hT⟩ := hs.cur
  set r' := lrRank t.N t.rank with hr'
  set d := t.ndims with hd
  have hd1 : d - 1 + 1 = d := by omega
  have hN : ∀ k < d, 0 < t.N k := fun k hk => modes_pos h hm hk
  have hr'd : r' d = 1 := by
    have h1 := lrRank_pos hN h.rank_pos (k := d) le_rfl
    have h2 := lrRank_le t.N t.rank h.rank_first d
    rw [h.rank_last] at h2
    exact le_antisymm h2 h1
  rw [hd1, h.rank_last] at hB
  obtain ⟨C, eC, sC, bC⟩ := hB.reshape_some (s := t.batch.toList ++ r' (d - 1) :: (t.modes (d - 1) ++ [1]))
    (by simp [List.prod_append, TT.N, TT.bpre])
  have hl : (s.1.set (d - 1) C).length = d := by simp [hs.len, hd]
  have gl : (s.1.set (d - 1) C).getD (d - 1) default = C := getD_set_self _ _ _ _ (by rw [hs.len]; omega)
  have gk : ∀ k, k < d - 1 → (s.1.set (d - 1) C).getD k default = s.1.getD k default := fun k hk => getD_set_ne _ _ _ (by omega)
  have chain : Chain t.batch (s.1.set (d - 1) C) r' t.modes t.rawShape.length := by
    refine ⟨by omega, rfl, by rw [hl]; exact hr'd, fun k hk => lrRank_pos hN h.rank_pos (by omega), h.rows,
      fun k _ => by simp [TT.modes], fun k hk => ?_, h.batch_pos⟩
    rw [hl] at hk
    rcases Nat.lt_or_ge k (d - 1) with h1 | h1
    · rw [gk k h1]; exact hs.shape k h1
    · obtain rfl : k = d - 1 := by omega
      rw [gl, hd1, hr'd]; exact sC
  have rows : t.rawShape = rowsOf t.modes (s.1.set (d - 1) C).length t.rawShape.length := by rw [hl]; exact h.rows_eq
  have e : orthoLR qr t = Except.ok (chainTT t.batch (s.1.set (d - 1) C) r' t.modes t.rawShape.length) := by
    unfold orthoLR
    simp only [h.pyRank (Nat.zero_le _), h.rank_first, R.ok_bind, ← hd, es]
    rw [show pyGet s.1 (d - 1) = Except.ok (s.1.getD (d - 1) default) from pyGet_of_lt _ _ _ (by rw [hs.len]; omega), R.ok_bind,
      hs.rk, show reshape (s.1.getD (d - 1) default)
        ((t.batch.toList ++ lrRank t.N t.rank (d - 1) :: (coreModes t (d - 1) ++ [1])).map some) = Except.ok C from eC, R.ok_bind]
    cases hb : t.batch with
    | none =>
      rw [hb] at chain
      exact mkTT_ok chain _ (Or.inr (chain.clean rows)) _ (Or.inl rfl)
    | some n =>
      rw [hb] at chain
      exact mkBatch_ok chain _ (Or.inr (chain.clean rows)) _ (Or.inl rfl) _ (Or.inr rfl)
  have hrank : ∀ k ≤ d, (chainTT t.batch (s.1.set (d - 1) C) r' t.modes t.rawShape.length).rank k = r' k := fun k hk =>
    chainTT_rank k (by rw [hl]; exact hk)
  have hmodes : ∀ k < d, (chainTT t.batch (s.1.set (d - 1) C) r' t.modes t.rawShape.length).modes k = t.modes k := fun k hk =>
    chain.modes_eq k (by rw [hl]; exact hk)
  refine ⟨_, e, chain.wf, rows.symm, rfl, hl, hrank, fun p hp k hk => ?_, fun p hp g hg => ?_⟩
  · intro b hb b' hb'
    rw [hrank _ (by omega)] at hb hb'
    rw [hrank k (by omega), hmodes k (by omega)]
    have := hs.orth p hp k (by omega) b hb b' hb'
    rw [δ] at this
    rw [← this]
    have hf : ∀ n a b, (chainTT t.batch (s.1.set (d - 1) C) r' t.modes t.rawShape.length).fl p k n a b = cfl s.1 t.modes p k n a b := by
      intro n a b
      rw [TT.fl, hmodes k (by omega), cfl, ← gk k (by omega)]
      rfl
    simp only [hf]
    rfl
  · rw [chain.entry_eq, hl, TT.entry, ← hd, lprod_pred _ _ _ (by omega), lprod_pred _ _ _ (by omega)]
    have hgl := hg (d - 1) (by omega)
    have hcong : ∀ a, lprod r' (fun k a b => ((s.1.set (d - 1) C).getD k default).get (p ++ a :: (g k ++ [b]))) (d - 1) a =
        lprod r' (cvl s.1 p g) (d - 1) a := fun a =>
      lprod_congr' fun j hj => by funext x y; simp only [cvl]; rw [gk j hj]
    calc _ = ∑ a ∈ Finset.range (r' (d - 1)), lprod r' (cvl s.1 p g) (d - 1) a *
          ∑ l ∈ Finset.range (t.rank (d - 1)), T p a l * t.slice p g (d - 1) l 0 := by
          refine Finset.sum_congr rfl fun a ha => ?_
          rw [hcong, gl, bC.core sC rfl hp (Finset.mem_range.1 ha) hgl Nat.one_pos]
          refine congrArg _ (Finset.sum_congr rfl fun l _ => ?_)
          rw [TT.fl, unravel_ravel hgl, TT.slice]
      _ = _ := by
          simp only [Finset.mul_sum]
          rw [Finset.sum_comm]
          refine Finset.sum_congr rfl fun l hl => ?_
          rw [hT p hp g (fun j hj => hg j (by omega)) l (Finset.mem_range.1 hl), Finset.sum_mul]
          exact Finset.sum_congr rfl fun a _ => by ring

end T3f
