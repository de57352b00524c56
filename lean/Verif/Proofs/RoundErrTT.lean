import Verif.Proofs.RoundErrStep
import Verif.Model.RoundedRound
import Verif.Proofs.NormErr
import Verif.Proofs.RoundFull

/-! # Rounding in floating point arithmetic -/

namespace T3f

theorem fn_transpose (m n : ℕ) (A : ℕ → ℕ → ℝ) : fn m n A = fn n m fun j i => A i j := by
  unfold fn
  rw [Finset.sum_comm]

theorem RStepE.congr {N rL rV : ℕ → ℕ} {Q V V' C C' X X' : ℕ → ℕ → ℕ → ℕ → ℝ} {k bd : ℕ} {tail h : ℝ}
    (s : RStepE N rL rV Q V C X k tail bd h) (hV : V' k = V k) (hX : X' k = X k) (hC : C' k = C k) (hC1 : C' (k - 1) = C (k - 1)) :
    RStepE N rL rV Q V' C' X' k tail bd h := by
  obtain ⟨h1, h2, h3, h4⟩ := s
  have hw : ∀ D, wv N rV V' k D = wv N rV V k D := fun D => by funext a x; simp only [wv, hV]
  refine ⟨?_, ?_, ?_, ?_⟩
  · unfold ROrth at h1 ⊢; rw [hV]; exact h1
  · rw [hX, hw]; exact h2
  · rw [hX]; exact h3
  · rw [hX, hC, hC1, hw]; exact h4

/-- State of the compression when core `i` is next. -/
structure RdInvF (A : Arith) (ε : ℝ) (o : TT ℝ) (Q : List ℕ → ℕ → ℕ → ℕ → ℕ → ℝ) (bd rr : ℕ → ℕ) (i : ℕ) (s : List (Tensor ℝ) × List ℕ) : Prop where
  len : s.1.length = o.ndims
  rlen : s.2.length = o.ndims + 1
  rk : ∀ k ≤ o.ndims, s.2.getD k 0 = if k ≤ i then 1 else rdRank bd o.N o.rank o.ndims k
  shape : ∀ k, i < k → k < o.ndims → (s.1.getD k default).shape = o.bpre ++
    rdRank bd o.N o.rank o.ndims k :: (o.modes k ++ [rdRank bd o.N o.rank o.ndims (k + 1)])
  rest : ∀ k < i, s.1.getD k default = o.core k
  cur : ∃ C : List ℕ → ℕ → ℕ → ℕ → ℕ → ℝ,
    Blk (s.1.getD i default) o.bpre (o.rank i) (o.N i) (rdRank bd o.N o.rank o.ndims (i + 1)) (fun p α n β => C p i n α β) ∧
    ∀ p, Valid o.bpre p → (∀ n < o.N (o.ndims - 1), ∀ a < o.rank (o.ndims - 1), C p (o.ndims - 1) n a 0 = o.fl p (o.ndims - 1) n a 0) ∧
      ∃ (V X : ℕ → ℕ → ℕ → ℕ → ℝ) (tail : ℕ → ℝ), ∀ k, i < k → k < o.ndims →
        RStepE o.N o.rank (rdRank bd o.N o.rank o.ndims) (Q p) V (C p) X k (tail k) (bd k) (truncGrowth A ε (rr k)) ∧
        bn (rdRank bd o.N o.rank o.ndims k) (o.N k) (rdRank bd o.N o.rank o.ndims (k + 1)) (fun n a b => cfl s.1 o.modes p k n a b - V k n a b) ≤ ε

theorem RdInvF.init {A : Arith} {ε : ℝ} {o : TT ℝ} (h : o.WF) (Q : List ℕ → ℕ → ℕ → ℕ → ℕ → ℝ) (bd rr : ℕ → ℕ) :
    RdInvF A ε o Q bd rr (o.ndims - 1) (o.cores, List.replicate (o.ndims + 1) 1) := by
  obtain ⟨h1, h2, h3, h4, h5, -⟩ := RdInv.init h bd
  have hd1 : o.ndims - 1 + 1 = o.ndims := by have := h.pos; omega
  refine ⟨h1, h2, h3, h4, h5, fun p k n a b => o.fl p k n a b, ?_, fun p _ => ⟨fun n _ a _ => rfl, fun _ _ _ _ => 0, fun _ _ _ _ => 0, fun _ => 0,
    fun k hk hk' => absurd hk (by omega)⟩⟩
  rw [hd1, rdRank_last]
  have := blk_core h (show o.ndims - 1 < o.ndims by omega)
  rw [hd1, h.rank_last] at this
  exact this

theorem roundStepF_ok {F : FloatRoutines} {A : Arith} (hF : F.Follows A) {ε : ℝ} (hε : 0 ≤ ε) {M : ℕ} {svd : SVDRoutine} (hsvd : svd.Backward ε M)
    {o : TT ℝ} (h : o.WF) (hm : o.ModesPos) {Q : List ℕ → ℕ → ℕ → ℕ → ℕ → ℝ} {bounds : List ℕ} {rr : ℕ → ℕ}
    (hbl : bounds.length = o.ndims + 1) (hbp : ∀ k ≤ o.ndims, 0 < bounds.getD k 0) (hrr : ∀ k ≤ o.ndims, o.rank k ≤ rr k)
    (hQ : ∀ p, Valid o.bpre p → ∀ k, k + 1 < o.ndims → LOrth o.N o.rank (Q p) k ∧
      bn (o.rank k) (o.N k) (o.rank (k + 1)) (fun n a b => o.fl p k n a b - Q p k n a b) ≤ ε)
    (i : ℕ) (hi : i + 1 < o.ndims) (hM : o.rank (i + 1) * o.N (i + 1) * o.rank (i + 2) ≤ M) (s : List (Tensor ℝ) × List ℕ)
    (hs : RdInvF A ε o Q (fun k => bounds.getD k 0) rr (i + 1) s) :
    ∃ s', roundStepF F svd o bounds (i + 1) s = Except.ok s' ∧ RdInvF A ε o Q (fun k => bounds.getD k 0) rr i s' := by
  obtain ⟨C, hB, hC⟩ := hs.cur
  set bd : ℕ → ℕ := fun k => bounds.getD k 0 with hbd
  set r' := rdRank bd o.N o.rank o.ndims with hr'
  have hr'pos : ∀ k ≤ o.ndims, 0 < r' k := fun k hk => rdRank_pos hbp (fun k hk => modes_pos h hm hk) h.rank_pos hk
  have hr'le : ∀ k ≤ o.ndims, r' k ≤ o.rank k := fun k hk => by
    rcases Nat.eq_zero_or_pos k with rfl | h0
    · rw [hr', rdRank_zero, h.rank_first]
    rcases Nat.lt_or_ge k o.ndims with h1 | h1
    · rw [hr', rdRank_step _ _ _ h0 h1]
      exact (keptRank_le_min (h.rank_pos k hk) (Nat.mul_pos (modes_pos h hm h1) (hr'pos _ (by omega)))).trans (min_le_left _ _)
    · obtain rfl : k = o.ndims := le_antisymm hk h1
      rw [hr', rdRank_last, h.rank_last]
  have hpre : 0 < o.bpre.prod := batch_prod_pos h.batch_pos
  have hNp : 0 < o.N (i + 1) := modes_pos h hm hi
  have hcols : 0 < o.N (i + 1) * r' (i + 2) := Nat.mul_pos hNp (hr'pos _ (by omega))
  have hrows := h.rank_pos (i + 1) (by omega)
  have hkept : keptRank (bd (i + 1)) (o.rank (i + 1)) (o.N (i + 1) * r' (i + 2)) = r' (i + 1) :=
    (rdRank_step bd o.N o.rank (by omega) hi).symm
  have hmin : r' (i + 1) ≤ min (o.rank (i + 1)) (o.N (i + 1) * r' (i + 2)) := by
    rw [← hkept]; exact keptRank_le_min hrows hcols
  have hMle : o.rank (i + 1) * (o.N (i + 1) * r' (i + 2)) ≤ M := by
    rw [← Nat.mul_assoc]
    exact (Nat.mul_le_mul_left _ (hr'le _ (by omega))).trans hM
  obtain ⟨Y, eY, sY, bY⟩ := hB.reshape_first (o.N (i + 1) * r' (i + 2)) (o.rank (i + 1)) (Nat.mul_pos hpre hcols) rfl
  obtain ⟨S, U, W, S', U', V', x, u, v, tl, eS, eU', eS', eV', sU, sS, sV, hsv⟩ := svd_near hsvd (bs := o.batch) sY hmin hMle
  obtain ⟨T, eT, sT, vT⟩ := transpose_pre (bs := o.batch) sV
  obtain ⟨G, eG, sG, bG⟩ := (blk_of_wide (pre := o.batch.toList) sT).reshape_some
    (s := o.batch.toList ++ r' (i + 1) :: (o.modes (i + 1) ++ [r' (i + 2)])) (by simp [List.prod_append, TT.N])
  have hprev := blk_core h (show i < o.ndims by omega)
  obtain ⟨Z, eZ, sZ, bZ⟩ := hprev.reshape_first (o.rank (i + 1)) (o.rank i * o.N i) (Nat.mul_pos hpre hrows) (by ring)
  obtain ⟨Z1, z1, eZ1, sZ1, bZ1, hz1⟩ := bZ.mulF_right hF (bs := o.batch) sZ sU
  obtain ⟨D, eD, sD, vD⟩ := linalgDiag_pre (bs := o.batch) sS
  obtain ⟨Z2, z2, eZ2, sZ2, bZ2, hz2⟩ := bZ1.mulF_right hF (bs := o.batch) sZ1 sD
  have p1 : pyGet s.1 (i + 1) = Except.ok (s.1.getD (i + 1) default) := pyGet_of_lt _ _ _ (by rw [hs.len]; omega)
  have p2 : pyGet s.2 (i + 1 + 1) = Except.ok (r' (i + 2)) := by
    rw [pyGet_of_lt _ _ 0 (by rw [hs.rlen]; omega), hs.rk _ (by omega), if_neg (by omega)]
  have p3 : pyGet Y.shape o.batch.toList.length = Except.ok (o.rank (i + 1)) := by
    rw [sY, pyGet_of_lt _ _ 0 (by simp [TT.bpre]), TT.bpre, List.getD_append_right _ _ _ _ le_rfl]; simp
  have p4 : pyGet bounds (i + 1) = Except.ok (bd (i + 1)) := pyGet_of_lt _ _ 0 (by omega)
  have p5 : pyGet s.1 i = Except.ok (o.core i) := by
    rw [pyGet_of_lt _ _ default (by rw [hs.len]; omega), hs.rest i (by omega)]
  refine ⟨((s.1.set (i + 1) G).set i Z2, s.2.set (i + 1) (r' (i + 1))), ?_, ?_⟩
  · unfold roundStepF
    simp only [p1, p2, R.ok_bind]
    rw [show reshape (s.1.getD (i + 1) default) (o.batch.toList.map some ++ [none, some ((coreModes o (i + 1)).prod * r' (i + 2))]) =
      Except.ok Y from eY]
    simp only [R.ok_bind, p3, p4]
    rw [show (coreModes o (i + 1)).prod * r' (i + 2) = o.N (i + 1) * r' (i + 2) from rfl, hkept]
    simp only [eS, R.ok_bind, eU', eS', eV', eT]
    rw [show reshape T ((o.batch.toList ++ r' (i + 1) :: (coreModes o (i + 1) ++ [r' (i + 2)])).map some) = Except.ok G from eG]
    simp only [R.ok_bind, Nat.add_sub_cancel, p5]
    rw [show reshape (o.core i) (o.batch.toList.map some ++ [none, some (o.rank (i + 1))]) = Except.ok Z from eZ]
    simp only [R.ok_bind, eZ1, eD, eZ2, R.pure_eq]
  · have hlen : i + 1 < s.1.length := by rw [hs.len]; omega
    have ge : ∀ k, i + 1 < k → ((s.1.set (i + 1) G).set i Z2).getD k default = s.1.getD k default := fun k hk => by
      rw [getD_set_ne _ _ _ (by omega), getD_set_ne _ _ _ (by omega)]
    have gl : ∀ k, k < i → ((s.1.set (i + 1) G).set i Z2).getD k default = s.1.getD k default := fun k hk => by
      rw [getD_set_ne _ _ _ (by omega), getD_set_ne _ _ _ (by omega)]
    have gi1 : ((s.1.set (i + 1) G).set i Z2).getD (i + 1) default = G := by
      rw [getD_set_ne _ _ _ (by omega), getD_set_self _ _ _ _ hlen]
    have gi : ((s.1.set (i + 1) G).set i Z2).getD i default = Z2 :=
      getD_set_self _ _ _ _ (by rw [List.length_set, hs.len]; omega)
    refine ⟨by simp [hs.len], by simp [hs.rlen], fun k hk => ?_, fun k hk hk' => ?_, fun k hk => ?_,
      fun p k n a b => if k = i then z2 p a n b else C p k n a b, ?_, fun p hp => ⟨fun n hn a ha => ?_, ?_⟩⟩
    · simp only []
      rcases eq_or_ne k (i + 1) with rfl | hne
      · rw [getD_set_self _ _ _ _ (by rw [hs.rlen]; omega), if_neg (by omega)]
      · rw [getD_set_ne _ _ _ hne.symm, hs.rk k hk]
        by_cases h1 : k ≤ i
        · rw [if_pos (by omega), if_pos h1]
        · rw [if_neg (by omega), if_neg h1]
    · simp only []
      rcases Nat.lt_or_ge (i + 1) k with h1 | h1
      · rw [ge k h1]; exact hs.shape k h1 hk'
      · obtain rfl : k = i + 1 := by omega
        rw [gi1]; exact sG
    · simp only []
      rw [gl k hk]; exact hs.rest k (by omega)
    · simp only []
      rw [gi]
      exact bZ2.congr fun p hp a ha n hn y hy => by rw [if_pos trivial]
    · simp only []
      rw [if_neg (by omega)]
      exact (hC p hp).1 n hn a ha
    · obtain ⟨ht, hxe, hUe, hVe⟩ := hsv p hp
      obtain ⟨-, V₀, X₀, tail₀, hst⟩ := hC p hp
      obtain ⟨hQo, hQn⟩ := hQ p hp i hi
      have hw1 := hz1 p hp
      have hw2 := hz2 p hp
      rw [bn_flip, fn_transpose, bn_flip (o.rank (i + 1))] at hw1
      rw [bn_flip, fn_transpose, bn_flip (r' (i + 1)) (o.N i) (o.rank i) (fun n l α => z1 p α n l),
        fn_congr (A := fun j i => D.get (p ++ [j, i])) (fun x hx y hy => vD p hp x y), fn_diag] at hw2
      have carry := carry_err (A := A) (r := rr (i + 1)) (W := fun n a b => z2 p a n b) (Z := fun n a b => z1 p a n b) hε hrows (hr'pos (i + 1) (by omega)) (hrr _ (by omega))
        ((hr'le _ (by omega)).trans (hrr _ (by omega))) (P := Q p i) (Y := o.fl p i) hQo hQn ht.orthU hUe
        (by
          refine le_trans (le_of_eq (bn_congr fun n _ α _ γ _ => ?_)) hw1
          congr 1
          exact Finset.sum_congr rfl fun l _ => mul_comm _ _)
        (by
          refine le_trans (le_of_eq (bn_congr fun n _ α _ γ _ => ?_)) hw2
          congr 1
          exact Finset.sum_congr rfl fun l _ => by rw [vD p hp, mul_comm])
      refine ⟨Function.update V₀ (i + 1) (fun n a b => v p (n * r' (i + 2) + b) a),
        Function.update X₀ (i + 1) (fun n a b => x p a (n * r' (i + 2) + b)), Function.update tail₀ (i + 1) (tl p), fun k hk hk' => ?_⟩
      simp only []
      rcases Nat.lt_or_ge (i + 1) k with h1 | h1
      · obtain ⟨h2, h3⟩ := hst k h1 hk'
        have e1 : Function.update tail₀ (i + 1) (tl p) k = tail₀ k := Function.update_of_ne (by omega) _ _
        rw [e1]
        refine ⟨h2.congr (Function.update_of_ne (by omega) _ _) (Function.update_of_ne (by omega) _ _) ?_ ?_, ?_⟩
        · funext n a b; rw [if_neg (by omega)]
        · funext n a b; rw [if_neg (by omega)]
        · rw [Function.update_of_ne (show k ≠ i + 1 by omega)]
          refine le_trans (le_of_eq (bn_congr fun n _ a _ b _ => ?_)) h3
          simp only [cfl, ge k h1]
      · obtain rfl : k = i + 1 := by omega
        rw [Function.update_self]
        have hYX : ∀ a < o.rank (i + 1), ∀ n < o.N (i + 1), ∀ b < r' (i + 2), Y.get (p ++ [a, n * r' (i + 2) + b]) = C p (i + 1) n a b :=
          fun a ha n hn b hb => bY.wide sY hp ha hn hb
        have hflat : ∀ f : ℕ → ℕ → ℝ, fn (o.rank (i + 1)) (o.N (i + 1) * r' (i + 2)) f =
            bn (o.rank (i + 1)) (o.N (i + 1)) (r' (i + 2)) fun n a b => f a (n * r' (i + 2) + b) := fun f => by
          rw [bn_wide]
          exact fn_congr fun a _ y _ => by simp only [wideM]; rw [Nat.div_add_mod']
        refine ⟨RStepE.of_svd (r := rr (i + 1)) hε (by omega) ht (fun a ha n hn b hb => by rw [Function.update_self])
          (fun n hn a ha b hb => by rw [Function.update_self]) ?_ ?_ (fun ρ hρ => ?_), ?_⟩
        · rw [Function.update_self]
          rw [hflat, hflat] at hxe
          simp only [show ¬(i + 1 = i) by omega, if_false]
          refine le_trans (le_of_eq (bn_congr fun n hn a ha b hb => ?_)) (hxe.trans (le_of_eq ?_))
          · rw [hYX a ha n hn b hb]
          · congr 1
            exact bn_congr fun n hn a ha b hb => hYX a ha n hn b hb
        · simp only [Nat.add_sub_cancel, if_true]
          exact carry
        · have := keptRank_full (n := o.rank (i + 1)) (m := o.N (i + 1) * r' (i + 2)) hρ
          rw [hkept] at this
          exact this
        · rw [Function.update_self]
          refine le_trans (le_of_eq ?_) hVe
          rw [fn_transpose, bn_wide]
          refine fn_congr fun a ha y hy => ?_
          have hr2 : 0 < r' (i + 2) := hr'pos _ (by omega)
          have hn' : y / r' (i + 2) < (o.modes (i + 1)).prod := (Nat.div_lt_iff_lt_mul hr2).2 hy
          have hb' : y % r' (i + 2) < r' (i + 2) := Nat.mod_lt _ hr2
          simp only [wideM, cfl, gi1]
          rw [bG.core sG rfl hp ha (unravel_valid hn') hb', ravel_unravel hn', vT p hp, Nat.div_add_mod']

theorem roundStepF_congr (F : FloatRoutines) (svd : SVDRoutine) {t o : TT ℝ} (hb : o.batch = t.batch) (hs : o.rawShape = t.rawShape) (bounds : List ℕ) (i : ℕ)
    (s : List (Tensor ℝ) × List ℕ) : roundStepF F svd t bounds i s = roundStepF F svd o bounds i s := by
  unfold roundStepF coreModes
  rw [hb, hs]

/-- Two errors: the one of the orthogonalization, `(g - 1) P`, and the one of the compression. -/
theorem combine_err {x s qx qs tq g H E P c w : ℝ} (hw : 0 ≤ w) (hH : 1 ≤ H) (hE : 1 ≤ E) (h1 : x ≤ tq + qx) (h2 : qs ≤ tq + s) (htq : tq ≤ (g - 1) * P)
    (hc : c ≤ g * P) (h3 : qx ≤ w * (qs + (H - 1) * c) + (E * H - 1) * c) :
    x ≤ w * (s + (H * g - 1) * P) + (E * (H * g) - 1) * P := by
  have hEH : 1 ≤ E * H := one_le_mul_of_one_le_of_one_le hE hH
  have a1 := mul_le_mul_of_nonneg_left hc (show 0 ≤ E * H - 1 by linarith)
  have a2 := mul_le_mul_of_nonneg_left hc (show 0 ≤ H - 1 by linarith)
  have a3 : qs + (H - 1) * c ≤ s + (H * g - 1) * P := by
    have : (g - 1) * P + (H - 1) * (g * P) = (H * g - 1) * P := by ring
    linarith
  have a4 := mul_le_mul_of_nonneg_left a3 hw
  have : (g - 1) * P + (E * H - 1) * (g * P) = (E * (H * g) - 1) * P := by ring
  linarith

theorem fn_tri (m n : ℕ) (A B C : ℕ → ℕ → ℝ) : fn m n (fun x y => A x y - C x y) ≤ fn m n (fun x y => A x y - B x y) + fn m n fun x y => B x y - C x y := by
  refine le_trans (le_of_eq (fn_congr fun x _ y _ => ?_)) (fn_add_le m n _ _)
  ring

theorem roundWithF_ok {F : FloatRoutines} {A : Arith} (hF : F.Follows A) {qr : QRRoutine} {svd : SVDRoutine} {ε : ℝ} (hε : 0 ≤ ε) {M : ℕ}
    (hqr : qr.Backward ε M) (hsvd : svd.Backward ε M) {t : TT ℝ} (h : t.WF) (hm : t.ModesPos)
    (hM : ∀ k < t.ndims, t.rank k * t.N k * t.rank (k + 1) ≤ M)
    {bounds : List ℕ} (hbl : bounds.length = t.ndims + 1) (hbp : ∀ k ≤ t.ndims, 0 < bounds.getD k 0) :
    ∃ x, roundWithF F qr svd t bounds = Except.ok x ∧ x.WF ∧ x.rawShape = t.rawShape ∧ x.batch = t.batch ∧ x.ndims = t.ndims ∧
      (∀ k ≤ t.ndims, x.rank k = rdRank (fun k => bounds.getD k 0) t.N (lrRank t.N t.rank) t.ndims k) ∧
      ∀ p, Valid t.bpre p →
        (∀ k, 0 < k → k < t.ndims → ∃ V : ℕ → ℕ → ℕ → ℝ, (∀ a < x.rank k, ∀ a' < x.rank k,
          ∑ n ∈ Finset.range (t.N k), ∑ b ∈ Finset.range (x.rank (k + 1)), V n a b * V n a' b = δ a a') ∧
          bn (x.rank k) (t.N k) (x.rank (k + 1)) (fun n a b => x.fl p k n a b - V n a b) ≤ ε) ∧
        ∀ S : TT ℝ, S.WF → S.rawShape = t.rawShape → S.ndims = t.ndims → (∀ k, 0 < k → k < t.ndims → S.rank k ≤ bounds.getD k 0) →
          √(entryDist t x p) ≤ √(t.ndims - 1 : ℕ) * (√(entryDist t S p) +
              (growth (fun k => truncGrowth A ε (t.rank k)) t.ndims 1 * sweepGrowth A ε t.rank (t.ndims - 1) - 1) * normProd t.N t.rank (t.fl p) t.ndims) +
            ((1 + ε) ^ (t.ndims - 1) * (growth (fun k => truncGrowth A ε (t.rank k)) t.ndims 1 * sweepGrowth A ε t.rank (t.ndims - 1)) - 1) *
              normProd t.N t.rank (t.fl p) t.ndims := by
  have hpos := h.pos
  obtain ⟨o, eo, ho, hors, hob, hon, hork, res⟩ := orthoLRF_ok hF hε hqr h hm hM
  have hom : o.ModesPos := by rw [TT.ModesPos, hors]; exact hm
  set d := t.ndims with hd
  have hd1 : d - 1 + 1 = d := by omega
  set bd : ℕ → ℕ := fun k => bounds.getD k 0 with hbd
  have hMo : o.modes = t.modes := by funext k; simp [TT.modes, hors]
  have hN : o.N = t.N := by funext k; simp [TT.N, hMo]
  have hpre : o.bpre = t.bpre := by simp [TT.bpre, hob]
  have hole : ∀ k ≤ d, o.rank k ≤ t.rank k := fun k hk => by rw [hork k hk]; exact lrRank_le _ _ h.rank_first k
  choose! Q hQ using res
  have hQo : ∀ p, Valid o.bpre p → ∀ k, k + 1 < o.ndims → LOrth o.N o.rank (Q p) k ∧
      bn (o.rank k) (o.N k) (o.rank (k + 1)) (fun n a b => o.fl p k n a b - Q p k n a b) ≤ ε := by
    intro p hp k hk
    rw [hpre] at hp
    rw [hon] at hk
    have h1 := (hQ p hp).orth k (by omega)
    have h2 := (hQ p hp).near k (by omega)
    rw [hN]
    rw [← hork k (by omega), ← hork (k + 1) (by omega)] at h2
    refine ⟨fun b hb b' hb' => ?_, h2⟩
    rw [hork _ (by omega)] at hb hb' ⊢
    exact h1 b hb b' hb'
  have hinit := RdInvF.init (A := A) (ε := ε) ho Q bd t.rank
  rw [hon] at hinit
  obtain ⟨s, es, hs⟩ := forRange_inv (fun j s => RdInvF A ε o Q bd t.rank (d - 1 - j) s)
    (fun j => roundStepF F svd t bounds (d - 1 - j)) 0 (d - 1) (o.cores, List.replicate (d + 1) 1) hinit
    (fun j s _ hj hP => by
      have e : d - 1 - j = d - 1 - (j + 1) + 1 := by omega
      rw [roundStepF_congr F svd hob hors, e]
      rw [e] at hP
      have hsz : o.rank (d - 1 - (j + 1) + 1) * o.N (d - 1 - (j + 1) + 1) * o.rank (d - 1 - (j + 1) + 2) ≤ M := by
        rw [hN]
        exact (Nat.mul_le_mul (Nat.mul_le_mul_right _ (hole _ (by omega))) (hole _ (by omega))).trans (hM _ (by omega))
      exact roundStepF_ok hF hε hsvd ho hom (by rw [hon]; exact hbl) (by rw [hon]; exact hbp) (by rw [hon]; exact hole) hQo _ (by omega) hsz s hP)
  rw [Nat.zero_add, Nat.sub_self] at hs
  obtain ⟨C, hB, hC⟩ := hs.cur
  set r' := rdRank bd o.N o.rank o.ndims with hr'
  have hNp : ∀ k < o.ndims, 0 < o.N k := fun k hk => modes_pos ho hom hk
  have hr'pos : ∀ k ≤ d, 0 < r' k := fun k hk =>
    rdRank_pos (by rw [hon]; exact hbp) hNp ho.rank_pos (by rw [hon]; exact hk)
  have hr'0 : r' 0 = 1 := rdRank_zero _ _ _ _
  have hr'd : r' d = 1 := by rw [← hon]; exact rdRank_last _ _ _ _
  rw [ho.rank_first, hpre] at hB
  obtain ⟨G, eG, sG, bG⟩ := hB.reshape_some (s := t.batch.toList ++ 1 :: (t.modes 0 ++ [r' 1]))
    (by simp [List.prod_append, TT.N, TT.bpre, hMo])
  have hl : (s.1.set 0 G).length = d := by rw [List.length_set, hs.len, hon]
  have g0 : (s.1.set 0 G).getD 0 default = G := getD_set_self _ _ _ _ (by rw [hs.len]; omega)
  have gk : ∀ k, 0 < k → (s.1.set 0 G).getD k default = s.1.getD k default := fun k hk => getD_set_ne _ _ _ (by omega)
  have chain : Chain t.batch (s.1.set 0 G) r' t.modes t.rawShape.length := by
    refine ⟨by omega, hr'0, by rw [hl]; exact hr'd, fun k hk => hr'pos k (by omega), h.rows,
      fun k _ => by simp [TT.modes], fun k hk => ?_, h.batch_pos⟩
    rw [hl] at hk
    rcases Nat.eq_zero_or_pos k with rfl | h1
    · rw [g0, hr'0]; exact sG
    · rw [gk k h1, hs.shape k h1 (by omega), hMo, hpre]; rfl
  have rows : t.rawShape = rowsOf t.modes (s.1.set 0 G).length t.rawShape.length := by rw [hl]; exact h.rows_eq
  have hranks : s.2 = ranksOf r' d := by
    apply List.ext_getElem
    · rw [hs.rlen, hon]; simp [ranksOf]
    · intro k h1 h2
      have := hs.rk k (by rw [hs.rlen] at h1; omega)
      rw [List.getD_eq_getElem _ _ h1] at this
      rw [this]
      simp only [ranksOf, List.getElem_map, List.getElem_range]
      split_ifs with h0
      · obtain rfl : k = 0 := by omega
        exact hr'0.symm
      · rfl
  have e : roundWithF F qr svd t bounds = Except.ok (chainTT t.batch (s.1.set 0 G) r' t.modes t.rawShape.length) := by
    have q0 : pyGet s.2 0 = Except.ok 1 := by
      rw [pyGet_of_lt _ _ 0 (by rw [hs.rlen]; omega), hs.rk 0 (by omega)]; rfl
    have q1 : pyGet s.2 1 = Except.ok (r' 1) := by
      rw [pyGet_of_lt _ _ 0 (by rw [hs.rlen]; omega), hs.rk 1 (by omega)]; rfl
    unfold roundWithF
    rw [show orthogonalizeF F qr t true = orthoLRF F qr t from rfl, eo]
    simp only [R.ok_bind, ← hd, es, q0, q1]
    rw [show pyGet s.1 0 = Except.ok (s.1.getD 0 default) from pyGet_of_lt _ _ _ (by rw [hs.len]; omega), R.ok_bind,
      show reshape (s.1.getD 0 default) ((t.batch.toList ++ 1 :: (coreModes t 0 ++ [r' 1])).map some) = Except.ok G from eG, R.ok_bind]
    have hranks' : some s.2 = some (ranksOf r' (s.1.set 0 G).length) := by rw [hl, hranks]
    cases hb : t.batch with
    | none =>
      rw [hb] at chain
      exact mkTT_ok chain _ (Or.inr (chain.clean rows)) _ (Or.inr hranks')
    | some n =>
      rw [hb] at chain
      exact mkBatch_ok chain _ (Or.inr (chain.clean rows)) _ (Or.inr hranks') _ (Or.inr rfl)
  set x := chainTT t.batch (s.1.set 0 G) r' t.modes t.rawShape.length with hx
  have hrank : ∀ k ≤ d, x.rank k = r' k := fun k hk => chainTT_rank k (by rw [hl]; exact hk)
  have hmodes : ∀ k < d, x.modes k = t.modes k := fun k hk => chain.modes_eq k (by rw [hl]; exact hk)
  have hfl : ∀ p, ∀ k, 0 < k → k < d → x.fl p k = cfl s.1 o.modes p k := by
    intro p k h0 hk
    funext n a b
    rw [TT.fl, hmodes k hk, cfl, ← gk k h0, hMo]
    rfl
  have hf0 : ∀ p, Valid t.bpre p → ∀ n < o.N 0, ∀ a < 1, ∀ b < r' 1, x.fl p 0 n a b = C p 0 n a b := by
    intro p hp n hn a ha b hb
    have hn' : n < (t.modes 0).prod := by rw [hN] at hn; exact hn
    rw [TT.fl, hmodes 0 hpos, show x.core 0 = G from g0, bG.core sG (by rw [hN]; rfl) hp ha (unravel_valid hn') hb, ravel_unravel hn']
  have hxrs : x.rawShape = t.rawShape := rows.symm
  refine ⟨x, e, chain.wf, hxrs, rfl, hl, fun k hk => ?_, fun p hp => ?_⟩
  · rw [hrank k hk, hr', hN, hon]
    exact rdRank_congr (fun k hk => hork k hk) k
  have hp' : Valid o.bpre p := by rw [hpre]; exact hp
  obtain ⟨hlast, V, X, tail, hst⟩ := hC p hp'
  rw [hon] at hlast hst
  have hR : ∀ k, 0 < k → k < d → bn (r' k) (o.N k) (r' (k + 1)) (fun n a b => x.fl p k n a b - V k n a b) ≤ ε := fun k h0 hk => by
    rw [hfl p k h0 hk]; exact (hst k h0 hk).2
  have hQl : Q p (d - 1) = o.fl p (d - 1) := (hQ p hp).last
  have sw : RSweepE o.N o.rank r' (Q p) V (C p) X d tail bd (fun k => truncGrowth A ε (t.rank k)) :=
    ⟨hpos, ho.rank_first, hr'0, by rw [← hon]; exact ho.rank_last, hr'd, fun k hk => (hQo p hp' k (by rw [hon]; exact hk)).1,
      fun n hn a ha => by rw [hQl]; exact hlast n hn a ha, fun k => truncGrowth_ge A hε _, fun k h0 hk => (hst k h0 hk).1⟩
  refine ⟨fun k h0 hk => ⟨V k, ?_, ?_⟩, fun S hSw hSr hSn hSb => ?_⟩
  · intro a ha a' ha'
    rw [hrank k (by omega)] at ha ha'
    rw [hrank (k + 1) (by omega), ← hN]
    exact (hst k h0 hk).1.orth a ha a' ha'
  · rw [hrank k (by omega), hrank (k + 1) (by omega), ← hN]
    exact hR k h0 hk
  · set P := normProd t.N t.rank (t.fl p) d with hP
    set g := sweepGrowth A ε t.rank (d - 1) with hg
    have herrQ := (hQ p hp).errQ
    rw [hd1, ← hP] at herrQ
    have hlm : ∀ z y, lmat t.N o.rank (Q p) d z y = lmat t.N (lrRank t.N t.rank) (Q p) d z y := fun z y =>
      lmat_rank_congr fun k hk => hork k (by omega)
    have herr := sw.error hε (hf0 p hp) hR (S.fl p) (rS := S.rank) (by rw [← hSn]; exact hSw.rank_last) hSb
    have htx := chainDist_entry h chain.wf hxrs hl p
    have hts := chainDist_entry h hSw hSr hSn p
    rw [← htx, ← hts]
    rw [hN] at herr
    rw [chainDist_lmat, chainDist_lmat, Real.sqrt_sq (fn_nonneg _ _ _), Real.sqrt_sq (fn_nonneg _ _ _)] at herr
    rw [chainDist_lmat, chainDist_lmat, Real.sqrt_sq (fn_nonneg _ _ _), Real.sqrt_sq (fn_nonneg _ _ _)]
    rw [show chainTT t.batch (s.1.set 0 G) r' t.modes t.rawShape.length = x from rfl, ← hd]
    have hxl : ∀ z y, lmat t.N x.rank (x.fl p) d z y = lmat t.N r' (x.fl p) d z y := fun z y => lmat_rank_congr fun k hk => hrank k (by omega)
    have hH : 1 ≤ growth (fun k => truncGrowth A ε (t.rank k)) d 1 := growth_ge (fun k => truncGrowth_ge A hε _) _ _
    have hc : lastNorm t.N o.rank r' (C p) d ≤ g * P := by
      have e1 : lastNorm t.N o.rank r' (C p) d = fn (rowsN t.N d) 1 (lmat t.N o.rank (Q p) d) := by
        have h1 := fn_lmat_orth (N := t.N) (r := o.rank) (A := Q p) (k := d - 1) ho.rank_first
          (fun j hj => by rw [← hN]; exact (hQo p hp' j (by omega)).1)
        rw [hd1, show o.rank d = 1 by rw [← hon]; exact ho.rank_last] at h1
        rw [h1, lastNorm, hr'd]
        refine bn_congr fun n hn a ha b hb => ?_
        obtain rfl : b = 0 := by omega
        rw [hQl]
        exact hlast n (by rw [hN]; exact hn) a ha
      have h2 := fn_diff_le herrQ
      have h3 := fn_lmat_le (N := t.N) (G := t.fl p) h.rank_first d
      rw [← hP, show t.rank d = 1 from h.rank_last] at h3
      rw [e1, fn_congr fun z _ y _ => hlm z y]
      have := (abs_le.1 h2).2
      linarith
    refine combine_err (tq := fn (rowsN t.N d) 1 fun z y => lmat t.N t.rank (t.fl p) d z y - lmat t.N o.rank (Q p) d z y) (Real.sqrt_nonneg _) hH
      (one_le_pow₀ (by linarith)) (fn_tri _ _ _ (lmat t.N o.rank (Q p) d) _) ?_ ?_ hc ?_ (qs := fn (rowsN t.N d) 1 fun z y => lmat t.N o.rank (Q p) d z y - lmat t.N S.rank (S.fl p) d z y)
    · refine (fn_tri _ _ _ (lmat t.N t.rank (t.fl p) d) _).trans (le_of_eq ?_)
      congr 1
      rw [← fn_neg]
      exact fn_congr fun z _ y _ => by ring
    · refine le_trans (le_of_eq ?_) herrQ
      rw [← fn_neg]
      exact fn_congr fun z _ y _ => by rw [hlm]; ring
    · refine le_trans (le_of_eq (fn_congr fun z _ y _ => ?_)) herr
      rw [hxl]

end T3f
