import Verif.Proofs.OrthoRL
import Verif.Proofs.Svd
import Verif.Proofs.RoundAbs
import Verif.Proofs.FullGet

/-! # Rounding -/

namespace T3f

theorem keptRank_le_bound {b n m : ℕ} : keptRank b n m ≤ b := by
  unfold keptRank; split_ifs <;> omega

theorem keptRank_le_min {b n m : ℕ} (hn : 0 < n) (hm : 0 < m) : keptRank b n m ≤ min n m := by
  unfold keptRank; split_ifs <;> omega

theorem keptRank_pos {b n m : ℕ} (hb : 0 < b) (hn : 0 < n) (hm : 0 < m) : 0 < keptRank b n m := by
  unfold keptRank; split_ifs <;> omega

theorem keptRank_full {b n m ρ : ℕ} (h : ρ ≤ b) : ρ ≤ keptRank b n m ∨ keptRank b n m = min n m := by
  unfold keptRank; split_ifs <;> omega

/-- TT-ranks after compression of ranks `r` from right to left. -/
def rdAux (bd N r : ℕ → ℕ) (d : ℕ) : ℕ → ℕ
  | 0 => 1
  | m + 1 => keptRank (bd (d - 1 - m)) (r (d - 1 - m)) (N (d - 1 - m) * rdAux bd N r d m)

def rdRank (bd N r : ℕ → ℕ) (d k : ℕ) : ℕ := if k = 0 then 1 else rdAux bd N r d (d - k)

theorem rdRank_step (bd N r : ℕ → ℕ) {d k : ℕ} (h0 : 0 < k) (hk : k < d) :
    rdRank bd N r d k = keptRank (bd k) (r k) (N k * rdRank bd N r d (k + 1)) := by
  unfold rdRank
  rw [if_neg (by omega), if_neg (by omega), show d - k = (d - (k + 1)) + 1 by omega, rdAux, show d - 1 - (d - (k + 1)) = k by omega]

theorem rdRank_last (bd N r : ℕ → ℕ) (d : ℕ) : rdRank bd N r d d = 1 := by
  unfold rdRank; rw [Nat.sub_self]; split_ifs <;> rfl

theorem rdRank_zero (bd N r : ℕ → ℕ) (d : ℕ) : rdRank bd N r d 0 = 1 := if_pos rfl

theorem rdRank_pos {bd N r : ℕ → ℕ} {d : ℕ} (hb : ∀ k ≤ d, 0 < bd k) (hN : ∀ k < d, 0 < N k) (hr : ∀ k ≤ d, 0 < r k) {k : ℕ} (hk : k ≤ d) :
    0 < rdRank bd N r d k := by
  induction hj : d - k generalizing k with
  | zero =>
    obtain rfl : k = d := by omega
    rw [rdRank_last]; omega
  | succ m ih =>
    rcases Nat.eq_zero_or_pos k with rfl | h0
    · rw [rdRank_zero]; omega
    · rw [rdRank_step _ _ _ h0 (by omega)]
      exact keptRank_pos (hb k hk) (hr k hk) (Nat.mul_pos (hN k (by omega)) (ih (by omega) (by omega)))

theorem RStep.congr {N rL rV : ℕ → ℕ} {L V V' C C' : ℕ → ℕ → ℕ → ℕ → ℝ} {k bd : ℕ} {tail : ℝ}
    (h : RStep N rL rV L V C k tail bd) (hV : V' k = V k) (hC : C' k = C k) (hC1 : C' (k - 1) = C (k - 1)) :
    RStep N rL rV L V' C' k tail bd := by
  obtain ⟨h1, h2, h3, h4⟩ := h
  refine ⟨?_, ?_, ?_, ?_⟩
  · unfold ROrth at h1 ⊢; rw [hV]; exact h1
  · rw [hC1, hC, hV]; exact h2
  · rw [hC, hV]; exact h3
  · rw [hC]; exact h4

theorem RStep.of_svd {N rL rV : ℕ → ℕ} {L V C : ℕ → ℕ → ℕ → ℕ → ℝ} {k bd : ℕ} {tail : ℝ} {x u : ℕ → ℕ → ℝ} {s : ℕ → ℝ} {v : ℕ → ℕ → ℝ}
    (h : TruncSvd (rL k) (N k * rV (k + 1)) (rV k) x u s v tail)
    (hx : ∀ a < rL k, ∀ n < N k, ∀ b < rV (k + 1), x a (n * rV (k + 1) + b) = C k n a b)
    (hV : ∀ n < N k, ∀ a < rV k, ∀ b < rV (k + 1), V k n a b = v (n * rV (k + 1) + b) a)
    (hC : ∀ n < N (k - 1), ∀ a < rL (k - 1), ∀ y < rV k, C (k - 1) n a y = ∑ l ∈ Finset.range (rL k), L (k - 1) n a l * (u l y * s y))
    (hb : ∀ ρ ≤ bd, ρ ≤ rV k ∨ rV k = min (rL k) (N k * rV (k + 1))) : RStep N rL rV L V C k tail bd := by
  have hE : ∀ a < rL k, ∀ y < rV k, ∑ m ∈ Finset.range (N k), ∑ b ∈ Finset.range (rV (k + 1)), C k m a b * V k m y b = u a y * s y := by
    intro a ha y hy
    rw [← h.mulV a ha y hy, sum_range_mul]
    refine Finset.sum_congr rfl fun n hn => Finset.sum_congr rfl fun b hb => ?_
    rw [Finset.mem_range] at hn hb
    rw [hx a ha n hn b hb, hV n hn y hy b hb]
  refine ⟨?_, ?_, ?_, ?_⟩
  · intro a ha a' ha'
    have := h.orthV a ha a' ha'
    rw [sum_range_mul] at this
    rw [δ, ← this]
    refine Finset.sum_congr rfl fun n hn => Finset.sum_congr rfl fun b hb => ?_
    rw [Finset.mem_range] at hn hb
    rw [hV n hn a ha b hb, hV n hn a' ha' b hb]
  · intro n hn a ha y hy
    rw [hC n hn a ha y hy]
    exact Finset.sum_congr rfl fun l hl => by rw [hE l (Finset.mem_range.1 hl) y hy]
  · have e1 : fro3 (rL k) (N k) (rV (k + 1)) (C k) = ∑ i ∈ Finset.range (rL k), ∑ j ∈ Finset.range (N k * rV (k + 1)), x i j ^ 2 := by
      refine Finset.sum_congr rfl fun a ha => ?_
      rw [sum_range_mul]
      refine Finset.sum_congr rfl fun n hn => Finset.sum_congr rfl fun b hb => ?_
      rw [Finset.mem_range] at ha hn hb
      rw [hx a ha n hn b hb]
    rw [e1, h.norm]
    congr 1
    rw [Finset.sum_comm]
    refine Finset.sum_congr rfl fun y hy => ?_
    rw [Finset.mem_range] at hy
    have := h.orthU y hy y hy
    rw [if_pos rfl] at this
    calc s y ^ 2 = (∑ i ∈ Finset.range (rL k), u i y * u i y) * s y ^ 2 := by rw [this, one_mul]
      _ = _ := by
        rw [Finset.sum_mul]
        exact Finset.sum_congr rfl fun a ha => by rw [hE a (Finset.mem_range.1 ha) y hy]; ring
  · intro ρ P Q hρ
    refine le_trans (h.best ρ P (fun l j => Q l (j / rV (k + 1)) (j % rV (k + 1))) (hb ρ hρ)) (le_of_eq ?_)
    refine Finset.sum_congr rfl fun a ha => ?_
    rw [sum_range_mul]
    refine Finset.sum_congr rfl fun n hn => Finset.sum_congr rfl fun b hb => ?_
    rw [Finset.mem_range] at ha hn hb
    rw [hx a ha n hn b hb]
    have e1 : (n * rV (k + 1) + b) / rV (k + 1) = n := by
      rw [Nat.mul_comm, Nat.mul_add_div (by omega), Nat.div_eq_of_lt hb, Nat.add_zero]
    have e2 : (n * rV (k + 1) + b) % rV (k + 1) = b := by
      rw [Nat.mul_comm, Nat.mul_add_mod, Nat.mod_eq_of_lt hb]
    rw [e1, e2]

/-- State of the compression when core `i` is next. -/
structure RdInv (o : TT ℝ) (bd : ℕ → ℕ) (i : ℕ) (s : List (Tensor ℝ) × List ℕ) : Prop where
  len : s.1.length = o.ndims
  rlen : s.2.length = o.ndims + 1
  rk : ∀ k ≤ o.ndims, s.2.getD k 0 = if k ≤ i then 1 else rdRank bd o.N o.rank o.ndims k
  shape : ∀ k, i < k → k < o.ndims → (s.1.getD k default).shape = o.bpre ++
    rdRank bd o.N o.rank o.ndims k :: (o.modes k ++ [rdRank bd o.N o.rank o.ndims (k + 1)])
  rest : ∀ k < i, s.1.getD k default = o.core k
  cur : ∃ (C : List ℕ → ℕ → ℕ → ℕ → ℕ → ℝ) (tail : List ℕ → ℕ → ℝ),
    Blk (s.1.getD i default) o.bpre (o.rank i) (o.N i) (rdRank bd o.N o.rank o.ndims (i + 1)) (fun p α n β => C p i n α β) ∧
    ∀ p, Valid o.bpre p → (∀ n < o.N (o.ndims - 1), ∀ a < o.rank (o.ndims - 1), C p (o.ndims - 1) n a 0 = o.fl p (o.ndims - 1) n a 0) ∧
      ∀ k, i < k → k < o.ndims → RStep o.N o.rank (rdRank bd o.N o.rank o.ndims) (o.fl p) (cfl s.1 o.modes p) (C p) k (tail p k) (bd k)

theorem RdInv.init {o : TT ℝ} (h : o.WF) (bd : ℕ → ℕ) : RdInv o bd (o.ndims - 1) (o.cores, List.replicate (o.ndims + 1) 1) := by
  have hd1 : o.ndims - 1 + 1 = o.ndims := by have := h.pos; omega
  refine ⟨rfl, by simp, fun k hk => ?_, fun k hk hk' => absurd hk (by omega), fun k _ => rfl, fun p k n a b => o.fl p k n a b, fun _ _ => 0, ?_, ?_⟩
  · have : (List.replicate (o.ndims + 1) 1).getD k 0 = 1 := by
      rw [List.getD_eq_getElem _ _ (by rw [List.length_replicate]; omega)]; simp
    simp only []
    rw [this]
    split_ifs with hh
    · rfl
    · obtain rfl : k = o.ndims := by omega
      rw [rdRank_last]
  · rw [hd1, rdRank_last]
    have := blk_core h (show o.ndims - 1 < o.ndims by omega)
    rw [hd1, h.rank_last] at this
    exact this
  · exact fun p _ => ⟨fun n _ a _ => rfl, fun k hk hk' => absurd hk (by omega)⟩

theorem roundStep_ok {svd : SVDRoutine} (hsvd : svd.Correct) {o : TT ℝ} (h : o.WF) (hm : o.ModesPos) {bounds : List ℕ}
    (hbl : bounds.length = o.ndims + 1) (hbp : ∀ k ≤ o.ndims, 0 < bounds.getD k 0)
    (i : ℕ) (hi : i + 1 < o.ndims) (s : List (Tensor ℝ) × List ℕ) (hs : RdInv o (fun k => bounds.getD k 0) (i + 1) s) :
    ∃ s', roundStep svd o bounds (i + 1) s = Except.ok s' ∧ RdInv o (fun k => bounds.getD k 0) i s' := by
  obtain ⟨C, tail, hB, hC⟩ := hs.cur
  set bd : ℕ → ℕ := fun k => bounds.getD k 0 with hbd
  set r' := rdRank bd o.N o.rank o.ndims with hr'
  have hr'pos : ∀ k ≤ o.ndims, 0 < r' k := fun k hk => rdRank_pos hbp (fun k hk => modes_pos h hm hk) h.rank_pos hk
  have hpre : 0 < o.bpre.prod := batch_prod_pos h.batch_pos
  have hNp : 0 < o.N (i + 1) := modes_pos h hm hi
  have hcols : 0 < o.N (i + 1) * r' (i + 2) := Nat.mul_pos hNp (hr'pos _ (by omega))
  have hrows := h.rank_pos (i + 1) (by omega)
  have hkept : keptRank (bd (i + 1)) (o.rank (i + 1)) (o.N (i + 1) * r' (i + 2)) = r' (i + 1) :=
    (rdRank_step bd o.N o.rank (by omega) hi).symm
  have hmin : r' (i + 1) ≤ min (o.rank (i + 1)) (o.N (i + 1) * r' (i + 2)) := by
    rw [← hkept]; exact keptRank_le_min hrows hcols
  obtain ⟨Y, eY, sY, bY⟩ := hB.reshape_first (o.N (i + 1) * r' (i + 2)) (o.rank (i + 1)) (Nat.mul_pos hpre hcols) rfl
  obtain ⟨S, U, W, S', U', V', u, v, sg, tl, eS, eU', eS', eV', sU, sS, sV, hsv⟩ := svd_pre hsvd (bs := o.batch) sY hmin
  obtain ⟨T, eT, sT, vT⟩ := transpose_pre (bs := o.batch) sV
  obtain ⟨G, eG, sG, bG⟩ := (blk_of_wide (pre := o.batch.toList) sT).reshape_some
    (s := o.batch.toList ++ r' (i + 1) :: (o.modes (i + 1) ++ [r' (i + 2)])) (by simp [List.prod_append, TT.N])
  have hprev := blk_core h (show i < o.ndims by omega)
  obtain ⟨Z, eZ, sZ, bZ⟩ := hprev.reshape_first (o.rank (i + 1)) (o.rank i * o.N i) (Nat.mul_pos hpre hrows) (by ring)
  obtain ⟨Z1, eZ1, sZ1, bZ1⟩ := bZ.mul_right (bs := o.batch) sZ sU
  obtain ⟨D, eD, sD, vD⟩ := linalgDiag_pre (bs := o.batch) sS
  obtain ⟨Z2, eZ2, sZ2, bZ2⟩ := bZ1.mul_right (bs := o.batch) sZ1 sD
  have p1 : pyGet s.1 (i + 1) = Except.ok (s.1.getD (i + 1) default) := pyGet_of_lt _ _ _ (by rw [hs.len]; omega)
  have p2 : pyGet s.2 (i + 1 + 1) = Except.ok (r' (i + 2)) := by
    rw [pyGet_of_lt _ _ 0 (by rw [hs.rlen]; omega), hs.rk _ (by omega), if_neg (by omega)]
  have p3 : pyGet Y.shape o.batch.toList.length = Except.ok (o.rank (i + 1)) := by
    rw [sY, pyGet_of_lt _ _ 0 (by simp [TT.bpre]), TT.bpre, List.getD_append_right _ _ _ _ le_rfl]; simp
  have p4 : pyGet bounds (i + 1) = Except.ok (bd (i + 1)) := pyGet_of_lt _ _ 0 (by omega)
  have p5 : pyGet s.1 i = Except.ok (o.core i) := by
    rw [pyGet_of_lt _ _ default (by rw [hs.len]; omega), hs.rest i (by omega)]
  refine ⟨((s.1.set (i + 1) G).set i Z2, s.2.set (i + 1) (r' (i + 1))), ?_, ?_⟩
  · unfold roundStep
    simp only [p1, p2, R.ok_bind]
    rw [show reshape (s.1.getD (i + 1) default) (o.batch.toList.map some ++ [none, some ((coreModes o (i + 1)).prod * r' (i + 2))]) =
      Except.ok Y from eY]
    simp only [R.ok_bind, p3, p4]
    rw [show (coreModes o (i + 1)).prod * r' (i + 2) = o.N (i + 1) * r' (i + 2) from rfl, hkept]
    simp only [eS, R.ok_bind, eU', eS', eV', eT]
    rw [show reshape T ((o.batch.toList ++ r' (i + 1) :: (coreModes o (i + 1) ++ [r' (i + 2)])).map some) = Except.ok G from eG]
    simp only [R.ok_bind, Nat.add_sub_cancel, p5]
    rw [show reshape (o.core i) (o.batch.toList.map some ++ [none, some (o.rank (i + 1))]) = Except.ok Z from eZ]
    simp only [R.ok_bind, eZ1, eD, eZ2, R.pure_eq]
  · have hlen : i + 1 < s.1.length := by rw [hs.len]; omega
    have ge : ∀ k, i + 1 < k → ((s.1.set (i + 1) G).set i Z2).getD k default = s.1.getD k default := fun k hk => by
      rw [getD_set_ne _ _ _ (by omega), getD_set_ne _ _ _ (by omega)]
    have gl : ∀ k, k < i → ((s.1.set (i + 1) G).set i Z2).getD k default = s.1.getD k default := fun k hk => by
      rw [getD_set_ne _ _ _ (by omega), getD_set_ne _ _ _ (by omega)]
    have gi1 : ((s.1.set (i + 1) G).set i Z2).getD (i + 1) default = G := by
      rw [getD_set_ne _ _ _ (by omega), getD_set_self _ _ _ _ hlen]
    have gi : ((s.1.set (i + 1) G).set i Z2).getD i default = Z2 :=
      getD_set_self _ _ _ _ (by rw [List.length_set, hs.len]; omega)
    have hZv : ∀ p, Valid o.bpre p → ∀ a < o.rank i, ∀ n < o.N i, ∀ y < r' (i + 1),
        ∑ l ∈ Finset.range (r' (i + 1)), (∑ l' ∈ Finset.range (o.rank (i + 1)), o.fl p i n a l' * U'.get (p ++ [l', l])) * D.get (p ++ [l, y]) =
          ∑ l' ∈ Finset.range (o.rank (i + 1)), o.fl p i n a l' * (u p l' y * sg p y) := by
      intro p hp a ha n hn y hy
      obtain ⟨-, hU, hS, -⟩ := hsv p hp
      rw [Finset.sum_eq_single y]
      · rw [vD p hp, if_pos rfl, hS y hy, Finset.sum_mul]
        exact Finset.sum_congr rfl fun l' hl' => by rw [hU l' (Finset.mem_range.1 hl') y hy]; ring
      · intro l _ hl
        rw [vD p hp, if_neg hl, mul_zero]
      · intro hy'; exact absurd (Finset.mem_range.2 hy) hy'
    refine ⟨by simp [hs.len], by simp [hs.rlen], fun k hk => ?_, fun k hk hk' => ?_, fun k hk => ?_,
      fun p k n a b => if k = i then ∑ l' ∈ Finset.range (o.rank (i + 1)), o.fl p i n a l' * (u p l' b * sg p b) else C p k n a b,
      fun p k => if k = i + 1 then tl p else tail p k, ?_, fun p hp => ⟨fun n hn a ha => ?_, fun k hk hk' => ?_⟩⟩
    · simp only []
      rcases eq_or_ne k (i + 1) with rfl | hne
      · rw [getD_set_self _ _ _ _ (by rw [hs.rlen]; omega), if_neg (by omega)]
      · rw [getD_set_ne _ _ _ hne.symm, hs.rk k hk]
        by_cases h1 : k ≤ i
        · rw [if_pos (by omega), if_pos h1]
        · rw [if_neg (by omega), if_neg h1]
    · simp only []
      rcases Nat.lt_or_ge (i + 1) k with h1 | h1
      · rw [ge k h1]; exact hs.shape k h1 hk'
      · obtain rfl : k = i + 1 := by omega
        rw [gi1]; exact sG
    · simp only []
      rw [gl k hk]; exact hs.rest k (by omega)
    · simp only []
      rw [gi]
      refine bZ2.congr fun p hp a ha n hn y hy => ?_
      rw [if_pos trivial]
      exact hZv p hp a ha n hn y hy
    · simp only []
      rw [if_neg (by omega)]
      exact (hC p hp).1 n hn a ha
    · simp only []
      rcases Nat.lt_or_ge (i + 1) k with h1 | h1
      · rw [if_neg (by omega)]
        refine ((hC p hp).2 k h1 hk').congr ?_ ?_ ?_
        · funext n a b; simp only [cfl, ge k h1]
        · funext n a b; rw [if_neg (by omega)]
        · funext n a b; rw [if_neg (by omega)]
      · obtain rfl : k = i + 1 := by omega
        rw [if_pos rfl]
        obtain ⟨ht, hU, hS, hV⟩ := hsv p hp
        refine RStep.of_svd ht (fun a ha n hn b hb => ?_) (fun n hn a ha b hb => ?_) (fun n hn a ha y hy => ?_) (fun ρ hρ => ?_)
        · rw [if_neg (by omega)]
          exact bY.wide sY hp ha hn hb
        · have hn' : n < (o.modes (i + 1)).prod := hn
          simp only [cfl, gi1]
          rw [bG.core sG rfl hp ha (unravel_valid hn') hb, ravel_unravel hn', vT p hp]
          exact hV _ (mul_add_lt hn hb) a ha
        · rw [Nat.add_sub_cancel, if_pos rfl]
        · have := keptRank_full (n := o.rank (i + 1)) (m := o.N (i + 1) * r' (i + 2)) hρ
          rw [hkept] at this
          exact this

end T3f
