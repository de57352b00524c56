import Verif.Proofs.ToTTErr

/-! # `to_tt_tensor` in floating point arithmetic -/

namespace T3f

/-- State of `to_tt_tensor` when core `i` is next. -/
structure TuInvF (A : Arith) (ε : ℝ) (X : Tensor ℝ) (bd : ℕ → ℕ) (i : ℕ) (s : Tensor ℝ × List ℕ × List (Tensor ℝ)) : Prop where
  len : s.2.2.length = i
  rlen : s.2.1.length = X.shape.length + 1
  rk : ∀ k ≤ X.shape.length, s.2.1.getD k 0 = if k ≤ i then tuRank bd X.shape k else 1
  shape : ∀ k < i, (s.2.2.getD k default).shape = [tuRank bd X.shape k, X.shape.getD k 0, tuRank bd X.shape (k + 1)]
  cur : ∃ (D U Y : ℕ → ℕ → ℕ → ℕ → ℝ) (tail : ℕ → ℝ),
    Blk s.1 [] (tuRank bd X.shape i) (X.shape.getD i 0) (restN X.shape (i + 1)) (fun _ α n β => D i n α β) ∧
    (∀ n < X.shape.getD 0 0, ∀ b < restN X.shape 1, D 0 n 0 b = X.flat (n * restN X.shape 1 + b)) ∧
    ∀ k < i, LStepE (fun k => X.shape.getD k 0) (tuRank bd X.shape) (restN X.shape) U (copyCore X.shape) D Y k
        (tail k) (bd (k + 1)) (svdGrowth A ε (tuRank bd X.shape (k + 1))) ∧
      bn (tuRank bd X.shape k) (X.shape.getD k 0) (tuRank bd X.shape (k + 1))
        (fun n a b => cfl s.2.2 (fun k => [X.shape.getD k 0]) [] k n a b - U k n a b) ≤ ε

theorem TuInvF.init {A : Arith} {ε : ℝ} {X : Tensor ℝ} (hd : 0 < X.shape.length) (bd : ℕ → ℕ) :
    TuInvF A ε X bd 0 (X, List.replicate (X.shape.length + 1) 1, []) := by
  obtain ⟨h1, h2, h3, h4, D, tail, h5, h6, -⟩ := TuInv.init hd bd
  exact ⟨h1, h2, h3, h4, D, fun _ _ _ _ => 0, fun _ _ _ _ => 0, tail, h5, h6, fun k hk => absurd hk (by omega)⟩

theorem keptRank_mul_le {b n m : ℕ} (hn : 0 < n) (hm : 0 < m) : keptRank b n m ≤ n := (keptRank_le_min hn hm).trans (min_le_left _ _)

theorem tuRank_size {bd : ℕ → ℕ} {s : List ℕ} (hb : ∀ k ≤ s.length, 0 < bd k) (hs : ∀ n ∈ s, 0 < n) {k : ℕ} (hk : k < s.length) :
    tuRank bd s k * restN s k ≤ s.prod := by
  induction k with
  | zero => simp [tuRank, restN]
  | succ k ih =>
    have h1 := ih (by omega)
    rw [restN_step (show k < s.length by omega), ← Nat.mul_assoc] at h1
    refine le_trans (Nat.mul_le_mul_right _ ?_) h1
    rw [tuRank, if_neg (by omega)]
    exact keptRank_mul_le (Nat.mul_pos (tuRank_pos hb hs (by omega)) (getD_pos hs (by omega))) (restN_pos hs _)

theorem toTTStepF_ok {F : FloatRoutines} {A : Arith} (hF : F.Follows A) {ε : ℝ} (hε : 0 ≤ ε) {M : ℕ} {svd : SVDRoutine} (hsvd : svd.Backward ε M)
    {X : Tensor ℝ} (hs : ∀ n ∈ X.shape, 0 < n) (hM : X.shape.prod ≤ M) {bounds : List ℕ}
    (hbl : bounds.length = X.shape.length + 1) (hbp : ∀ k ≤ X.shape.length, 0 < bounds.getD k 0) (i : ℕ) (hi : i + 1 < X.shape.length)
    (s : Tensor ℝ × List ℕ × List (Tensor ℝ)) (hS : TuInvF A ε X (fun k => bounds.getD k 0) i s) :
    ∃ s', toTTStepF F svd X.shape bounds i s = Except.ok s' ∧ TuInvF A ε X (fun k => bounds.getD k 0) (i + 1) s' := by
  obtain ⟨D, U₀, Y₀, tail, hB, h0, hC⟩ := hS.cur
  set bd : ℕ → ℕ := fun k => bounds.getD k 0 with hbd
  set r' := tuRank bd X.shape with hr'
  set N : ℕ → ℕ := fun k => X.shape.getD k 0 with hN
  have hr'pos : ∀ k ≤ X.shape.length, 0 < r' k := fun k hk => tuRank_pos hbp hs hk
  have hNp : ∀ k < X.shape.length, 0 < N k := fun k hk => getD_pos hs hk
  have hrows : 0 < r' i * N i := Nat.mul_pos (hr'pos i (by omega)) (hNp i (by omega))
  have hcols : 0 < restN X.shape (i + 1) := restN_pos hs _
  have hkept : keptRank (bd (i + 1)) (r' i * N i) (restN X.shape (i + 1)) = r' (i + 1) := by
    rw [hr', tuRank, if_neg (by omega)]
  have hmin : r' (i + 1) ≤ min (r' i * N i) (restN X.shape (i + 1)) := by
    rw [← hkept]; exact keptRank_le_min hrows hcols
  have hMle : r' i * N i * restN X.shape (i + 1) ≤ M := by
    have h1 := tuRank_size hbp hs (show i < X.shape.length by omega)
    rw [restN_step (show i < X.shape.length by omega), ← Nat.mul_assoc] at h1
    exact h1.trans hM
  obtain ⟨Y, eY, sY, bY⟩ := hB.reshape_last (r' i * N i) (restN X.shape (i + 1)) (by simpa using hrows) (by ring)
  obtain ⟨S, U, W, S', U', V', x, u, v, tl, eS, eU', eS', eV', sU, sS, sV, hsv⟩ := svd_near hsvd (bs := none) sY hmin hMle
  obtain ⟨T, eT, sT, vT⟩ := transpose_pre (bs := none) sV
  obtain ⟨G, eG, sG, bG⟩ := (blk_of_tall (pre := []) (a := r' i) (N := N i) sU).reshape_some
    (s := [r' i, N i, r' (i + 1)]) (by simp)
  obtain ⟨Dg, eD, sD, vD⟩ := linalgDiag_pre (bs := none) sS
  obtain ⟨Z, eZ, sZ, vZ⟩ := matmulF_pre hF (bs := none) sD sT
  have hv0 : Valid (none : Option ℕ).toList [] := (valid_nil_iff _).2 rfl
  obtain ⟨ht, hxe, hUe, hVe⟩ := hsv [] hv0
  have hrest : restN X.shape (i + 1) = N (i + 1) * restN X.shape (i + 2) := restN_step hi
  simp only [List.nil_append] at ht hxe hUe hVe
  have hZv : ∀ y < r' (i + 1), ∀ j < restN X.shape (i + 1), |Z.get [y, j] - S'.get [y] * V'.get [j, y]| ≤
      ((1 + A.u) ^ r' (i + 1) - 1) * |S'.get [y] * V'.get [j, y]| := by
    intro y hy j hj
    have := vZ [] hv0 y hy j hj
    have h1 : ∀ l, Dg.get [y, l] = if y = l then S'.get [y] else 0 := fun l => by
      have := vD [] hv0 y l
      simpa only [List.nil_append] using this
    have h2 : ∀ l, T.get [l, j] = V'.get [j, l] := fun l => by
      have := vT [] hv0 j l
      simpa only [List.nil_append] using this
    simp only [List.nil_append, h1, h2] at this
    rw [Finset.sum_eq_single y, Finset.sum_eq_single y, if_pos rfl, ← abs_mul] at this
    · exact this
    · intro l _ hl
      rw [if_neg (Ne.symm hl), abs_zero, zero_mul]
    · intro hy'; exact absurd (Finset.mem_range.2 hy) hy'
    · intro l _ hl
      rw [if_neg (Ne.symm hl), zero_mul]
    · intro hy'; exact absurd (Finset.mem_range.2 hy) hy'
  have hcarry := scale_err (A := A) (Z := fun y j => Z.get [y, j]) (s := fun γ => S'.get [γ]) (w := fun j y => V'.get [j, y]) ht.orthV hVe hZv
  have p1 : pyGet X.shape i = Except.ok (N i) := pyGet_of_lt _ _ 0 (by omega)
  have p2 : pyGet s.2.1 i = Except.ok (r' i) := by
    rw [pyGet_of_lt _ _ 0 (by rw [hS.rlen]; omega), hS.rk _ (by omega), if_pos le_rfl]
  have p3 : pyGet Y.shape 1 = Except.ok (restN X.shape (i + 1)) := by rw [sY]; rfl
  have p4 : pyGet bounds (i + 1) = Except.ok (bd (i + 1)) := pyGet_of_lt _ _ 0 (by omega)
  refine ⟨(Z, s.2.1.set (i + 1) (r' (i + 1)), s.2.2 ++ [G]), ?_, ?_⟩
  · unfold toTTStepF
    simp only [p1, p2, R.ok_bind]
    rw [show reshape s.1 [some (r' i * N i), none] = Except.ok Y from eY]
    simp only [R.ok_bind, p3, p4, eS, hkept]
    rw [show takeLast U 1 (r' (i + 1)) = Except.ok U' from eU', show takeLast S 0 (r' (i + 1)) = Except.ok S' from eS',
      show takeLast W 1 (r' (i + 1)) = Except.ok V' from eV']
    simp only [R.ok_bind]
    rw [show reshape U' [some (r' i), some (N i), some (r' (i + 1))] = Except.ok G from eG, R.ok_bind, eD, R.ok_bind,
      show transpose V' [1, 0] = Except.ok T from eT, R.ok_bind, eZ]
    rfl
  · have hlen := hS.len
    have gl : ∀ k, k < i → (s.2.2 ++ [G]).getD k default = s.2.2.getD k default := fun k hk =>
      List.getD_append _ _ _ _ (by omega)
    have gi : (s.2.2 ++ [G]).getD i default = G := by
      rw [List.getD_append_right _ _ _ _ (by omega), hlen, Nat.sub_self]; rfl
    refine ⟨by simp [hlen], by simp [hS.rlen], fun k hk => ?_, fun k hk => ?_,
      fun k n a b => if k = i + 1 then Z.get [a, n * restN X.shape (i + 2) + b] else D k n a b,
      Function.update U₀ i (fun n a b => u [] (a * N i + n) b), Function.update Y₀ i (fun n a b => x [] (a * N i + n) b),
      Function.update tail i (tl []), ?_, fun n hn b hb => ?_, fun k hk => ?_⟩
    · simp only []
      rcases eq_or_ne k (i + 1) with rfl | hne
      · rw [getD_set_self _ _ _ _ (by rw [hS.rlen]; omega), if_pos le_rfl]
      · rw [getD_set_ne _ _ _ hne.symm, hS.rk k hk]
        by_cases h1 : k ≤ i
        · rw [if_pos h1, if_pos (by omega)]
        · rw [if_neg (by omega), if_neg (by omega)]
    · simp only []
      rcases Nat.lt_succ_iff_lt_or_eq.1 hk with h1 | rfl
      · rw [gl k h1]; exact hS.shape k h1
      · rw [gi]; exact sG
    · simp only []
      have sZ' : Z.shape = [] ++ [r' (i + 1), N (i + 1) * restN X.shape (i + 2)] := by rw [← hrest]; exact sZ
      refine (blk_of_wide sZ').congr fun p hp y hy n hn b hb => ?_
      obtain rfl := (valid_nil_iff p).1 hp
      rw [if_pos trivial]
      rfl
    · simp only []
      rw [if_neg (by omega)]
      exact h0 n hn b hb
    · simp only []
      rcases Nat.lt_succ_iff_lt_or_eq.1 hk with h1 | rfl
      · have e1 : Function.update tail i (tl []) k = tail k := Function.update_of_ne (by omega) _ _
        have e2 : Function.update U₀ i (fun n a b => u [] (a * N i + n) b) k = U₀ k := Function.update_of_ne (by omega) _ _
        rw [e1]
        refine ⟨(hC k h1).1.congr e2 (Function.update_of_ne (by omega) _ _) ?_ ?_, ?_⟩
        · funext n a b; rw [if_neg (by omega)]
        · funext n a b; rw [if_neg (by omega)]
        · rw [e2]
          refine le_trans (le_of_eq (bn_congr fun n _ a _ b _ => ?_)) (hC k h1).2
          simp only [cfl, gl k h1]
      · rw [Function.update_self]
        have hYX : ∀ a < r' k, ∀ n < N k, ∀ b < restN X.shape (k + 1), Y.get [a * N k + n, b] = D k n a b :=
          fun a ha n hn b hb => bY.tall sY hv0 ha hn hb
        refine ⟨LStepE.of_svd hε ht (fun a ha n hn b hb => by rw [Function.update_self]) (fun n hn a ha b hb => by rw [Function.update_self])
          ?_ ?_ (fun ρ hρ => ?_), ?_⟩
        · rw [Function.update_self]
          rw [← bn_flat, ← bn_flat] at hxe
          simp only [show ¬(k = k + 1) by omega, if_false]
          refine le_trans (le_of_eq (bn_congr fun n hn a ha b hb => ?_)) (hxe.trans (le_of_eq ?_))
          · rw [hYX a ha n hn b hb]
          · congr 1
            exact bn_congr fun n hn a ha b hb => hYX a ha n hn b hb
        · refine le_trans (le_of_eq ?_) hcarry
          have hflat : ∀ f : ℕ → ℕ → ℝ, fn (r' (k + 1)) (restN X.shape (k + 1)) f =
              bn (r' (k + 1)) (N (k + 1)) (restN X.shape (k + 2)) fun n a b => f a (n * restN X.shape (k + 2) + b) := fun f => by
            rw [bn_wide, hrest]
            exact fn_congr fun a _ y _ => by simp only [wideM]; rw [Nat.div_add_mod']
          rw [hflat]
          refine bn_congr fun n hn y hy b hb => ?_
          simp only [if_true, copyCore]
          rw [sum_δ_left' (by rw [hrest]; exact mul_add_lt hn hb)]
        · have := keptRank_full (n := r' k * N k) (m := restN X.shape (k + 1)) hρ
          rw [hkept] at this
          exact this
        · rw [Function.update_self]
          refine le_trans (le_of_eq ?_) hUe
          rw [← bn_flat]
          refine bn_congr fun n hn a ha b hb => ?_
          have hn' : n < [N k].prod := by rw [List.prod_singleton]; exact hn
          simp only [cfl, gi]
          rw [bG.core (M := [N k]) sG (by simp) hv0 ha (unravel_valid hn') hb, ravel_unravel hn']
          rfl

/-- `x` is the truncation of `z` to the rank bounds `b`, computed with rounding errors. -/
structure FitF (A : Arith) (ε : ℝ) (z x : TT ℝ) (b : ℕ → ℕ) : Prop where
  wf : x.WF
  rows : x.rawShape = z.rawShape
  batch : x.batch = none
  exact : ∀ k ≤ z.ndims, x.rank k = tuRank b ((List.range z.ndims).map z.N) k
  near : ∀ k, k + 1 < z.ndims → ∃ U : ℕ → ℕ → ℕ → ℝ, (∀ c < x.rank (k + 1), ∀ c' < x.rank (k + 1),
      ∑ a ∈ Finset.range (x.rank k), ∑ n ∈ Finset.range (z.N k), U n a c * U n a c' = δ c c') ∧
    bn (x.rank k) (z.N k) (x.rank (k + 1)) (fun n a c => x.fl [] k n a c - U n a c) ≤ ε
  error : ∀ S : TT ℝ, S.WF → S.rawShape = z.rawShape → (∀ k, 0 < k → k < z.ndims → S.rank k ≤ b k) →
    √(entryDist z x []) ≤ √(z.ndims - 1 : ℕ) * (√(entryDist z S []) +
        (∏ k ∈ Finset.range (z.ndims - 1), svdGrowth A ε (x.rank (k + 1)) - 1) * √(entryDot z z [])) +
      ((1 + ε) ^ (z.ndims - 1) * ∏ k ∈ Finset.range (z.ndims - 1), svdGrowth A ε (x.rank (k + 1)) - 1) * √(entryDot z z [])

/-- The sweep, seen from the other side. -/
theorem LStepE.sweep {N rU rV : ℕ → ℕ} {U V D X : ℕ → ℕ → ℕ → ℕ → ℝ} {d : ℕ} {tail : ℕ → ℝ} {bd : ℕ → ℕ} {h : ℕ → ℝ} (hd : 0 < d) (hU0 : rU 0 = 1)
    (hV0 : rV 0 = 1) (hUd : rU d = 1) (hVd : rV d = 1) (h1 : ∀ k, 1 ≤ h k) (hV : ∀ k, 0 < k → k < d → ROrth N rV V k)
    (h0 : ∀ n < N 0, ∀ b < rV 1, D 0 n 0 b = V 0 n 0 b)
    (hs : ∀ k, k + 1 < d → LStepE N rU rV U V D X k (tail k) (bd (k + 1)) (h k)) :
    RSweepE (mirN d N) (mirR d rV) (mirR d rU) (mirA d V) (mirA d U) (mirA d D) (mirA d X) d (fun j => tail (d - 1 - j)) (fun j => bd (d - j))
      (fun j => h (d - 1 - j)) := by
  refine ⟨hd, ?_, ?_, ?_, ?_, fun k hk => ?_, fun n hn a ha => ?_, fun k => h1 _, fun k hk hk' => ?_⟩
  · simpa [mirR] using hVd
  · simpa [mirR] using hUd
  · simpa [mirR] using hV0
  · simpa [mirR] using hU0
  · have := hV (d - 1 - k) (by omega) (by omega)
    intro b hb b' hb'
    simp only [mirR] at hb hb'
    rw [show d - (k + 1) = d - 1 - k by omega] at hb hb'
    simp only [mirN, mirR, mirA]
    rw [Finset.sum_comm, show d - k = d - 1 - k + 1 by omega]
    exact this b hb b' hb'
  · simp only [mirN, mirR, mirA, Nat.sub_self] at hn ha ⊢
    rw [show d - (d - 1) = 1 by omega] at ha
    exact h0 n hn a ha
  · have := (hs (d - 1 - k) (by omega)).mir (d := d) (by omega)
    rw [show d - 1 - (d - 1 - k) = k by omega, show d - 1 - k + 1 = d - k by omega] at this
    exact this

theorem toTTTensorF_fit {F : FloatRoutines} {A : Arith} (hF : F.Follows A) {ε : ℝ} (hε : 0 ≤ ε) {M : ℕ} {svd : SVDRoutine} (hsvd : svd.Backward ε M)
    {X : Tensor ℝ} (hd : 2 ≤ X.shape.length) (hs : ∀ n ∈ X.shape, 0 < n) (hM : X.shape.prod ≤ M)
    {m : MaxRank} {b : ℕ → ℕ} (hb : m.Bounds X.shape.length b) {eps : Option ℝ} (he : ∀ e ∈ eps, 0 ≤ e) :
    ∃ x, toTTTensorF F svd X m eps = Except.ok x ∧ FitF A ε (xTT X) x b := by
  obtain ⟨bounds, hm, hbl, hlb, hbp⟩ := maxRanks_ok hb he
  set d := X.shape.length with hdd
  set bd : ℕ → ℕ := fun k => bounds.getD k 0 with hbd
  obtain ⟨s, es, hS⟩ := forRange_inv (fun i s => TuInvF A ε X bd i s) (toTTStepF F svd X.shape bounds) 0 (d - 1) (X, List.replicate (d + 1) 1, [])
    (TuInvF.init (by omega) bd) (fun i s _ hi hP => toTTStepF_ok hF hε hsvd hs hM hbl hbp i (by omega) s hP)
  rw [Nat.zero_add] at hS
  obtain ⟨D, U, Y, tail, hB, h0, hC⟩ := hS.cur
  have hd1 : d - 1 + 1 = d := by omega
  set r' := tuRank bd X.shape with hr'
  set N : ℕ → ℕ := fun k => X.shape.getD k 0 with hN
  have hr'pos : ∀ k ≤ d, 0 < r' k := fun k hk => tuRank_pos hbp hs hk
  have hr'd : r' d = 1 := by rw [← hd1, hr', tuRank, if_pos hd1]
  have hwx := xTT_wf (X := X) (by omega) hs
  rw [hd1, restN_end] at hB
  obtain ⟨G, eG, sG, bG⟩ := hB.reshape_some (s := [r' (d - 1), N (d - 1), 1]) (by simp [hN])
  have hl : (s.2.2 ++ [G]).length = d := by rw [List.length_append, hS.len]; simpa using hd1
  have gl : ∀ k, k < d - 1 → (s.2.2 ++ [G]).getD k default = s.2.2.getD k default := fun k hk =>
    List.getD_append _ _ _ _ (by rw [hS.len]; omega)
  have gi : (s.2.2 ++ [G]).getD (d - 1) default = G := by
    rw [List.getD_append_right _ _ _ _ (by rw [hS.len]), hS.len, Nat.sub_self]; rfl
  have chain : Chain none (s.2.2 ++ [G]) r' (fun k => [N k]) 1 := by
    refine ⟨by omega, rfl, by rw [hl]; exact hr'd, fun k hk => hr'pos k (by omega), Or.inl rfl, fun _ _ => rfl, fun k hk => ?_, by simp⟩
    rw [hl] at hk
    rcases Nat.lt_or_ge k (d - 1) with h1 | h1
    · rw [gl k h1, hS.shape k h1]; rfl
    · obtain rfl : k = d - 1 := by omega
      rw [gi, sG, hd1, hr'd]; rfl
  have hranks : s.2.1 = ranksOf r' d := by
    apply List.ext_getElem
    · rw [hS.rlen]; simp [ranksOf, hdd]
    · intro k h1 h2
      have hk : k ≤ d := by rw [hS.rlen] at h1; omega
      have := hS.rk k hk
      rw [List.getD_eq_getElem _ _ h1] at this
      rw [this]
      simp only [ranksOf, List.getElem_map, List.getElem_range]
      split_ifs with h3
      · rfl
      · obtain rfl : k = d := by omega
        exact hr'd.symm
  have e : toTTTensorF F svd X m eps = Except.ok (chainTT none (s.2.2 ++ [G]) r' (fun k => [N k]) 1) := by
    have q1 : pyGet s.2.1 (d - 1) = Except.ok (r' (d - 1)) := by
      rw [pyGet_of_lt _ _ 0 (by rw [hS.rlen]; omega), hS.rk _ (by omega), if_pos le_rfl]
    have q2 : pyGet s.2.1 d = Except.ok 1 := by
      rw [pyGet_of_lt _ _ 0 (by rw [hS.rlen]; omega), hS.rk d le_rfl, if_neg (by omega)]
    have q3 : pyGet X.shape.reverse 0 = Except.ok (N (d - 1)) := by
      rw [pyGet_of_lt _ _ 0 (by rw [List.length_reverse]; omega), List.getD_eq_getElem _ _ (by rw [List.length_reverse]; omega),
        List.getElem_reverse]
      simp only [hN]
      rw [List.getD_eq_getElem _ _ (by omega)]
      rfl
    unfold toTTTensorF
    simp only [← hdd, hm, R.ok_bind, es, q1, q2, q3]
    rw [show reshape s.1 [some (r' (d - 1)), some (N (d - 1)), some 1] = Except.ok G from eG, R.ok_bind]
    refine mkTT_ok chain _ (Or.inr ?_) _ (Or.inr (by rw [hl, hranks]))
    rw [clean_flat hd, hl, hdd, rowsOf_single]
  set x := chainTT none (s.2.2 ++ [G]) r' (fun k => [N k]) 1 with hx
  have hxrs : x.rawShape = [X.shape] := by
    show rowsOf _ _ _ = _
    rw [hl, hdd, rowsOf_single]
  have hrank : ∀ k ≤ d, x.rank k = r' k := fun k hk => chainTT_rank k (by rw [hl]; exact hk)
  have hmodes : ∀ k < d, x.modes k = [N k] := fun k hk => chain.modes_eq k (by rw [hl]; exact hk)
  have hv0 : Valid ([] : List ℕ) [] := (valid_nil_iff _).2 rfl
  have hfl : ∀ k, k < d - 1 → x.fl [] k = cfl s.2.2 (fun k => [N k]) [] k := by
    intro k hk
    funext n a b
    rw [TT.fl, hmodes k (by omega), cfl, ← gl k hk]
    rfl
  have hfd : ∀ n < N (d - 1), ∀ a < r' (d - 1), ∀ b < 1, x.fl [] (d - 1) n a b = D (d - 1) n a b := by
    intro n hn a ha b hb
    have hn' : n < [N (d - 1)].prod := by rw [List.prod_singleton]; exact hn
    rw [TT.fl, hmodes (d - 1) (by omega), show x.core (d - 1) = G from gi,
      bG.core (M := [N (d - 1)]) sG (by rw [List.prod_singleton]) hv0 ha (unravel_valid hn') hb, ravel_unravel hn']
  have hNX : (xTT X).N = N := by funext k; rw [TT.N, TT.modes, xTT_rawShape]; simp [hN]
  have hndx : x.ndims = d := hl
  have hndX : (xTT X).ndims = d := xTT_ndims
  have hVd : xRank X.shape d = 1 := by rw [xRank, if_neg (by omega), hdd, restN_end]
  have hro : ∀ k, 0 < k → k < d → ROrth N (xRank X.shape) (xCore X) k := by
    intro k h1 h2 a ha a' ha'
    rw [xRank, if_neg (by omega)] at ha ha'
    have := sum_range_mul (N k) (restN X.shape (k + 1)) fun j => (δ a j * δ a' j : ℝ)
    rw [← restN_step h2, sum_δ_left ha] at this
    rw [δ_comm a a', this]
    simp only [xCore, if_neg (show ¬ k = 0 by omega)]
    rfl
  have hxs : ∀ k, k + 1 < d → LStepE N r' (xRank X.shape) U (xCore X) D Y k (tail k) (bd (k + 1)) (svdGrowth A ε (r' (k + 1))) := fun k hk =>
    let s := (hC k (by omega)).1
    ⟨s.orth, s.norm, s.best, s.err⟩
  have sw := LStepE.sweep (by omega) rfl rfl hr'd hVd (fun k => svdGrowth_ge A hε (r' (k + 1))) hro (fun n hn b hb => h0 n hn b hb) hxs
  have hgr : growth (fun j => svdGrowth A ε (r' (d - 1 - j + 1))) d 1 = ∏ k ∈ Finset.range (d - 1), svdGrowth A ε (x.rank (k + 1)) := by
    rw [growth, Finset.prod_Ico_eq_prod_range, ← Finset.prod_range_reflect]
    refine Finset.prod_congr rfl fun k hk => ?_
    rw [Finset.mem_range] at hk
    rw [hrank _ (by omega)]
    congr 2
    omega
  have eXS : ∀ S : TT ℝ, S.WF → S.rawShape = [X.shape] → S.ndims = d →
      chainDist (mirN d N) (mirR d (xRank X.shape)) (mirR d S.rank) (mirA d (xCore X)) (mirA d (S.fl [])) d = entryDist (xTT X) S [] := by
    intro S hSw hSr hSn
    rw [chainDist_mir _ _ hVd (by rw [← hSn]; exact hSw.rank_last) rfl hSw.rank_first,
      ← chainDist_entry hwx hSw (by rw [hSr, xTT_rawShape]) (by rw [hSn, hndX]) [], hndX, hNX]
    have h0S : 0 < S.rank d := hSw.rank_pos d (by rw [hSn])
    have h0X : 0 < xRank X.shape d := by rw [hVd]; omega
    have hrX : ∀ k ≤ d, (xTT X).rank k = xRank X.shape k := fun k hk => xTT_rank hk
    have hX : ∀ k < d, ∀ n < N k, ∀ a < xRank X.shape k, ∀ b < xRank X.shape (k + 1), (xTT X).fl [] k n a b = xCore X k n a b :=
      fun k hk n _ a _ b _ => xTT_fl hk n a b
    unfold chainDist
    rw [gram_congr' hrX hrX hX hX h0X h0X,
      gram_congr' (B' := S.fl []) (B := S.fl []) hrX (fun _ _ => rfl) hX (fun _ _ _ _ _ _ _ _ => rfl) h0X h0S]
  have hln : lastNorm (mirN d N) (mirR d (xRank X.shape)) (mirR d r') (mirA d D) d = √(entryDot (xTT X) (xTT X) []) := by
    have h1 := fn_lmat_orth (N := mirN d N) (r := mirR d (xRank X.shape)) (A := mirA d (xCore X)) (k := d - 1) sw.rL0 (fun j hj => sw.lorth j (by omega))
    rw [hd1, sw.rLd] at h1
    have h2 : lastNorm (mirN d N) (mirR d (xRank X.shape)) (mirR d r') (mirA d D) d = bn (mirR d (xRank X.shape) (d - 1)) (mirN d N (d - 1)) 1 (mirA d (xCore X) (d - 1)) := by
      rw [lastNorm, sw.rVd]
      refine bn_congr fun n hn a ha b hb => ?_
      obtain rfl : b = 0 := by omega
      exact sw.last n hn a ha
    rw [h2, ← h1, ← gram_entry hwx rfl rfl, hndX, hNX]
    have h0X : 0 < xRank X.shape d := by rw [hVd]; omega
    have hrX : ∀ k ≤ d, (xTT X).rank k = xRank X.shape k := fun k hk => xTT_rank hk
    have hX : ∀ k < d, ∀ n < N k, ∀ a < xRank X.shape k, ∀ b < xRank X.shape (k + 1), (xTT X).fl [] k n a b = xCore X k n a b :=
      fun k hk n _ a _ b _ => xTT_fl hk n a b
    rw [gram_congr' hrX hrX hX hX h0X h0X, ← gram_mir_full _ _ hVd hVd rfl rfl, gram_self_lmat, Real.sqrt_sq (fn_nonneg _ _ _)]
  have hlast : ∀ n < mirN d N 0, ∀ a < 1, ∀ b < mirR d r' 1, mirA d (x.fl []) 0 n a b = mirA d D 0 n a b := by
    intro n hn a ha b hb
    exact hfd n hn b hb a ha
  have hnear : ∀ k, 0 < k → k < d → bn (mirR d r' k) (mirN d N k) (mirR d r' (k + 1)) (fun n a b => mirA d (x.fl []) k n a b - mirA d U k n a b) ≤ ε := by
    intro k h1 h2
    have := (hC (d - 1 - k) (by omega)).2
    rw [bn_flip] at this
    simp only [mirN, mirR, mirA]
    rw [show d - k = d - 1 - k + 1 by omega, show d - (k + 1) = d - 1 - k by omega, hfl _ (by omega)]
    exact this
  refine ⟨x, e, chain.wf, by rw [hxrs, xTT_rawShape], rfl, fun k hk => ?_, fun k hk => ?_, fun S hSw hSr hSb => ?_⟩
  · rw [hndX] at hk ⊢
    rw [hrank k hk, hNX, hN, hdd, ← list_eq_range_map]
    exact tuRank_congr (fun k hk => hlb k hk) hk
  · rw [hndX] at hk
    have h1 := (hC k (by omega)).1.orth
    have h2 := (hC k (by omega)).2
    refine ⟨U k, ?_, ?_⟩
    · rw [hrank _ (by omega), hrank k (by omega), hNX]
      exact h1
    · rw [hrank k (by omega), hrank (k + 1) (by omega), hNX, hfl k (by omega)]
      exact h2
  · have hSn : S.ndims = d := by rw [ndims_eq_of_rawShape hSw hwx hSr, hndX]
    rw [xTT_rawShape] at hSr
    rw [hndX] at hSb ⊢
    have herr := sw.error hε hlast hnear (mirA d (S.fl [])) (rS := mirR d S.rank) (by simpa [mirR] using hSw.rank_first) fun k h1 h2 => by
      simp only [mirR, hbd]
      rw [hlb _ (by omega)]
      exact hSb _ (by omega) (by omega)
    rw [hgr, hln, eXS S hSw hSr hSn] at herr
    have eXY : chainDist (mirN d N) (mirR d (xRank X.shape)) (mirR d r') (mirA d (xCore X)) (mirA d (x.fl [])) d = entryDist (xTT X) x [] := by
      rw [← eXS x chain.wf hxrs hndx, chainDist_mir _ _ hVd hr'd rfl rfl,
        chainDist_mir _ _ hVd (by rw [hrank d le_rfl, hr'd]) rfl (by rw [hrank 0 (by omega)]; rfl)]
      have h0 : 0 < r' d := hr'pos d le_rfl
      have h0X : 0 < xRank X.shape d := by rw [hVd]; omega
      unfold chainDist
      rw [gram_congr' (ra' := x.rank) (rb' := x.rank) (A' := x.fl []) (B' := x.fl []) hrank hrank (fun _ _ _ _ _ _ _ _ => rfl) (fun _ _ _ _ _ _ _ _ => rfl) h0 h0,
        gram_congr' (A' := xCore X) (A := xCore X) (fun _ _ => rfl) hrank (fun _ _ _ _ _ _ _ _ => rfl) (fun _ _ _ _ _ _ _ _ => rfl) h0X h0]
    rw [eXY] at herr
    exact herr

end T3f
