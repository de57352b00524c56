import Verif.Proofs.QRNear
import Verif.Proofs.Ortho
import Verif.Proofs.RoundFull
import Verif.Model.RoundedOrtho

/-! # The left-to-right sweep in floating point arithmetic -/

namespace T3f

theorem lmat_congr {N r : ℕ → ℕ} {A B : ℕ → ℕ → ℕ → ℕ → ℝ} {k : ℕ}
    (h : ∀ j < k, ∀ n < N j, ∀ a < r j, ∀ b < r (j + 1), A j n a b = B j n a b) {x : ℕ} (hx : x < rowsN N k) {b : ℕ} (hb : b < r k) :
    lmat N r A k x b = lmat N r B k x b := by
  induction k generalizing x b with
  | zero => rfl
  | succ k ih =>
    simp only [lmat]
    rw [rowsN] at hx
    have hN : 0 < N k := Nat.pos_of_ne_zero fun e => by rw [e] at hx; omega
    refine Finset.sum_congr rfl fun a ha => ?_
    rw [Finset.mem_range] at ha
    rw [ih (fun j hj => h j (by omega)) ((Nat.div_lt_iff_lt_mul hN).2 hx) ha, h k (by omega) _ (Nat.mod_lt _ hN) a ha b hb]

theorem lmat_rank_congr {N r r' : ℕ → ℕ} {A : ℕ → ℕ → ℕ → ℕ → ℝ} {k : ℕ} (h : ∀ j < k, r j = r' j) {x b : ℕ} : lmat N r A k x b = lmat N r' A k x b := by
  induction k generalizing x b with
  | zero => rfl
  | succ k ih =>
    simp only [lmat]
    rw [h k (by omega)]
    exact Finset.sum_congr rfl fun a _ => by rw [ih fun j hj => h j (by omega)]

theorem OpLe.congr {m k : ℕ} {A B : ℕ → ℕ → ℝ} {κ : ℝ} (h : OpLe m k A κ) (e : ∀ i < m, ∀ j < k, A i j = B i j) : OpLe m k B κ := by
  intro n C
  rw [← fn_congr (A := fun i j => ∑ l ∈ Finset.range k, A i l * C l j) fun i hi j _ => Finset.sum_congr rfl fun l hl => by rw [e i hi l (Finset.mem_range.1 hl)]]
  exact h n C

theorem ext_congr {U N r s : ℕ} {L L' : ℕ → ℕ → ℝ} {D D' : ℕ → ℕ → ℕ → ℝ} (hL : ∀ x < U, ∀ a < r, L x a = L' x a)
    (hD : ∀ n < N, ∀ a < r, ∀ b < s, D n a b = D' n a b) {x b : ℕ} (hx : x < U * N) (hb : b < s) : ext N r L D x b = ext N r L' D' x b := by
  have hN : 0 < N := Nat.pos_of_ne_zero fun e => by rw [e] at hx; omega
  refine Finset.sum_congr rfl fun a ha => ?_
  rw [Finset.mem_range] at ha
  rw [hL _ ((Nat.div_lt_iff_lt_mul hN).2 hx) a ha, hD _ (Nat.mod_lt _ hN) a ha b hb]

theorem OrthErr.congr {N r r' : ℕ → ℕ} {G X X' : ℕ → ℕ → ℕ → ℕ → ℝ} {c c' : ℕ → ℕ → ℕ → ℝ} {α β P : ℝ} {k : ℕ} (h : OrthErr N r r' G X c α β P k)
    (hX : ∀ j < k, ∀ n < N j, ∀ a < r' j, ∀ b < r' (j + 1), X j n a b = X' j n a b)
    (hc : ∀ n < N k, ∀ a < r' k, ∀ b < r (k + 1), c n a b = c' n a b) : OrthErr N r r' G X' c' α β P k where
  op := h.op.congr fun x hx b hb => lmat_congr hX hx hb
  cur := by rw [← bn_congr hc]; exact h.cur
  err := by
    rw [← fn_congr (A := fun x b => ext (N k) (r' k) (lmat N r' X k) c x b - lmat N r G (k + 1) x b) fun x hx b hb => by
      rw [ext_congr (fun x hx a ha => lmat_congr hX hx ha) hc hx hb]]
    exact h.err

/-- The factor for the growth of the errors in the first `i` steps. -/
noncomputable def sweepGrowth (A : Arith) (ε : ℝ) (r : ℕ → ℕ) (i : ℕ) : ℝ := (1 + ε) ^ i * (1 + A.u) ^ (∑ k ∈ Finset.range i, r (k + 1))

/-- Product of the norms of the first cores. -/
noncomputable def normProd (N r : ℕ → ℕ) (G : ℕ → ℕ → ℕ → ℕ → ℝ) (i : ℕ) : ℝ := ∏ k ∈ Finset.range i, bn (r k) (N k) (r (k + 1)) (G k)

theorem sweepGrowth_succ (A : Arith) (ε : ℝ) (r : ℕ → ℕ) (i : ℕ) :
    sweepGrowth A ε r (i + 1) = sweepGrowth A ε r i * ((1 + ε) * (1 + ((1 + A.u) ^ r (i + 1) - 1))) := by
  unfold sweepGrowth
  rw [Finset.sum_range_succ, pow_add, pow_succ]
  ring

structure LRInvF (A : Arith) (ε : ℝ) (t : TT ℝ) (i : ℕ) (s : List (Tensor ℝ) × ℕ) : Prop where
  len : s.1.length = t.ndims
  rk : s.2 = lrRank t.N t.rank i
  shape : ∀ k < i, (s.1.getD k default).shape = t.bpre ++ lrRank t.N t.rank k :: (t.modes k ++ [lrRank t.N t.rank (k + 1)])
  rest : ∀ k, i < k → k < t.ndims → s.1.getD k default = t.core k
  cur : ∃ f : List ℕ → ℕ → ℕ → ℕ → ℝ,
    Blk (s.1.getD i default) t.bpre (lrRank t.N t.rank i) (t.N i) (t.rank (i + 1)) f ∧
    ∀ p, Valid t.bpre p → ∃ Q : ℕ → ℕ → ℕ → ℕ → ℝ,
      (∀ k < i, LOrth t.N (lrRank t.N t.rank) Q k ∧
        bn (lrRank t.N t.rank k) (t.N k) (lrRank t.N t.rank (k + 1)) (fun n a b => cfl s.1 t.modes p k n a b - Q k n a b) ≤ ε) ∧
      OrthErr t.N t.rank (lrRank t.N t.rank) (t.fl p) (cfl s.1 t.modes p) (fun n a b => f p a n b) ε (sweepGrowth A ε t.rank i)
        (normProd t.N t.rank (t.fl p) (i + 1)) i ∧
      OrthErr t.N t.rank (lrRank t.N t.rank) (t.fl p) Q (fun n a b => f p a n b) 0 (sweepGrowth A ε t.rank i)
        (normProd t.N t.rank (t.fl p) (i + 1)) i

theorem LRInvF.init {A : Arith} {ε : ℝ} {t : TT ℝ} (h : t.WF) : LRInvF A ε t 0 (t.cores, 1) where
  len := rfl
  rk := rfl
  shape := fun k hk => absurd hk (by omega)
  rest := fun k _ _ => rfl
  cur := by
    have h0 := h.rank_first
    refine ⟨fun p a n b => t.fl p 0 n a b, ?_, fun p _ => ⟨fun _ _ _ _ => 0, fun k hk => absurd hk (by omega), ?_, ?_⟩⟩
    · have := blk_core h h.pos
      rw [h0] at this
      exact this
    all_goals
      rw [show sweepGrowth A ε t.rank 0 = 1 by simp [sweepGrowth], normProd, Finset.prod_range_one]
      exact OrthErr.init h0 rfl fun n _ b _ => rfl

theorem orthoLRStepF_ok {F : FloatRoutines} {A : Arith} (hF : F.Follows A) {qr : QRRoutine} {ε : ℝ} (hε : 0 ≤ ε) {M : ℕ} (hqr : qr.Backward ε M)
    {t : TT ℝ} (h : t.WF) (i : ℕ) (hi : i + 1 < t.ndims) (hM : t.rank i * t.N i * t.rank (i + 1) ≤ M)
    (s : List (Tensor ℝ) × ℕ) (hs : LRInvF A ε t i s) :
    ∃ s', orthoLRStepF F qr t i s = Except.ok s' ∧ LRInvF A ε t (i + 1) s' := by
  obtain ⟨f, hB, hf⟩ := hs.cur
  set r' := lrRank t.N t.rank with hr'
  have hbp : 0 < t.bpre.prod := batch_prod_pos h.batch_pos
  obtain ⟨Y, eY, sY, bY⟩ := hB.reshape_some (s := t.bpre ++ [r' i * t.N i, t.rank (i + 1)])
    (by rw [List.prod_append]; simp only [List.prod_cons, List.prod_nil]; ring)
  have hM' : r' i * t.N i * t.rank (i + 1) ≤ M :=
    (Nat.mul_le_mul_right _ (Nat.mul_le_mul_right _ (lrRank_le _ _ h.rank_first i))).trans hM
  obtain ⟨Q, S, q, P, τ, eQ, sQ, bQ, sS, vS, hq⟩ := qr_tall_near hqr (bs := t.batch) bY sY hM'
  have hmin : min (r' i * t.N i) (t.rank (i + 1)) = r' (i + 1) := rfl
  rw [hmin] at sQ bQ sS hq
  obtain ⟨C, eC, sC, bC⟩ := bQ.reshape_some (s := t.batch.toList ++ r' i :: (t.modes i ++ [r' (i + 1)]))
    (by simp [List.prod_append, TT.N])
  have hnext := blk_core h hi
  obtain ⟨Z, eZ, sZ, bZ⟩ := hnext.reshape_last (t.rank (i + 1)) (t.N (i + 1) * t.rank (i + 2))
    (Nat.mul_pos hbp (h.rank_pos _ (by omega))) rfl
  obtain ⟨W, w, eW, sW, bW, hw⟩ := bZ.mulF_left hF (bs := t.batch) sZ sS
  have p1 : pyGet s.1 i = Except.ok (s.1.getD i default) := pyGet_of_lt _ _ _ (by rw [hs.len]; omega)
  have p2 : pyGet s.1 (i + 1) = Except.ok (t.core (i + 1)) := by
    rw [pyGet_of_lt _ _ default (by rw [hs.len]; omega), hs.rest (i + 1) (by omega) hi]
  have p3 : pyGet S.shape t.batch.toList.length = Except.ok (r' (i + 1)) := by
    rw [sS, pyGet_of_lt _ _ 0 (by simp), List.getD_append_right _ _ _ _ le_rfl]; simp
  have p4 : pyGet S.shape (t.batch.toList.length + 1) = Except.ok (t.rank (i + 1)) := by
    rw [sS, pyGet_of_lt _ _ 0 (by simp), List.getD_append_right _ _ _ _ (by omega)]; simp
  refine ⟨((s.1.set i C).set (i + 1) W, r' (i + 1)), ?_, ?_⟩
  · unfold orthoLRStepF
    simp only [p1, hs.rk, h.pyRank (show i + 1 ≤ t.ndims by omega), R.ok_bind]
    rw [show reshape (s.1.getD i default) ((t.batch.toList ++ [lrRank t.N t.rank i * (coreModes t i).prod, t.rank (i + 1)]).map some) =
      Except.ok Y from eY]
    simp only [R.ok_bind, eQ, p3, p4]
    rw [show reshape Q ((t.batch.toList ++ lrRank t.N t.rank i :: (coreModes t i ++ [r' (i + 1)])).map some) = Except.ok C from eC]
    simp only [R.ok_bind, p2]
    rw [show reshape (t.core (i + 1)) (t.batch.toList.map some ++ [some (t.rank (i + 1)), none]) = Except.ok Z from eZ]
    simp only [R.ok_bind, eW, R.pure_eq]
  · have hlen : i < s.1.length := by rw [hs.len]; omega
    have ge : ∀ k, k < i → ((s.1.set i C).set (i + 1) W).getD k default = s.1.getD k default := fun k hk => by
      rw [getD_set_ne _ _ _ (by omega), getD_set_ne _ _ _ (by omega)]
    have gi : ((s.1.set i C).set (i + 1) W).getD i default = C := by
      rw [getD_set_ne _ _ _ (by omega), getD_set_self _ _ _ _ hlen]
    have gi1 : ((s.1.set i C).set (i + 1) W).getD (i + 1) default = W :=
      getD_set_self _ _ _ _ (by rw [List.length_set, hs.len]; omega)
    have hCv : ∀ p, Valid t.bpre p → ∀ n < t.N i, ∀ a < r' i, ∀ b < r' (i + 1),
        cfl ((s.1.set i C).set (i + 1) W) t.modes p i n a b = q p a n b := fun p hp n hn a ha b hb => by
      simp only [cfl, gi]
      rw [bC.core sC rfl hp ha (unravel_valid hn) hb, ravel_unravel hn]
    have hCk : ∀ p k, k < i → cfl ((s.1.set i C).set (i + 1) W) t.modes p k = cfl s.1 t.modes p k := fun p k hk => by
      funext n a b
      simp only [cfl, ge k hk]
    have hγ : (0 : ℝ) ≤ (1 + A.u) ^ t.rank (i + 1) - 1 := by
      have := one_le_pow₀ (n := t.rank (i + 1)) (show (1 : ℝ) ≤ 1 + A.u by linarith [A.nonneg])
      linarith
    refine ⟨by simp [hs.len], rfl, fun k hk => ?_, fun k hk hk' => ?_, w, ?_, fun p hp => ?_⟩
    · rcases Nat.lt_succ_iff_lt_or_eq.1 hk with h1 | rfl
      · rw [ge k h1]; exact hs.shape k h1
      · rw [gi]; exact sC
    · simp only []
      rw [getD_set_ne _ _ _ (by omega), getD_set_ne _ _ _ (by omega)]
      exact hs.rest k (by omega) hk'
    · simp only []
      rw [gi1]
      exact bW
    · obtain ⟨Q₀, hQ₀, h1, h2⟩ := hf p hp
      obtain ⟨q1, q2, q3⟩ := hq p hp
      have hw' := hw p hp
      simp only [vS] at hw'
      have hk : ∀ k < i, Function.update Q₀ i (P p) k = Q₀ k := fun k hk => Function.update_of_ne (by omega) _ _
      have hQi : Function.update Q₀ i (P p) i = P p := Function.update_self _ _ _
      have hnp : normProd t.N t.rank (t.fl p) (i + 1 + 1) =
          normProd t.N t.rank (t.fl p) (i + 1) * bn (t.rank (i + 1)) (t.N (i + 1)) (t.rank (i + 2)) (t.fl p (i + 1)) :=
        Finset.prod_range_succ _ _
      refine ⟨Function.update Q₀ i (P p), fun k hk' => ?_, ?_, ?_⟩
      · rcases Nat.lt_succ_iff_lt_or_eq.1 hk' with h3 | rfl
        · obtain ⟨h4, h5⟩ := hQ₀ k h3
          refine ⟨?_, ?_⟩
          · intro b hb b' hb'
            rw [hk k h3]
            exact h4 b hb b' hb'
          · rw [hk k h3, hCk p k h3]
            exact h5
        · refine ⟨?_, ?_⟩
          · intro b hb b' hb'
            rw [hQi]
            exact q1 b hb b' hb'
          · rw [hQi, bn_congr fun n hn a ha b hb => by rw [hCv p hp n hn a ha b hb]]
            exact q3
      · rw [sweepGrowth_succ, hnp]
        refine (h1.congr (X' := cfl ((s.1.set i C).set (i + 1) W) t.modes p) (fun j hj n _ a _ b _ => by rw [hCk p j hj])
          (fun _ _ _ _ _ _ => rfl)).step hε hε hγ q1 ?_ q2 hw'
        rw [bn_congr fun n hn a ha b hb => by rw [hCv p hp n hn a ha b hb]]
        exact q3
      · rw [sweepGrowth_succ, hnp]
        refine (h2.congr (X' := Function.update Q₀ i (P p)) (fun j hj n _ a _ b _ => by rw [hk j hj])
          (fun _ _ _ _ _ _ => rfl)).step le_rfl hε hγ q1 ?_ q2 hw'
        rw [hQi]
        simp [bn, fro3]

/-! ## The result -/

theorem fn_isometry {U r : ℕ} {L : ℕ → ℕ → ℝ} (h : ∀ a < r, ∀ b < r, ∑ x ∈ Finset.range U, L x a * L x b = δ a b) (n : ℕ) (B : ℕ → ℕ → ℝ) :
    fn U n (fun x y => ∑ a ∈ Finset.range r, L x a * B a y) = fn r n B := by
  have h1 := bn_isometry (a := U) (N := 1) (b := r) (D := fun _ x a => L x a) (fun a ha b hb => by simpa using h a ha b hb) n B
  rw [← h1, bn_tall, Nat.mul_one]
  exact fn_congr fun x _ y _ => by simp [tallM]

/-- The norm of a chain of orthonormal cores followed by any core is that of the last core. -/
theorem fn_lmat_orth {N r : ℕ → ℕ} {A : ℕ → ℕ → ℕ → ℕ → ℝ} {k : ℕ} (h0 : r 0 = 1) (h : ∀ j < k, LOrth N r A j) :
    fn (rowsN N (k + 1)) (r (k + 1)) (lmat N r A (k + 1)) = bn (r k) (N k) (r (k + 1)) (A k) := by
  rw [lmat_succ, rowsN, fn_ext, bn_wide]
  exact fn_isometry (fun a ha b hb => by rw [← gram_lmat]; exact gram_id h0 h ha hb) _ _

/-- What the sweep returns: frames `Q` with orthonormal columns that the new cores `X` are close to, such that the chain `X` and the chain that consists
of the frames and the last core of `X` are close to the original one. -/
structure OrthResult (N r r' : ℕ → ℕ) (G X Q : ℕ → ℕ → ℕ → ℕ → ℝ) (ε g : ℝ) (d : ℕ) : Prop where
  orth : ∀ k < d, LOrth N r' Q k
  near : ∀ k < d, bn (r' k) (N k) (r' (k + 1)) (fun n a b => X k n a b - Q k n a b) ≤ ε
  last : Q d = X d
  err : fn (rowsN N (d + 1)) 1 (fun x b => lmat N r' X (d + 1) x b - lmat N r G (d + 1) x b) ≤ ((1 + ε) ^ d * g - 1) * normProd N r G (d + 1)
  errQ : fn (rowsN N (d + 1)) 1 (fun x b => lmat N r' Q (d + 1) x b - lmat N r G (d + 1) x b) ≤ (g - 1) * normProd N r G (d + 1)

theorem OrthResult.of {N r r' : ℕ → ℕ} {G X Y Q : ℕ → ℕ → ℕ → ℕ → ℝ} {c : ℕ → ℕ → ℕ → ℝ} {ε g : ℝ} {d : ℕ} (hd : r (d + 1) = 1)
    (hQ : ∀ k < d, LOrth N r' Q k ∧ bn (r' k) (N k) (r' (k + 1)) (fun n a b => Y k n a b - Q k n a b) ≤ ε)
    (h1 : OrthErr N r r' G Y c ε g (normProd N r G (d + 1)) d) (h2 : OrthErr N r r' G Q c 0 g (normProd N r G (d + 1)) d)
    (hY : ∀ k < d, ∀ n < N k, ∀ a < r' k, ∀ b < r' (k + 1), Y k n a b = X k n a b)
    (hc : ∀ n < N d, ∀ a < r' d, c n a 0 = X d n a 0) : OrthResult N r r' G X (Function.update Q d (X d)) ε g d := by
  have hk : ∀ k < d, Function.update Q d (X d) k = Q k := fun k hk => Function.update_of_ne (by omega) _ _
  have hc' : ∀ n < N d, ∀ a < r' d, ∀ b < r (d + 1), c n a b = X d n a b := fun n hn a ha b hb => by
    obtain rfl : b = 0 := by omega
    exact hc n hn a ha
  refine ⟨fun k h => ?_, fun k h => ?_, Function.update_self _ _ _, ?_, ?_⟩
  · intro b hb b' hb'
    rw [hk k h]
    exact (hQ k h).1 b hb b' hb'
  · rw [hk k h]
    refine le_trans (le_of_eq (bn_congr fun n hn a ha b hb => ?_)) (hQ k h).2
    rw [hY k h n hn a ha b hb]
  · have := (h1.congr hY hc').err
    rw [hd] at this
    exact this
  · have := (h2.congr (X' := Function.update Q d (X d)) (fun j hj n _ a _ b _ => by rw [hk j hj]) hc').err
    rw [hd, add_zero, one_pow, one_mul] at this
    rw [lmat_succ (A := Function.update Q d (X d)), Function.update_self]
    exact this

theorem orthoLRF_ok {F : FloatRoutines} {A : Arith} (hF : F.Follows A) {qr : QRRoutine} {ε : ℝ} (hε : 0 ≤ ε) {M : ℕ} (hqr : qr.Backward ε M)
    {t : TT ℝ} (h : t.WF) (hm : t.ModesPos) (hM : ∀ k < t.ndims, t.rank k * t.N k * t.rank (k + 1) ≤ M) :
    ∃ o, orthoLRF F qr t = Except.ok o ∧ o.WF ∧ o.rawShape = t.rawShape ∧ o.batch = t.batch ∧ o.ndims = t.ndims ∧
      (∀ k ≤ t.ndims, o.rank k = lrRank t.N t.rank k) ∧
      ∀ p, Valid t.bpre p → ∃ Q, OrthResult t.N t.rank (lrRank t.N t.rank) (t.fl p) (o.fl p) Q ε (sweepGrowth A ε t.rank (t.ndims - 1)) (t.ndims - 1) := by
  have hpos := h.pos
  obtain ⟨s, es, hs⟩ := forRange_inv (LRInvF A ε t) (orthoLRStepF F qr t) 0 (t.ndims - 1) (t.cores, 1) (LRInvF.init h)
    (fun i s _ hi hP => orthoLRStepF_ok hF hε hqr h i (by omega) (hM i (by omega)) s hP)
  rw [Nat.zero_add] at hs
  obtain ⟨f, hB, hf⟩ := hs.cur
  set r' := lrRank t.N t.rank with hr'
  set d := t.ndims with hd
  have hd1 : d - 1 + 1 = d := by omega
  have hN : ∀ k < d, 0 < t.N k := fun k hk => modes_pos h hm hk
  have hr'd : r' d = 1 := by
    have h1 := lrRank_pos hN h.rank_pos (k := d) le_rfl
    have h2 := lrRank_le t.N t.rank h.rank_first d
    rw [h.rank_last] at h2
    exact le_antisymm h2 h1
  rw [hd1, h.rank_last] at hB
  obtain ⟨C, eC, sC, bC⟩ := hB.reshape_some (s := t.batch.toList ++ r' (d - 1) :: (t.modes (d - 1) ++ [1]))
    (by simp [List.prod_append, TT.N, TT.bpre])
  have hl : (s.1.set (d - 1) C).length = d := by simp [hs.len, hd]
  have gl : (s.1.set (d - 1) C).getD (d - 1) default = C := getD_set_self _ _ _ _ (by rw [hs.len]; omega)
  have gk : ∀ k, k < d - 1 → (s.1.set (d - 1) C).getD k default = s.1.getD k default := fun k hk => getD_set_ne _ _ _ (by omega)
  have chain : Chain t.batch (s.1.set (d - 1) C) r' t.modes t.rawShape.length := by
    refine ⟨by omega, rfl, by rw [hl]; exact hr'd, fun k hk => lrRank_pos hN h.rank_pos (by omega), h.rows,
      fun k _ => by simp [TT.modes], fun k hk => ?_, h.batch_pos⟩
    rw [hl] at hk
    rcases Nat.lt_or_ge k (d - 1) with h1 | h1
    · rw [gk k h1]; exact hs.shape k h1
    · obtain rfl : k = d - 1 := by omega
      rw [gl, hd1, hr'd]; exact sC
  have rows : t.rawShape = rowsOf t.modes (s.1.set (d - 1) C).length t.rawShape.length := by rw [hl]; exact h.rows_eq
  have e : orthoLRF F qr t = Except.ok (chainTT t.batch (s.1.set (d - 1) C) r' t.modes t.rawShape.length) := by
    unfold orthoLRF
    simp only [h.pyRank (Nat.zero_le _), h.rank_first, R.ok_bind, ← hd, es]
    rw [show pyGet s.1 (d - 1) = Except.ok (s.1.getD (d - 1) default) from pyGet_of_lt _ _ _ (by rw [hs.len]; omega), R.ok_bind,
      hs.rk, show reshape (s.1.getD (d - 1) default)
        ((t.batch.toList ++ lrRank t.N t.rank (d - 1) :: (coreModes t (d - 1) ++ [1])).map some) = Except.ok C from eC, R.ok_bind]
    cases hb : t.batch with
    | none =>
      rw [hb] at chain
      exact mkTT_ok chain _ (Or.inr (chain.clean rows)) _ (Or.inl rfl)
    | some n =>
      rw [hb] at chain
      exact mkBatch_ok chain _ (Or.inr (chain.clean rows)) _ (Or.inl rfl) _ (Or.inr rfl)
  have hrank : ∀ k ≤ d, (chainTT t.batch (s.1.set (d - 1) C) r' t.modes t.rawShape.length).rank k = r' k := fun k hk =>
    chainTT_rank k (by rw [hl]; exact hk)
  have hmodes : ∀ k < d, (chainTT t.batch (s.1.set (d - 1) C) r' t.modes t.rawShape.length).modes k = t.modes k := fun k hk =>
    chain.modes_eq k (by rw [hl]; exact hk)
  refine ⟨_, e, chain.wf, rows.symm, rfl, hl, hrank, fun p hp => ?_⟩
  obtain ⟨Q, hQ, h1, h2⟩ := hf p hp
  refine ⟨_, OrthResult.of (by rw [hd1]; exact h.rank_last) hQ h1 h2 (fun k hk n _ a _ b _ => ?_) fun n hn a ha => ?_⟩
  · rw [TT.fl, hmodes k (by omega), cfl, ← gk k hk]
    rfl
  · have := bC.core sC rfl hp ha (unravel_valid hn) Nat.zero_lt_one
    rw [ravel_unravel hn] at this
    rw [TT.fl, hmodes _ (by omega), ← this]
    exact (congrArg (fun c : Tensor ℝ => c.get (p ++ a :: (unravel (t.modes (d - 1)) n ++ [0]))) gl).symm

theorem OrthResult.entryDist {t o : TT ℝ} (h : t.WF) (ho : o.WF) (hs : o.rawShape = t.rawShape) (hn : o.ndims = t.ndims) {p : List ℕ}
    {Q : ℕ → ℕ → ℕ → ℕ → ℝ} {ε g : ℝ} (hr : OrthResult t.N t.rank o.rank (t.fl p) (o.fl p) Q ε g (t.ndims - 1)) :
    √(T3f.entryDist t o p) ≤ ((1 + ε) ^ (t.ndims - 1) * g - 1) * normProd t.N t.rank (t.fl p) t.ndims := by
  have hpos := h.pos
  rw [← chainDist_entry h ho hs hn, chainDist_lmat, Real.sqrt_sq (fn_nonneg _ _ _)]
  have := hr.err
  rw [show t.ndims - 1 + 1 = t.ndims by omega] at this
  refine le_trans (le_of_eq ?_) this
  rw [← fn_neg]
  exact fn_congr fun _ _ _ _ => by ring

theorem fn_diff_le {m n : ℕ} {A B : ℕ → ℕ → ℝ} {e : ℝ} (h : fn m n (fun x b => A x b - B x b) ≤ e) : |fn m n A - fn m n B| ≤ e := by
  have h1 := fn_add_le m n (fun x b => A x b - B x b) B
  have h2 := fn_add_le m n (fun x b => -(A x b - B x b)) A
  rw [fn_neg] at h2
  simp only [sub_add_cancel, neg_sub] at h1 h2
  rw [abs_le]
  constructor <;> linarith

/-- The norm of the last core. -/
theorem OrthResult.norm {t : TT ℝ} (h : t.WF) {r' : ℕ → ℕ} (h0 : r' 0 = 1) (h1 : r' t.ndims = 1) {p : List ℕ} {X Q : ℕ → ℕ → ℕ → ℕ → ℝ} {ε g : ℝ}
    (hr : OrthResult t.N t.rank r' (t.fl p) X Q ε g (t.ndims - 1)) :
    |bn (r' (t.ndims - 1)) (t.N (t.ndims - 1)) 1 (X (t.ndims - 1)) - √(entryDot t t p)| ≤ (g - 1) * normProd t.N t.rank (t.fl p) t.ndims := by
  have hpos := h.pos
  have := fn_diff_le hr.errQ
  have e := fn_lmat_orth h0 hr.orth
  rw [show t.ndims - 1 + 1 = t.ndims by omega, h1, hr.last] at e
  rw [show t.ndims - 1 + 1 = t.ndims by omega, e] at this
  rw [← gram_entry h rfl rfl, gram_self_lmat, Real.sqrt_sq (fn_nonneg _ _ _)]
  exact this

end T3f
