import Verif.Proofs.OrthoErrLR
import Verif.Proofs.OrthoRL

/-! # The right-to-left sweep in floating point arithmetic -/

namespace T3f

theorem bn_swap (a N b : ℕ) (D : ℕ → ℕ → ℕ → ℝ) : bn a N b D = bn N a b (fun n α β => D α n β) := by
  unfold bn fro3
  rw [Finset.sum_comm]

theorem bn_flip (a N b : ℕ) (D : ℕ → ℕ → ℕ → ℝ) : bn a N b D = bn b N a (fun n β α => D n α β) := by
  unfold bn fro3
  congr 1
  rw [Finset.sum_comm]
  rw [Finset.sum_congr rfl fun n _ => Finset.sum_comm]
  rw [Finset.sum_comm]

/-- QR decomposition of the transpose of a wide block by a routine that is not exact. -/
theorem qr_wide_near {qr : QRRoutine} {ε : ℝ} {M : ℕ} (hqr : qr.Backward ε M) {X : Tensor ℝ} {a N b : ℕ} {f : List ℕ → ℕ → ℕ → ℕ → ℝ}
    (h : Blk X [] a N b f) (hs : X.shape = [a, N * b]) (hM : N * b * a ≤ M) :
    ∃ (Xt Q S Qt St : Tensor ℝ) (g : List ℕ → ℕ → ℕ → ℕ → ℝ) (P : ℕ → ℕ → ℕ → ℝ) (τ : ℕ → ℕ → ℝ), transpose X [1, 0] = Except.ok Xt ∧
      linalgQR qr Xt = Except.ok (Q, S) ∧ transpose Q [1, 0] = Except.ok Qt ∧ transpose S [1, 0] = Except.ok St ∧
      Qt.shape = [min (N * b) a, N * b] ∧ Blk Qt [] (min (N * b) a) N b g ∧ St.shape = [a, min (N * b) a] ∧
      (∀ α γ, St.get [α, γ] = τ γ α) ∧
      (∀ γ < min (N * b) a, ∀ γ' < min (N * b) a, ∑ β ∈ Finset.range b, ∑ n ∈ Finset.range N, P n β γ * P n β γ' = δ γ γ') ∧
      bn b N a (fun n β α => (∑ γ ∈ Finset.range (min (N * b) a), P n β γ * τ γ α) - f [] α n β) ≤ ε * bn b N a (fun n β α => f [] α n β) ∧
      bn b N (min (N * b) a) (fun n β γ => g [] γ n β - P n β γ) ≤ ε := by
  obtain ⟨Xt, eX, sX, vX⟩ := transpose_pre (bs := none) hs
  have hX : Blk Xt (none : Option ℕ).toList N b a fun p n β α => f p α n β := by
    refine ⟨by rw [sX]; simp; ring, fun p hp n hn β hβ α hα => ?_⟩
    have := h.wide (pre := []) hs (p := p) hp hα hn hβ
    show _ = f p α n β
    rw [← this, ← vX p hp]
    rw [← flat_two sX hp (mul_add_lt hn hβ) hα]
    congr 1; ring
  obtain ⟨Q, S, g, P, τ, eQ, sQ, bQ, sS, vS, hq⟩ := qr_tall_near hqr (bs := none) hX sX hM
  obtain ⟨Qt, eQt, sQt, vQt⟩ := transpose_pre (bs := none) sQ
  obtain ⟨St, eSt, sSt, vSt⟩ := transpose_pre (bs := none) sS
  obtain ⟨q1, q2, q3⟩ := hq [] trivial
  refine ⟨Xt, Q, S, Qt, St, fun p γ n β => g p n β γ, fun n β γ => P [] β n γ, fun γ α => τ [] γ α, eX, eQ, eQt, eSt, sQt, ?_, sSt, fun α γ => ?_,
    fun γ hγ γ' hγ' => ?_, ?_, ?_⟩
  · refine (blk_of_wide (pre := []) sQt).congr fun p hp γ hγ n hn β hβ => ?_
    rw [vQt p hp]
    exact bQ.tall sQ hp hn hβ hγ
  · have := vSt [] trivial γ α
    simp only [List.nil_append] at this
    rw [this]
    exact vS [] γ α
  · rw [← q1 γ hγ γ' hγ', Finset.sum_comm]
  · rw [bn_swap, bn_swap b]
    exact q2
  · rw [bn_swap]
    exact q3

/-- Multiplying a tall block from the right, with rounding. -/
theorem Blk.mulF_right {F : FloatRoutines} {A : Arith} (hF : F.Follows A) {bs : Option ℕ} {X T : Tensor ℝ} {a N b k : ℕ} {f : List ℕ → ℕ → ℕ → ℕ → ℝ}
    (h : Blk X bs.toList a N b f) (hs : X.shape = bs.toList ++ [a * N, b]) (hT : T.shape = bs.toList ++ [b, k]) :
    ∃ Y y, F.matmul X T = Except.ok Y ∧ Y.shape = bs.toList ++ [a * N, k] ∧ Blk Y bs.toList a N k y ∧
      ∀ p, Valid bs.toList p → bn k N a (fun n γ α => y p α n γ - ∑ l ∈ Finset.range b, T.get (p ++ [l, γ]) * f p α n l) ≤
        ((1 + A.u) ^ b - 1) * (fn k b (fun γ l => T.get (p ++ [l, γ])) * bn b N a fun n l α => f p α n l) := by
  obtain ⟨Y, e, s, v⟩ := matmulF_pre hF hs hT
  refine ⟨Y, _, e, s, blk_of_tall s, fun p hp => bn_err_mul ?_ fun n hn γ hγ α hα => ?_⟩
  · have := one_le_pow₀ (n := b) (show (1 : ℝ) ≤ 1 + A.u by linarith [A.nonneg])
    linarith
  · have := v p hp (α * N + n) (mul_add_lt hα hn) γ hγ
    have e1 : ∀ l ∈ Finset.range b, X.get (p ++ [α * N + n, l]) = f p α n l := fun l hl => h.tall hs hp hα hn (Finset.mem_range.1 hl)
    have e2 : ∑ l ∈ Finset.range b, X.get (p ++ [α * N + n, l]) * T.get (p ++ [l, γ]) = ∑ l ∈ Finset.range b, T.get (p ++ [l, γ]) * f p α n l :=
      Finset.sum_congr rfl fun l hl => by rw [e1 l hl, mul_comm]
    have e3 : ∑ l ∈ Finset.range b, |X.get (p ++ [α * N + n, l])| * |T.get (p ++ [l, γ])| = ∑ l ∈ Finset.range b, |T.get (p ++ [l, γ])| * |f p α n l| :=
      Finset.sum_congr rfl fun l hl => by rw [e1 l hl, mul_comm]
    rw [e2, e3] at this
    exact this

/-! ## The chain read from right to left -/

def mirN (d : ℕ) (N : ℕ → ℕ) (k : ℕ) : ℕ := N (d - 1 - k)

def mirR (d : ℕ) (r : ℕ → ℕ) (k : ℕ) : ℕ := r (d - k)

def mirA (d : ℕ) (A : ℕ → ℕ → ℕ → ℕ → ℝ) (k n a b : ℕ) : ℝ := A (d - 1 - k) n b a

theorem gram_mir {d : ℕ} {N ra rb : ℕ → ℕ} (A B : ℕ → ℕ → ℕ → ℕ → ℝ) (ha : ra d = 1) (hb : rb d = 1) {m : ℕ} (hm : m ≤ d) {x y : ℕ}
    (hx : x < mirR d ra m) (hy : y < mirR d rb m) :
    gram (mirN d N) (mirR d ra) (mirR d rb) (mirA d A) (mirA d B) m x y = rgram N ra rb A B m (d - m) x y := by
  induction m generalizing x y with
  | zero =>
    simp only [mirR, Nat.sub_zero, ha, hb] at hx hy
    obtain rfl : x = 0 := by omega
    obtain rfl : y = 0 := by omega
    simp [gram, rgram]
  | succ m ih =>
    rw [gram, rgram, show d - (m + 1) + 1 = d - m by omega]
    refine Finset.sum_congr rfl fun a ha' => Finset.sum_congr rfl fun c hc => ?_
    rw [ih (by omega) (Finset.mem_range.1 ha') (Finset.mem_range.1 hc), mul_comm]
    simp only [mirN, mirA, show d - (m + 1) = d - 1 - m by omega]

theorem gram_mir_full {d : ℕ} {N ra rb : ℕ → ℕ} (A B : ℕ → ℕ → ℕ → ℕ → ℝ) (ha : ra d = 1) (hb : rb d = 1) (ha0 : ra 0 = 1) (hb0 : rb 0 = 1) :
    gram (mirN d N) (mirR d ra) (mirR d rb) (mirA d A) (mirA d B) d 0 0 = gram N ra rb A B d 0 0 := by
  rw [gram_mir A B ha hb le_rfl (by simp [mirR, ha0]) (by simp [mirR, hb0])]
  have := gram_split (N := N) (ra := ra) (rb := rb) (A := A) (B := B) d 0 (by simpa using ha) (by simpa using hb)
  rw [Nat.zero_add, ha0, hb0] at this
  rw [this]
  simp [gram]

theorem chainDist_mir {d : ℕ} {N ra rb : ℕ → ℕ} (A B : ℕ → ℕ → ℕ → ℕ → ℝ) (ha : ra d = 1) (hb : rb d = 1) (ha0 : ra 0 = 1) (hb0 : rb 0 = 1) :
    chainDist (mirN d N) (mirR d ra) (mirR d rb) (mirA d A) (mirA d B) d = chainDist N ra rb A B d := by
  unfold chainDist
  rw [gram_mir_full A A ha ha ha0 ha0, gram_mir_full A B ha hb ha0 hb0, gram_mir_full B B hb hb hb0 hb0]

theorem normProd_mir (d : ℕ) (N r : ℕ → ℕ) (G : ℕ → ℕ → ℕ → ℕ → ℝ) : normProd (mirN d N) (mirR d r) (mirA d G) d = normProd N r G d := by
  unfold normProd
  rw [← Finset.prod_range_reflect]
  refine Finset.prod_congr rfl fun k hk => ?_
  rw [Finset.mem_range] at hk
  rw [bn_flip]
  simp only [mirN, mirR, mirA, show d - 1 - (d - 1 - k) = k by omega, show d - (d - 1 - k) = k + 1 by omega, show d - (d - 1 - k + 1) = k by omega]

theorem sweepGrowth_mir (A : Arith) (ε : ℝ) (r : ℕ → ℕ) (d : ℕ) : sweepGrowth A ε (mirR d r) (d - 1) = sweepGrowth A ε r (d - 1) := by
  unfold sweepGrowth mirR
  rw [← Finset.sum_range_reflect]
  refine congrArg (fun n => (1 + ε) ^ (d - 1) * (1 + A.u) ^ n) (Finset.sum_congr rfl fun k hk => ?_)
  rw [Finset.mem_range] at hk
  rw [show d - (d - 1 - 1 - k + 1) = k + 1 by omega]

theorem ROrth.mir {d : ℕ} {N r : ℕ → ℕ} {A : ℕ → ℕ → ℕ → ℕ → ℝ} {k : ℕ} (hk : k < d) (h : LOrth (mirN d N) (mirR d r) (mirA d A) (d - 1 - k)) : ROrth N r A k := by
  intro a ha a' ha'
  have := h a (by simpa [mirR, show d - (d - 1 - k + 1) = k by omega] using ha) a' (by simpa [mirR, show d - (d - 1 - k + 1) = k by omega] using ha')
  simp only [mirN, mirR, mirA, show d - 1 - (d - 1 - k) = k by omega, show d - (d - 1 - k) = k + 1 by omega] at this
  rw [← this, Finset.sum_comm]

/-! ## The sweep -/

structure RLInvF (A : Arith) (ε : ℝ) (t : TT ℝ) (i : ℕ) (s : List (Tensor ℝ) × ℕ) : Prop where
  len : s.1.length = t.ndims
  rk : s.2 = rlRank t.N t.rank t.ndims (i + 1)
  shape : ∀ k, i < k → k < t.ndims → (s.1.getD k default).shape =
    rlRank t.N t.rank t.ndims k :: (t.modes k ++ [rlRank t.N t.rank t.ndims (k + 1)])
  rest : ∀ k < i, s.1.getD k default = t.core k
  cur : ∃ f : List ℕ → ℕ → ℕ → ℕ → ℝ,
    Blk (s.1.getD i default) [] (t.rank i) (t.N i) (rlRank t.N t.rank t.ndims (i + 1)) f ∧ ∃ Q : ℕ → ℕ → ℕ → ℕ → ℝ,
      (∀ k < t.ndims - 1 - i, LOrth (mirN t.ndims t.N) (mirR t.ndims (rlRank t.N t.rank t.ndims)) Q k ∧
        bn (mirR t.ndims (rlRank t.N t.rank t.ndims) k) (mirN t.ndims t.N k) (mirR t.ndims (rlRank t.N t.rank t.ndims) (k + 1))
          (fun n a b => mirA t.ndims (cfl s.1 t.modes []) k n a b - Q k n a b) ≤ ε) ∧
      OrthErr (mirN t.ndims t.N) (mirR t.ndims t.rank) (mirR t.ndims (rlRank t.N t.rank t.ndims)) (mirA t.ndims (t.fl []))
        (mirA t.ndims (cfl s.1 t.modes [])) (fun n a b => f [] b n a) ε (sweepGrowth A ε (mirR t.ndims t.rank) (t.ndims - 1 - i))
        (normProd (mirN t.ndims t.N) (mirR t.ndims t.rank) (mirA t.ndims (t.fl [])) (t.ndims - 1 - i + 1)) (t.ndims - 1 - i) ∧
      OrthErr (mirN t.ndims t.N) (mirR t.ndims t.rank) (mirR t.ndims (rlRank t.N t.rank t.ndims)) (mirA t.ndims (t.fl []))
        Q (fun n a b => f [] b n a) 0 (sweepGrowth A ε (mirR t.ndims t.rank) (t.ndims - 1 - i))
        (normProd (mirN t.ndims t.N) (mirR t.ndims t.rank) (mirA t.ndims (t.fl [])) (t.ndims - 1 - i + 1)) (t.ndims - 1 - i)

theorem RLInvF.init {A : Arith} {ε : ℝ} {t : TT ℝ} (h : t.WF) (hb : t.batch = none) : RLInvF A ε t (t.ndims - 1) (t.cores, 1) := by
  have hpos := h.pos
  have hd1 : t.ndims - 1 + 1 = t.ndims := by omega
  refine ⟨rfl, by rw [hd1, rlRank_last], fun k hk hk' => absurd hk (by omega), fun k _ => rfl, ?_⟩
  refine ⟨fun p a n b => t.fl p (t.ndims - 1) n a b, ?_, fun _ _ _ _ => 0, ?_, ?_, ?_⟩
  · have := blk_core h (k := t.ndims - 1) (by omega)
    rw [hd1, h.rank_last, TT.bpre, hb] at this
    rw [hd1, rlRank_last]
    exact this
  all_goals rw [Nat.sub_self]
  · exact fun k hk => absurd hk (by omega)
  all_goals
    rw [show sweepGrowth A ε (mirR t.ndims t.rank) 0 = 1 by simp [sweepGrowth], normProd, Finset.prod_range_one]
    exact OrthErr.init h.rank_last (rlRank_last _ _ _) fun n _ b _ => rfl

theorem orthoRLStepF_ok {F : FloatRoutines} {A : Arith} (hF : F.Follows A) {qr : QRRoutine} {ε : ℝ} (hε : 0 ≤ ε) {M : ℕ} (hqr : qr.Backward ε M)
    {t : TT ℝ} (h : t.WF) (hb : t.batch = none) (i : ℕ) (hi : i + 1 < t.ndims) (hM : t.rank (i + 1) * t.N (i + 1) * t.rank (i + 2) ≤ M)
    (s : List (Tensor ℝ) × ℕ) (hs : RLInvF A ε t (i + 1) s) :
    ∃ s', orthoRLStepF F qr t (i + 1) s = Except.ok s' ∧ RLInvF A ε t i s' := by
  obtain ⟨f, hB, Q₀, hQ₀, h1, h2⟩ := hs.cur
  have hpre : t.bpre = [] := by rw [TT.bpre, hb]; rfl
  set r' := rlRank t.N t.rank t.ndims with hr'
  obtain ⟨Y, eY, sY, bY⟩ := hB.reshape_some (s := [t.rank (i + 1), t.N (i + 1) * r' (i + 2)]) (by simp)
  have hM' : t.N (i + 1) * r' (i + 2) * t.rank (i + 1) ≤ M := by
    refine le_trans ?_ hM
    have := rlRank_le t.N t.rank h.rank_last (k := i + 2) (by omega)
    calc _ ≤ t.N (i + 1) * t.rank (i + 2) * t.rank (i + 1) := Nat.mul_le_mul_right _ (Nat.mul_le_mul_left _ this)
      _ = _ := by ring
  obtain ⟨Xt, Q, S, Qt, St, q, P, τ, e1, e2, e3, e4, sQt, bQt, sSt, vSt, q1, q2, q3⟩ := qr_wide_near hqr bY sY hM'
  have hmin : min (t.N (i + 1) * r' (i + 2)) (t.rank (i + 1)) = r' (i + 1) := (rlRank_step _ _ hi).symm
  rw [hmin] at sQt bQt sSt q1 q2 q3
  obtain ⟨C, eC, sC, bC⟩ := bQt.reshape_some (s := r' (i + 1) :: (t.modes (i + 1) ++ [r' (i + 2)])) (by simp [TT.N])
  have hprev := blk_core h (show i < t.ndims by omega)
  rw [hpre] at hprev
  obtain ⟨Z, eZ, sZ, bZ⟩ := hprev.reshape_first (t.rank (i + 1)) (t.rank i * t.N i)
    (by simpa using h.rank_pos _ (by omega)) (by ring)
  obtain ⟨W, w, eW, sW, bW, hw⟩ := bZ.mulF_right hF (bs := none) sZ (T := St) sSt
  have p1 : pyGet s.1 (i + 1) = Except.ok (s.1.getD (i + 1) default) := pyGet_of_lt _ _ _ (by rw [hs.len]; omega)
  have p2 : pyGet s.1 (i + 1 - 1) = Except.ok (t.core i) := by
    rw [Nat.add_sub_cancel, pyGet_of_lt _ _ default (by rw [hs.len]; omega), hs.rest i (by omega)]
  have p3 : pyGet St.shape 0 = Except.ok (t.rank (i + 1)) := by rw [sSt]; rfl
  have p4 : pyGet St.shape 1 = Except.ok (r' (i + 1)) := by rw [sSt]; rfl
  refine ⟨((s.1.set (i + 1) C).set i W, r' (i + 1)), ?_, ?_⟩
  · unfold orthoRLStepF
    simp only [p1, hs.rk, h.pyRank (show i + 1 ≤ t.ndims by omega), R.ok_bind]
    rw [show reshape (s.1.getD (i + 1) default) [some (t.rank (i + 1)), some ((coreModes t (i + 1)).prod * rlRank t.N t.rank t.ndims (i + 1 + 1))] =
      Except.ok Y from eY]
    simp only [R.ok_bind, e1, e2, e3, e4, p3, p4]
    rw [show reshape Qt ((r' (i + 1) :: (coreModes t (i + 1) ++ [rlRank t.N t.rank t.ndims (i + 1 + 1)])).map some) = Except.ok C from eC]
    simp only [R.ok_bind, p2]
    rw [show reshape (t.core i) [none, some (t.rank (i + 1))] = Except.ok Z from eZ]
    simp only [R.ok_bind, eW, R.pure_eq, Nat.add_sub_cancel]
  · have ge : ∀ k, i + 1 < k → ((s.1.set (i + 1) C).set i W).getD k default = s.1.getD k default := fun k hk => by
      rw [getD_set_ne _ _ _ (by omega), getD_set_ne _ _ _ (by omega)]
    have gi : ((s.1.set (i + 1) C).set i W).getD (i + 1) default = C := by
      rw [getD_set_ne _ _ _ (by omega), getD_set_self _ _ _ _ (by rw [hs.len]; omega)]
    have gi1 : ((s.1.set (i + 1) C).set i W).getD i default = W :=
      getD_set_self _ _ _ _ (by rw [List.length_set, hs.len]; omega)
    obtain ⟨m, hm⟩ : ∃ m, t.ndims = i + 2 + m := ⟨t.ndims - (i + 2), by omega⟩
    set d := t.ndims with hd
    rw [show d - 1 - (i + 1) = m by omega] at hQ₀ h1 h2
    have hm1 : d - 1 - i = m + 1 := by omega
    have dm : d - 1 - m = i + 1 := by omega
    have dm' : d - m = i + 2 := by omega
    have dm1 : d - (m + 1) = i + 1 := by omega
    have dm1' : d - 1 - (m + 1) = i := by omega
    have dm2 : d - (m + 2) = i := by omega
    have hCv : ∀ n < t.N (i + 1), ∀ b < r' (i + 2), ∀ a < r' (i + 1),
        mirA d (cfl ((s.1.set (i + 1) C).set i W) t.modes []) m n b a = q [] a n b := fun n hn b hb a ha => by
      simp only [mirA, cfl, dm, gi]
      rw [bC.core (pre := []) sC rfl (p := []) trivial ha (unravel_valid hn) hb, ravel_unravel hn]
    have hCk : ∀ k, k < m → mirA d (cfl ((s.1.set (i + 1) C).set i W) t.modes []) k = mirA d (cfl s.1 t.modes []) k := fun k hk => by
      funext n a b
      simp only [mirA, cfl, ge (d - 1 - k) (by omega)]
    have hγ : (0 : ℝ) ≤ (1 + A.u) ^ t.rank (i + 1) - 1 := by
      have := one_le_pow₀ (n := t.rank (i + 1)) (show (1 : ℝ) ≤ 1 + A.u by linarith [A.nonneg])
      linarith
    refine ⟨by simp [hs.len], rfl, fun k hk hk' => ?_, fun k hk => ?_, w, ?_, ?_⟩
    · rcases Nat.lt_or_ge (i + 1) k with h1 | h1
      · rw [ge k h1]; exact hs.shape k h1 hk'
      · obtain rfl : k = i + 1 := by omega
        rw [gi]; exact sC
    · simp only []
      rw [getD_set_ne _ _ _ (by omega), getD_set_ne _ _ _ (by omega)]
      exact hs.rest k (by omega)
    · simp only []
      rw [gi1]
      exact bW
    · rw [hm1]
      have hw' := hw [] trivial
      simp only [List.nil_append, vSt] at hw'
      have hk : ∀ k < m, Function.update Q₀ m P k = Q₀ k := fun k hk => Function.update_of_ne (by omega) _ _
      have hQi : Function.update Q₀ m P m = P := Function.update_self _ _ _
      have hnp : normProd (mirN d t.N) (mirR d t.rank) (mirA d (t.fl [])) (m + 1 + 1) =
          normProd (mirN d t.N) (mirR d t.rank) (mirA d (t.fl [])) (m + 1) *
            bn (mirR d t.rank (m + 1)) (mirN d t.N (m + 1)) (mirR d t.rank (m + 2)) (mirA d (t.fl []) (m + 1)) :=
        Finset.prod_range_succ _ _
      have q1' : ∀ b < mirR d r' (m + 1), ∀ b' < mirR d r' (m + 1),
          ∑ a ∈ Finset.range (mirR d r' m), ∑ n ∈ Finset.range (mirN d t.N m), P n a b * P n a b' = δ b b' := by
        simp only [mirR, mirN, dm, dm', dm1]
        exact q1
      have q2' : bn (mirR d r' m) (mirN d t.N m) (mirR d t.rank (m + 1))
          (fun n a b => (∑ l ∈ Finset.range (mirR d r' (m + 1)), P n a l * τ l b) - f [] b n a) ≤
          ε * bn (mirR d r' m) (mirN d t.N m) (mirR d t.rank (m + 1)) (fun n a b => f [] b n a) := by
        simp only [mirR, mirN, dm, dm', dm1]
        exact q2
      have hw2 : bn (mirR d r' (m + 1)) (mirN d t.N (m + 1)) (mirR d t.rank (m + 2))
          (fun n a b => w [] b n a - ∑ l ∈ Finset.range (mirR d t.rank (m + 1)), τ a l * mirA d (t.fl []) (m + 1) n l b) ≤
          ((1 + A.u) ^ mirR d t.rank (m + 1) - 1) * (fn (mirR d r' (m + 1)) (mirR d t.rank (m + 1)) τ *
            bn (mirR d t.rank (m + 1)) (mirN d t.N (m + 1)) (mirR d t.rank (m + 2)) (mirA d (t.fl []) (m + 1))) := by
        have hA : mirA d (t.fl []) (m + 1) = fun n l α => t.fl [] i n α l := by
          funext n l α
          simp only [mirA, dm1']
        rw [hA]
        simp only [mirR, mirN, dm1, dm1', dm2]
        exact hw'
      have q3' : bn (mirR d r' m) (mirN d t.N m) (mirR d r' (m + 1))
          (fun n a b => mirA d (cfl ((s.1.set (i + 1) C).set i W) t.modes []) m n a b - P n a b) ≤ ε := by
        simp only [mirR, mirN, dm, dm', dm1]
        refine le_trans (le_of_eq (bn_congr fun n hn a ha b hb => ?_)) q3
        rw [hCv n hn a ha b hb]
      rw [← hr', ← hd]
      clear_value r'
      refine ⟨Function.update Q₀ m P, fun k hk' => ?_, ?_, ?_⟩
      · rcases Nat.lt_succ_iff_lt_or_eq.1 hk' with h3 | h3
        · obtain ⟨h4, h5⟩ := hQ₀ k h3
          refine ⟨?_, ?_⟩
          · intro b hb b' hb'
            rw [hk k h3]
            exact h4 b hb b' hb'
          · rw [hk k h3, hCk k h3]
            exact h5
        · rw [h3]
          refine ⟨?_, ?_⟩
          · intro b hb b' hb'
            rw [hQi]
            exact q1' b hb b' hb'
          · rw [hQi]
            exact q3'
      · rw [sweepGrowth_succ, hnp]
        refine (h1.congr (X' := mirA d (cfl ((s.1.set (i + 1) C).set i W) t.modes [])) (fun j hj n _ a _ b _ => by rw [hCk j hj])
          (fun _ _ _ _ _ _ => rfl)).step (q := P) (R := τ) hε hε (by simpa only [mirR, dm1] using hγ) q1' q3' q2' hw2
      · rw [sweepGrowth_succ, hnp]
        refine (h2.congr (X' := Function.update Q₀ m P) (fun j hj n _ a _ b _ => by rw [hk j hj])
          (fun _ _ _ _ _ _ => rfl)).step (q := P) (R := τ) le_rfl hε (by simpa only [mirR, dm1] using hγ) q1' ?_ q2' hw2
        rw [hQi]
        simp [bn, fro3]

theorem orthoRLF_ok {F : FloatRoutines} {A : Arith} (hF : F.Follows A) {qr : QRRoutine} {ε : ℝ} (hε : 0 ≤ ε) {M : ℕ} (hqr : qr.Backward ε M)
    {t : TT ℝ} (h : t.WF) (hb : t.batch = none) (hm : t.ModesPos) (hM : ∀ k < t.ndims, t.rank k * t.N k * t.rank (k + 1) ≤ M) :
    ∃ o, orthoRLF F qr t = Except.ok o ∧ o.WF ∧ o.rawShape = t.rawShape ∧ o.batch = none ∧ o.ndims = t.ndims ∧
      (∀ k ≤ t.ndims, o.rank k = rlRank t.N t.rank t.ndims k) ∧
      ∃ Q, OrthResult (mirN t.ndims t.N) (mirR t.ndims t.rank) (mirR t.ndims (rlRank t.N t.rank t.ndims)) (mirA t.ndims (t.fl []))
        (mirA t.ndims (o.fl [])) Q ε (sweepGrowth A ε t.rank (t.ndims - 1)) (t.ndims - 1) := by
  have hpos := h.pos
  have hpre : t.bpre = [] := by rw [TT.bpre, hb]; rfl
  obtain ⟨s, es, hs⟩ := forRange_inv (fun j s => RLInvF A ε t (t.ndims - 1 - j) s) (fun j => orthoRLStepF F qr t (t.ndims - 1 - j)) 0
    (t.ndims - 1) (t.cores, 1) (RLInvF.init h hb)
    (fun j s _ hj hP => by
      obtain ⟨i, hi⟩ : ∃ i, t.ndims - 1 - j = i + 1 := ⟨t.ndims - 1 - j - 1, by omega⟩
      rw [hi] at hP ⊢
      rw [show t.ndims - 1 - (j + 1) = i by omega]
      exact orthoRLStepF_ok hF hε hqr h hb i (by omega) (hM _ (by omega)) s hP)
  rw [Nat.zero_add, Nat.sub_self] at hs
  obtain ⟨f, hB, Q, hQ, h1, h2⟩ := hs.cur
  set r' := rlRank t.N t.rank t.ndims with hr'
  have hN : ∀ k < t.ndims, 0 < t.N k := fun k hk => modes_pos h hm hk
  have hr'0 : r' 0 = 1 := by
    have h1 := rlRank_pos hN h.rank_pos (k := 0) (by omega)
    have h2 := rlRank_le t.N t.rank h.rank_last (k := 0) (by omega)
    rw [h.rank_first] at h2
    exact le_antisymm h2 h1
  rw [h.rank_first] at hB
  obtain ⟨C, eC, sC, bC⟩ := hB.reshape_some (s := 1 :: (t.modes 0 ++ [r' 1])) (by simp [TT.N])
  have hl : (s.1.set 0 C).length = t.ndims := by simp [hs.len]
  have gl : (s.1.set 0 C).getD 0 default = C := getD_set_self _ _ _ _ (by rw [hs.len]; omega)
  have gk : ∀ k, 0 < k → (s.1.set 0 C).getD k default = s.1.getD k default := fun k hk => getD_set_ne _ _ _ (by omega)
  have chain : Chain none (s.1.set 0 C) r' t.modes t.rawShape.length := by
    refine ⟨by omega, hr'0, by rw [hl]; exact rlRank_last _ _ _, fun k hk => rlRank_pos hN h.rank_pos (by omega), h.rows,
      fun k _ => by simp [TT.modes], fun k hk => ?_, by simp⟩
    rw [hl] at hk
    rcases Nat.eq_zero_or_pos k with rfl | h1
    · rw [gl, hr'0]; exact sC
    · rw [gk k h1]; exact hs.shape k h1 hk
  have rows : t.rawShape = rowsOf t.modes (s.1.set 0 C).length t.rawShape.length := by rw [hl]; exact h.rows_eq
  have e : orthoRLF F qr t = Except.ok (chainTT none (s.1.set 0 C) r' t.modes t.rawShape.length) := by
    unfold orthoRLF
    simp only [h.pyRank le_rfl, h.rank_last, R.ok_bind, es]
    rw [show pyGet s.1 0 = Except.ok (s.1.getD 0 default) from pyGet_of_lt _ _ _ (by rw [hs.len]; omega), R.ok_bind,
      hs.rk, show reshape (s.1.getD 0 default)
        ((1 :: (coreModes t 0 ++ [rlRank t.N t.rank t.ndims (0 + 1)])).map some) = Except.ok C from eC, R.ok_bind]
    exact mkTT_ok chain _ (Or.inr (chain.clean rows)) _ (Or.inl rfl)
  have hrank : ∀ k ≤ t.ndims, (chainTT none (s.1.set 0 C) r' t.modes t.rawShape.length).rank k = r' k := fun k hk =>
    chainTT_rank k (by rw [hl]; exact hk)
  have hmodes : ∀ k < t.ndims, (chainTT none (s.1.set 0 C) r' t.modes t.rawShape.length).modes k = t.modes k := fun k hk =>
    chain.modes_eq k (by rw [hl]; exact hk)
  refine ⟨_, e, chain.wf, rows.symm, rfl, hl, hrank, ?_⟩
  rw [Nat.sub_zero, sweepGrowth_mir] at h1 h2
  rw [Nat.sub_zero] at hQ
  refine ⟨_, OrthResult.of ?_ hQ h1 h2 (fun k hk n _ a _ b _ => ?_) fun n hn a ha => ?_⟩
  · rw [mirR, show t.ndims - (t.ndims - 1 + 1) = 0 by omega]
    exact h.rank_first
  · simp only [mirA]
    rw [TT.fl, hmodes _ (by omega), cfl, ← gk (t.ndims - 1 - k) (by omega)]
    rfl
  · simp only [mirN, mirR, Nat.sub_self, show t.ndims - (t.ndims - 1) = 1 by omega] at hn ha
    have := bC.core (pre := []) sC rfl (p := []) trivial Nat.zero_lt_one (unravel_valid hn) ha
    rw [ravel_unravel hn] at this
    simp only [mirA, Nat.sub_self]
    rw [TT.fl, hmodes _ (by omega), ← this]
    exact (congrArg (fun c : Tensor ℝ => c.get ([] ++ 0 :: (unravel (t.modes 0) n ++ [a]))) gl).symm

end T3f
