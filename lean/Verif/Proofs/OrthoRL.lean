import Verif.Proofs.Ortho
import Verif.Proofs.RProd

/-! # Right-to-left orthogonalization -/

namespace T3f

theorem transpose_pre {K : Type} {bs : Option ℕ} {A : Tensor K} {m n : ℕ} (hA : A.shape = bs.toList ++ [m, n]) :
    ∃ T, transpose A (List.range bs.toList.length ++ [bs.toList.length + 1, bs.toList.length]) = Except.ok T ∧
      T.shape = bs.toList ++ [n, m] ∧ ∀ p, Valid bs.toList p → ∀ x y, T.get (p ++ [y, x]) = A.get (p ++ [x, y]) := by
  cases bs with
  | none =>
    have hA' : A.shape = [m, n] := hA
    refine ⟨_, if_pos (by simp only [hA', List.length_cons, List.length_nil]; decide), by simp [hA'], fun p hp x y => ?_⟩
    obtain rfl := (valid_nil_iff p).1 hp
    simp [hA', List.range_succ, List.idxOf_cons]
  | some b =>
    have hA' : A.shape = [b, m, n] := hA
    refine ⟨_, if_pos (by simp only [hA', List.length_cons, List.length_nil, Option.toList]; decide),
      by simp [hA', List.range_succ], fun p hp x y => ?_⟩
    obtain ⟨o, rfl, -⟩ := (valid_singleton _ _).1 hp
    simp [hA', List.range_succ, List.idxOf_cons]

/-- QR decomposition of the transpose of a wide block: `f = τ g`, and the rows of `g` are orthonormal. -/
theorem qr_wide {qr : QRRoutine} (hqr : qr.Correct) {X : Tensor ℝ} {a N b : ℕ} {f : List ℕ → ℕ → ℕ → ℕ → ℝ}
    (h : Blk X [] a N b f) (hs : X.shape = [a, N * b]) :
    ∃ (Xt Q S Qt St : Tensor ℝ) (g : List ℕ → ℕ → ℕ → ℕ → ℝ) (τ : ℕ → ℕ → ℝ), transpose X [1, 0] = Except.ok Xt ∧
      linalgQR qr Xt = Except.ok (Q, S) ∧ transpose Q [1, 0] = Except.ok Qt ∧ transpose S [1, 0] = Except.ok St ∧
      Qt.shape = [min (N * b) a, N * b] ∧ Blk Qt [] (min (N * b) a) N b g ∧ St.shape = [a, min (N * b) a] ∧
      (∀ α γ, St.get [α, γ] = τ α γ) ∧
      (∀ α < a, ∀ n < N, ∀ β < b, ∑ γ ∈ Finset.range (min (N * b) a), τ α γ * g [] γ n β = f [] α n β) ∧
      ∀ γ < min (N * b) a, ∀ γ' < min (N * b) a,
        ∑ n ∈ Finset.range N, ∑ β ∈ Finset.range b, g [] γ n β * g [] γ' n β = if γ = γ' then 1 else 0 := by
  obtain ⟨Xt, eX, sX, vX⟩ := transpose_pre (bs := none) hs
  have hX : Blk Xt (none : Option ℕ).toList N b a fun p n β α => f p α n β := by
    refine ⟨by rw [sX]; simp; ring, fun p hp n hn β hβ α hα => ?_⟩
    have := h.wide (pre := []) hs (p := p) hp hα hn hβ
    show _ = f p α n β
    rw [← this, ← vX p hp]
    rw [← flat_two sX hp (mul_add_lt hn hβ) hα]
    congr 1; ring
  obtain ⟨Q, S, g, τ, eQ, sQ, bQ, sS, vS, hq⟩ := qr_tall hqr (bs := none) hX sX
  obtain ⟨Qt, eQt, sQt, vQt⟩ := transpose_pre (bs := none) sQ
  obtain ⟨St, eSt, sSt, vSt⟩ := transpose_pre (bs := none) sS
  obtain ⟨q1, q2⟩ := hq [] trivial
  refine ⟨Xt, Q, S, Qt, St, fun p γ n β => g p n β γ, fun α γ => τ [] γ α, eX, eQ, eQt, eSt, sQt, ?_, sSt, fun α γ => ?_,
    fun α hα n hn β hβ => ?_, fun γ hγ γ' hγ' => q2 γ hγ γ' hγ'⟩
  · refine (blk_of_wide (pre := []) sQt).congr fun p hp γ hγ n hn β hβ => ?_
    rw [vQt p hp]
    exact bQ.tall sQ hp hn hβ hγ
  · have := vSt [] trivial γ α
    simp only [List.nil_append] at this
    rw [this]
    exact vS [] γ α
  · rw [← q1 n hn β hβ α hα]
    exact Finset.sum_congr rfl fun γ _ => mul_comm _ _

/-- TT-ranks after the right-to-left sweep; `m` cores are to the right. -/
def rlRankAux (N r : ℕ → ℕ) (d : ℕ) : ℕ → ℕ
  | 0 => 1
  | m + 1 => min (N (d - 1 - m) * rlRankAux N r d m) (r (d - 1 - m))

def rlRank (N r : ℕ → ℕ) (d k : ℕ) : ℕ := rlRankAux N r d (d - k)

theorem rlRank_step (N r : ℕ → ℕ) {d k : ℕ} (hk : k < d) : rlRank N r d k = min (N k * rlRank N r d (k + 1)) (r k) := by
  unfold rlRank
  rw [show d - k = (d - (k + 1)) + 1 by omega, rlRankAux, show d - 1 - (d - (k + 1)) = k by omega]

theorem rlRank_last (N r : ℕ → ℕ) (d : ℕ) : rlRank N r d d = 1 := by
  unfold rlRank; rw [Nat.sub_self]; rfl

theorem rlRank_le (N r : ℕ → ℕ) {d k : ℕ} (h0 : r d = 1) (hk : k ≤ d) : rlRank N r d k ≤ r k := by
  rcases Nat.lt_or_ge k d with h | h
  · rw [rlRank_step N r h]; exact min_le_right _ _
  · obtain rfl : k = d := by omega
    rw [rlRank_last, h0]

theorem rlRank_pos {N r : ℕ → ℕ} {d : ℕ} (hN : ∀ k < d, 0 < N k) (hr : ∀ k ≤ d, 0 < r k) {k : ℕ} (hk : k ≤ d) : 0 < rlRank N r d k := by
  induction h : d - k generalizing k with
  | zero =>
    obtain rfl : k = d := by omega
    rw [rlRank_last]; omega
  | succ m ih =>
    rw [rlRank_step N r (by omega)]
    exact lt_min (Nat.mul_pos (hN k (by omega)) (ih (by omega) (by omega))) (hr _ hk)

structure RLInv (t : TT ℝ) (i : ℕ) (s : List (Tensor ℝ) × ℕ) : Prop where
  len : s.1.length = t.ndims
  rk : s.2 = rlRank t.N t.rank t.ndims (i + 1)
  shape : ∀ k, i < k → k < t.ndims → (s.1.getD k default).shape =
    rlRank t.N t.rank t.ndims k :: (t.modes k ++ [rlRank t.N t.rank t.ndims (k + 1)])
  orth : ∀ k, i < k → k < t.ndims → ROrth t.N (rlRank t.N t.rank t.ndims) (cfl s.1 t.modes []) k
  rest : ∀ k < i, s.1.getD k default = t.core k
  cur : ∃ T : ℕ → ℕ → ℝ,
    Blk (s.1.getD i default) [] (t.rank i) (t.N i) (rlRank t.N t.rank t.ndims (i + 1))
      (fun _ α n β => ∑ l ∈ Finset.range (t.rank (i + 1)), t.fl [] i n α l * T l β) ∧
    ∀ g, (∀ j, i < j → j < t.ndims → Valid (t.modes j) (g j)) → ∀ b < t.rank (i + 1),
      rprod t.rank (t.slice [] g) (t.ndims - 1 - i) (i + 1) b =
        ∑ a ∈ Finset.range (rlRank t.N t.rank t.ndims (i + 1)),
          T b a * rprod (rlRank t.N t.rank t.ndims) (cvl s.1 [] g) (t.ndims - 1 - i) (i + 1) a

theorem RLInv.init {t : TT ℝ} (h : t.WF) (hb : t.batch = none) : RLInv t (t.ndims - 1) (t.cores, 1) := by
  have hpos := h.pos
  have hd1 : t.ndims - 1 + 1 = t.ndims := by omega
  refine ⟨rfl, by rw [hd1, rlRank_last], fun k hk hk' => absurd hk (by omega), fun k hk hk' => absurd hk (by omega), fun k _ => rfl, ?_⟩
  refine ⟨fun a b => δ a b, ?_, fun g _ b hb => ?_⟩
  · have := blk_core h (k := t.ndims - 1) (by omega)
    rw [hd1, h.rank_last, TT.bpre, hb] at this
    rw [hd1, h.rank_last, rlRank_last]
    refine this.congr fun p hp α _ n _ β hβ => ?_
    obtain rfl := (valid_nil_iff p).1 hp
    rw [sum_δ_right hβ]
  · rw [hd1, h.rank_last] at hb
    obtain rfl : b = 0 := by omega
    simp [rlRank_last, rprod, δ, hd1]

theorem orthoRLStep_ok {qr : QRRoutine} (hqr : qr.Correct) {t : TT ℝ} (h : t.WF) (hb : t.batch = none) (i : ℕ) (hi : i + 1 < t.ndims)
    (hm : t.ModesPos) (s : List (Tensor ℝ) × ℕ) (hs : RLInv t (i + 1) s) :
    ∃ s', orthoRLStep qr t (i + 1) s = Except.ok s' ∧ RLInv t i s' := by
  obtain ⟨T, hB, hT⟩ := hs.cur
  have hpre : t.bpre = [] := by rw [TT.bpre, hb]; rfl
  set r' := rlRank t.N t.rank t.ndims with hr'
  have hr'pos : ∀ k ≤ t.ndims, 0 < r' k := fun k hk => rlRank_pos (fun k hk => modes_pos h hm hk) h.rank_pos hk
  obtain ⟨Y, eY, sY, bY⟩ := hB.reshape_some (s := [t.rank (i + 1), t.N (i + 1) * r' (i + 2)]) (by simp)
  obtain ⟨Xt, Q, S, Qt, St, q, τ, e1, e2, e3, e4, sQt, bQt, sSt, vSt, q1, q2⟩ := qr_wide hqr bY sY
  have hmin : min (t.N (i + 1) * r' (i + 2)) (t.rank (i + 1)) = r' (i + 1) := (rlRank_step _ _ hi).symm
  rw [hmin] at sQt bQt sSt q1 q2
  obtain ⟨C, eC, sC, bC⟩ := bQt.reshape_some (s := r' (i + 1) :: (t.modes (i + 1) ++ [r' (i + 2)])) (by simp [TT.N])
  have hprev := blk_core h (show i < t.ndims by omega)
  rw [hpre] at hprev
  obtain ⟨Z, eZ, sZ, bZ⟩ := hprev.reshape_first (t.rank (i + 1)) (t.rank i * t.N i)
    (by simpa using h.rank_pos _ (by omega)) (by ring)
  obtain ⟨W, eW, sW, bW⟩ := bZ.mul_right (bs := none) sZ (T := St) sSt
  have p1 : pyGet s.1 (i + 1) = Except.ok (s.1.getD (i + 1) default) := pyGet_of_lt _ _ _ (by rw [hs.len]; omega)
  have p2 : pyGet s.1 (i + 1 - 1) = Except.ok (t.core i) := by
    rw [Nat.add_sub_cancel, pyGet_of_lt _ _ default (by rw [hs.len]; omega), hs.rest i (by omega)]
  have p3 : pyGet St.shape 0 = Except.ok (t.rank (i + 1)) := by rw [sSt]; rfl
  have p4 : pyGet St.shape 1 = Except.ok (r' (i + 1)) := by rw [sSt]; rfl
  refine ⟨((s.1.set (i + 1) C).set i W, r' (i + 1)), ?_, ?_⟩
  · unfold orthoRLStep
    simp only [p1, hs.rk, h.pyRank (show i + 1 ≤ t.ndims by omega), R.ok_bind]
    rw [show reshape (s.1.getD (i + 1) default) [some (t.rank (i + 1)), some ((coreModes t (i + 1)).prod * rlRank t.N t.rank t.ndims (i + 1 + 1))] =
      Except.ok Y from eY]
    simp only [R.ok_bind, e1, e2, e3, e4, p3, p4]
    rw [show reshape Qt ((r' (i + 1) :: (coreModes t (i + 1) ++ [rlRank t.N t.rank t.ndims (i + 1 + 1)])).map some) = Except.ok C from eC]
    simp only [R.ok_bind, p2]
    rw [show reshape (t.core i) [none, some (t.rank (i + 1))] = Except.ok Z from eZ]
    simp only [R.ok_bind, eW, R.pure_eq, Nat.add_sub_cancel]
  · have ge : ∀ k, i + 1 < k → ((s.1.set (i + 1) C).set i W).getD k default = s.1.getD k default := fun k hk => by
      rw [getD_set_ne _ _ _ (by omega), getD_set_ne _ _ _ (by omega)]
    have gi : ((s.1.set (i + 1) C).set i W).getD (i + 1) default = C := by
      rw [getD_set_ne _ _ _ (by omega), getD_set_self _ _ _ _ (by rw [hs.len]; omega)]
    have gi1 : ((s.1.set (i + 1) C).set i W).getD i default = W :=
      getD_set_self _ _ _ _ (by rw [List.length_set, hs.len]; omega)
    have hCv : ∀ v, Valid (t.modes (i + 1)) v → ∀ a < r' (i + 1), ∀ b < r' (i + 2),
        C.get (a :: (v ++ [b])) = q [] a (ravel (t.modes (i + 1)) v) b := fun v hv a ha b hb =>
      bC.core (pre := []) sC rfl (p := []) trivial ha hv hb
    refine ⟨by simp [hs.len], rfl, fun k hk hk' => ?_, fun k hk hk' => ?_, fun k hk => ?_, τ, ?_, ?_⟩
    · rcases Nat.lt_or_ge (i + 1) k with h1 | h1
      · rw [ge k h1]; exact hs.shape k h1 hk'
      · obtain rfl : k = i + 1 := by omega
        rw [gi]; exact sC
    · rcases Nat.lt_or_ge (i + 1) k with h1 | h1
      · have := hs.orth k h1 hk'
        intro b hb b' hb'
        rw [← this b hb b' hb']
        simp only [cfl, ge k h1]
      · obtain rfl : k = i + 1 := by omega
        intro b hb b' hb'
        have := q2 b hb b' hb'
        rw [δ, ← this]
        refine Finset.sum_congr rfl fun n hn => Finset.sum_congr rfl fun a ha => ?_
        rw [Finset.mem_range] at ha hn
        simp only [cfl, gi, List.nil_append]
        rw [hCv _ (unravel_valid hn) b hb a ha, hCv _ (unravel_valid hn) b' hb' a ha, ravel_unravel hn]
    · simp only []
      rw [getD_set_ne _ _ _ (by omega), getD_set_ne _ _ _ (by omega)]
      exact hs.rest k (by omega)
    · simp only []
      rw [gi1]
      refine bW.congr fun p hp γ hγ n hn β hβ => ?_
      obtain rfl := (valid_nil_iff p).1 hp
      exact Finset.sum_congr rfl fun l _ => by rw [List.nil_append, vSt]
    · intro g hg b hb'
      have hgi := hg (i + 1) (by omega) hi
      have hcong : ∀ a < r' (i + 2), rprod r' (cvl ((s.1.set (i + 1) C).set i W) [] g) (t.ndims - 1 - (i + 1)) (i + 2) a =
          rprod r' (cvl s.1 [] g) (t.ndims - 1 - (i + 1)) (i + 2) a := fun a ha =>
        rprod_congr (fun _ _ _ => rfl) (fun j hj _ x y _ _ => by simp only [cvl]; rw [ge j (by omega)]) ha
      rw [show t.ndims - 1 - i = (t.ndims - 1 - (i + 1)) + 1 by omega]
      calc rprod t.rank (t.slice [] g) (t.ndims - 1 - (i + 1) + 1) (i + 1) b
          = ∑ l ∈ Finset.range (t.rank (i + 2)), t.slice [] g (i + 1) b l *
              ∑ a ∈ Finset.range (r' (i + 2)), T l a * rprod r' (cvl s.1 [] g) (t.ndims - 1 - (i + 1)) (i + 2) a := by
            rw [rprod]
            refine Finset.sum_congr rfl fun l hl => ?_
            rw [hT g (fun j hj hj' => hg j (by omega) hj') l (Finset.mem_range.1 hl)]
        _ = ∑ a ∈ Finset.range (r' (i + 2)), (∑ l ∈ Finset.range (t.rank (i + 2)),
              t.fl [] (i + 1) (ravel (t.modes (i + 1)) (g (i + 1))) b l * T l a) * rprod r' (cvl s.1 [] g) (t.ndims - 1 - (i + 1)) (i + 2) a := by
            simp only [Finset.sum_mul, Finset.mul_sum]
            rw [Finset.sum_comm]
            refine Finset.sum_congr rfl fun a _ => Finset.sum_congr rfl fun l _ => ?_
            rw [TT.fl, unravel_ravel hgi, TT.slice]; ring
        _ = ∑ a ∈ Finset.range (r' (i + 2)), (∑ γ ∈ Finset.range (r' (i + 1)),
              τ b γ * q [] γ (ravel (t.modes (i + 1)) (g (i + 1))) a) * rprod r' (cvl s.1 [] g) (t.ndims - 1 - (i + 1)) (i + 2) a := by
            refine Finset.sum_congr rfl fun a ha => ?_
            rw [q1 b hb' _ (ravel_lt hgi) a (Finset.mem_range.1 ha)]
        _ = _ := by
            simp only [rprod, Finset.sum_mul, Finset.mul_sum]
            rw [Finset.sum_comm]
            refine Finset.sum_congr rfl fun γ hγ => Finset.sum_congr rfl fun a ha => ?_
            rw [hcong a (Finset.mem_range.1 ha), show cvl ((s.1.set (i + 1) C).set i W) [] g (i + 1) γ a = q [] γ (ravel (t.modes (i + 1)) (g (i + 1))) a by
              simp only [cvl]; rw [gi, List.nil_append, hCv _ hgi γ (Finset.mem_range.1 hγ) a (Finset.mem_range.1 ha)]]
            ring

/-- What the right-to-left sweep returns. -/
theorem orthoRL_ok {qr : QRRoutine} (hqr : qr.Correct) {t : TT ℝ} (h : t.WF) (hb : t.batch = none) (hm : t.ModesPos) :
    ∃ o, orthoRL qr t = Except.ok o ∧ o.WF ∧ o.rawShape = t.rawShape ∧ o.batch = none ∧ o.ndims = t.ndims ∧
      (∀ k ≤ t.ndims, o.rank k = rlRank t.N t.rank t.ndims k) ∧
      (∀ k, 0 < k → k < t.ndims → o.RightOrthonormal [] k) ∧
      ∀ g, (∀ j < t.ndims, Valid (t.modes j) (g j)) → o.entry [] g = t.entry [] g := by
  have hpos := h.pos
  have hpre : t.bpre = [] := by rw [TT.bpre, hb]; rfl
  obtain ⟨s, es, hs⟩ := forRange_inv (fun j s => RLInv t (t.ndims - 1 - j) s) (fun j => orthoRLStep qr t (t.ndims - 1 - j)) 0
    (t.ndims - 1) (t.cores, 1) (RLInv.init h hb)
    (fun j s _ hj hP => by
      obtain ⟨i, hi⟩ : ∃ i, t.ndims - 1 - j = i + 1 := ⟨t.ndims - 1 - j - 1, by omega⟩
      rw [hi] at hP ⊢
      rw [show t.ndims - 1 - (j + 1) = i by omega]
      exact orthoRLStep_ok hqr h hb i (by omega) hm s hP)
  rw [Nat.zero_add, Nat.sub_self] at hs
  obtain ⟨T, hB, hT⟩ := hs.cur
  set r' := rlRank t.N t.rank t.ndims with hr'
  have hN : ∀ k < t.ndims, 0 < t.N k := fun k hk => modes_pos h hm hk
  have hr'0 : r' 0 = 1 := by
    have h1 := rlRank_pos hN h.rank_pos (k := 0) (by omega)
    have h2 := rlRank_le t.N t.rank h.rank_last (k := 0) (by omega)
    rw [h.rank_first] at h2
    exact le_antisymm h2 h1
  rw [h.rank_first] at hB
  obtain ⟨C, eC, sC, bC⟩ := hB.reshape_some (s := 1 :: (t.modes 0 ++ [r' 1])) (by simp [TT.N])
  have hl : (s.1.set 0 C).length = t.ndims := by simp [hs.len]
  have gl : (s.1.set 0 C).getD 0 default = C := getD_set_self _ _ _ _ (by rw [hs.len]; omega)
  have gk : ∀ k, 0 < k → (s.1.set 0 C).getD k default = s.1.getD k default := fun k hk => getD_set_ne _ _ _ (by omega)
  have chain : Chain none (s.1.set 0 C) r' t.modes t.rawShape.length := by
    refine ⟨by omega, hr'0, by rw [hl]; exact rlRank_last _ _ _, fun k hk => rlRank_pos hN h.rank_pos (by omega), h.rows,
      fun k _ => by simp [TT.modes], fun k hk => ?_, by simp⟩
    rw [hl] at hk
    rcases Nat.eq_zero_or_pos k with rfl | h1
    · rw [gl, hr'0]; exact sC
    · rw [gk k h1]; exact hs.shape k h1 hk
  have rows : t.rawShape = rowsOf t.modes (s.1.set 0 C).length t.rawShape.length := by rw [hl]; exact h.rows_eq
  have e : orthoRL qr t = Except.ok (chainTT none (s.1.set 0 C) r' t.modes t.rawShape.length) := by
    unfold orthoRL
    simp only [h.pyRank le_rfl, h.rank_last, R.ok_bind, es]
    rw [show pyGet s.1 0 = Except.ok (s.1.getD 0 default) from pyGet_of_lt _ _ _ (by rw [hs.len]; omega), R.ok_bind,
      hs.rk, show reshape (s.1.getD 0 default)
        ((1 :: (coreModes t 0 ++ [rlRank t.N t.rank t.ndims (0 + 1)])).map some) = Except.ok C from eC, R.ok_bind]
    exact mkTT_ok chain _ (Or.inr (chain.clean rows)) _ (Or.inl rfl)
  have hrank : ∀ k ≤ t.ndims, (chainTT none (s.1.set 0 C) r' t.modes t.rawShape.length).rank k = r' k := fun k hk =>
    chainTT_rank k (by rw [hl]; exact hk)
  have hmodes : ∀ k < t.ndims, (chainTT none (s.1.set 0 C) r' t.modes t.rawShape.length).modes k = t.modes k := fun k hk =>
    chain.modes_eq k (by rw [hl]; exact hk)
  refine ⟨_, e, chain.wf, rows.symm, rfl, hl, hrank, fun k hk hk' => ?_, fun g hg => ?_⟩
  · intro b hb b' hb'
    rw [hrank _ (by omega)] at hb hb'
    rw [hrank (k + 1) (by omega), hmodes k (by omega)]
    have := hs.orth k hk hk' b hb b' hb'
    rw [δ] at this
    rw [← this]
    have hf : ∀ n a b, (chainTT none (s.1.set 0 C) r' t.modes t.rawShape.length).fl [] k n a b = cfl s.1 t.modes [] k n a b := by
      intro n a b
      rw [TT.fl, hmodes k (by omega), cfl, ← gk k (by omega)]
      rfl
    simp only [hf]
    rfl
  · have hg0 := hg 0 hpos
    have e1 := lprod_split t.rank (t.slice [] g) t.ndims 0 (by rw [Nat.zero_add]; exact h.rank_last)
    have e2 := lprod_split r' (fun k a b => ((s.1.set 0 C).getD k default).get ([] ++ a :: (g k ++ [b]))) t.ndims 0
      (by rw [Nat.zero_add]; exact rlRank_last _ _ _)
    rw [Nat.zero_add, h.rank_first] at e1
    rw [Nat.zero_add, hr'0] at e2
    rw [chain.entry_eq, hl, TT.entry, e1, e2]
    have hd : t.ndims = (t.ndims - 1 - 0) + 1 := by omega
    simp only [Finset.range_one, Finset.sum_singleton, lprod, if_true, one_mul]
    rw [hd, rprod, rprod]
    have hcong : ∀ a < r' 1, rprod r' (fun k a b => ((s.1.set 0 C).getD k default).get ([] ++ a :: (g k ++ [b]))) (t.ndims - 1 - 0) 1 a =
        rprod r' (cvl s.1 [] g) (t.ndims - 1 - 0) 1 a := fun a ha =>
      rprod_congr (fun _ _ _ => rfl) (fun j hj _ x y _ _ => by simp only [cvl]; rw [gk j (by omega)]) ha
    calc _ = ∑ a ∈ Finset.range (r' 1), (∑ l ∈ Finset.range (t.rank 1), t.slice [] g 0 0 l * T l a) *
          rprod r' (cvl s.1 [] g) (t.ndims - 1 - 0) 1 a := by
          refine Finset.sum_congr rfl fun a ha => ?_
          rw [Nat.zero_add, hcong a (Finset.mem_range.1 ha), gl,
            bC.core (pre := []) (p := []) sC rfl trivial Nat.one_pos hg0 (Finset.mem_range.1 ha)]
          refine congrArg (· * _) (Finset.sum_congr rfl fun l _ => ?_)
          rw [TT.fl, unravel_ravel hg0, TT.slice]
      _ = _ := by
          simp only [Finset.sum_mul]
          rw [Finset.sum_comm]
          refine Finset.sum_congr rfl fun l hl => ?_
          rw [hT g (fun j _ hj => hg j hj) l (Finset.mem_range.1 hl), Finset.mul_sum]
          exact Finset.sum_congr rfl fun a _ => by rw [mul_assoc]

end T3f
