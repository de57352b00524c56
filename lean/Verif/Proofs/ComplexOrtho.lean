import Verif.Model.Complex
import Verif.Spec.Complex
import Verif.Proofs.OrthoRL
import Verif.Proofs.RoundProps

/-! # Orthogonalization of TT objects with complex cores

The proofs follow those for real cores in `Proofs/Ortho.lean` and `Proofs/OrthoRL.lean`.
-/

namespace T3f.Cx

/-- The columns of the left unfolding of core `k` are orthonormal. -/
def LOrth (N r : ℕ → ℕ) (A : ℕ → ℕ → ℕ → ℕ → ℂ) (k : ℕ) : Prop :=
  ∀ b < r (k + 1), ∀ b' < r (k + 1),
    ∑ a ∈ Finset.range (r k), ∑ n ∈ Finset.range (N k), starRingEnd ℂ (A k n a b) * A k n a b' = δ b b'

/-- The rows of the right unfolding of core `k` are orthonormal. -/
def ROrth (N r : ℕ → ℕ) (A : ℕ → ℕ → ℕ → ℕ → ℂ) (k : ℕ) : Prop :=
  ∀ a < r k, ∀ a' < r k, ∑ n ∈ Finset.range (N k), ∑ b ∈ Finset.range (r (k + 1)), starRingEnd ℂ (A k n a b) * A k n a' b = δ a a'

theorem modes_pos {t : TT ℂ} (h : t.WF) (hp : t.ModesPos) {k : ℕ} (hk : k < t.ndims) : 0 < (t.modes k).prod := by
  apply List.prod_pos
  intro n hn
  obtain ⟨row, hrow, rfl⟩ := List.mem_map.1 hn
  have hl := h.rows_len row hrow
  rw [List.getD_eq_getElem _ _ (by omega)]
  exact hp row hrow _ (List.getElem_mem _)

theorem lprod_pred (r : ℕ → ℕ) (A : ℕ → ℕ → ℕ → ℂ) (b : ℕ) {d : ℕ} (hd : 0 < d) :
    lprod r A d b = ∑ a ∈ Finset.range (r (d - 1)), lprod r A (d - 1) a * A (d - 1) a b := by
  cases d with
  | zero => omega
  | succ d => rfl

theorem ofMats_mat {pre p : List ℕ} (n m : ℕ) (f : List ℕ → Matrix (Fin n) (Fin m) ℂ) (hp : p.length = pre.length) :
    (ofMats pre n m f).mat p n m = f p := by
  ext i j
  exact ofMats_get pre n m f p i j hp i.isLt j.isLt

theorem sum_fin_mul {N a : ℕ} (g : ℕ → ℂ) : ∑ x : Fin (a * N), g x = ∑ α ∈ Finset.range a, ∑ n ∈ Finset.range N, g (α * N + n) := by
  rw [← sum_range_mul, Finset.sum_range]

/-- QR decomposition of a tall block: `f = q t`, and the columns of `q` are orthonormal. -/
theorem qr_tall {qr : QRRoutine} (hqr : qr.Correct) {bs : Option ℕ} {X : Tensor ℂ} {a N b : ℕ} {f : List ℕ → ℕ → ℕ → ℕ → ℂ}
    (h : Blk X bs.toList a N b f) (hs : X.shape = bs.toList ++ [a * N, b]) :
    ∃ (Q T : Tensor ℂ) (g : List ℕ → ℕ → ℕ → ℕ → ℂ) (t : List ℕ → ℕ → ℕ → ℂ), linalgQR qr X = Except.ok (Q, T) ∧ Q.shape = bs.toList ++ [a * N, min (a * N) b] ∧
      Blk Q bs.toList a N (min (a * N) b) g ∧ T.shape = bs.toList ++ [min (a * N) b, b] ∧
      (∀ p γ β, T.get (p ++ [γ, β]) = t p γ β) ∧
      ∀ p, Valid bs.toList p →
        (∀ α < a, ∀ n < N, ∀ β < b, ∑ γ ∈ Finset.range (min (a * N) b), g p α n γ * t p γ β = f p α n β) ∧
        ∀ γ < min (a * N) b, ∀ γ' < min (a * N) b,
          ∑ α ∈ Finset.range a, ∑ n ∈ Finset.range N, starRingEnd ℂ (g p α n γ) * g p α n γ' = if γ = γ' then 1 else 0 := by
  set k := min (a * N) b with hk
  let Q := ofMats bs.toList (a * N) k fun p => qr.q (a * N) b (X.mat p (a * N) b)
  let T := ofMats bs.toList k b fun p => qr.r (a * N) b (X.mat p (a * N) b)
  have hQs : Q.shape = bs.toList ++ [a * N, k] := rfl
  refine ⟨Q, T, fun p α n β => Q.get (p ++ [α * N + n, β]), fun p γ β => T.get (p ++ [γ, β]), ?_, hQs, blk_of_tall hQs, rfl,
    fun _ _ _ => rfl, fun p hp => ?_⟩
  · unfold linalgQR
    rw [hs, matShape_pre, R.ok_bind]
    rfl
  · obtain ⟨h1, h2, -⟩ := hqr (a * N) b (X.mat p (a * N) b)
    rw [← ofMats_mat (pre := bs.toList) (p := p) (a * N) k (fun p => qr.q (a * N) b (X.mat p (a * N) b)) hp.length_eq] at h1 h2
    rw [← ofMats_mat (pre := bs.toList) (p := p) k b (fun p => qr.r (a * N) b (X.mat p (a * N) b)) hp.length_eq] at h2
    constructor
    · intro α hα n hn β hβ
      have := congrFun (congrFun h2 ⟨α * N + n, mul_add_lt hα hn⟩) ⟨β, hβ⟩
      rw [Matrix.mul_apply] at this
      simp only [Tensor.mat, Matrix.of_apply] at this
      rw [h.tall hs hp hα hn hβ] at this
      rw [← this, Finset.sum_range]
      rfl
    · intro γ hγ γ' hγ'
      have := congrFun (congrFun h1 ⟨γ, hγ⟩) ⟨γ', hγ'⟩
      rw [Matrix.mul_apply, Matrix.one_apply] at this
      simp only [Tensor.mat, Matrix.of_apply, Matrix.conjTranspose_apply, Fin.mk.injEq] at this
      rw [← this]
      exact (sum_fin_mul fun x => star (Q.get (p ++ [x, γ])) * Q.get (p ++ [x, γ'])).symm


/-- Cores as functions of flat mode indices. -/
def cfl (cores : List (Tensor ℂ)) (M : ℕ → List ℕ) (p : List ℕ) (k n a b : ℕ) : ℂ :=
  (cores.getD k default).get (p ++ a :: (unravel (M k) n ++ [b]))

/-- Cores as functions of mode indices. -/
def cvl (cores : List (Tensor ℂ)) (p : List ℕ) (g : ℕ → List ℕ) (k a b : ℕ) : ℂ :=
  (cores.getD k default).get (p ++ a :: (g k ++ [b]))

structure LRInv (t : TT ℂ) (i : ℕ) (s : List (Tensor ℂ) × ℕ) : Prop where
  len : s.1.length = t.ndims
  rk : s.2 = lrRank t.N t.rank i
  shape : ∀ k < i, (s.1.getD k default).shape = t.bpre ++ lrRank t.N t.rank k :: (t.modes k ++ [lrRank t.N t.rank (k + 1)])
  orth : ∀ p, Valid t.bpre p → ∀ k < i, LOrth t.N (lrRank t.N t.rank) (cfl s.1 t.modes p) k
  rest : ∀ k, i < k → k < t.ndims → s.1.getD k default = t.core k
  cur : ∃ T : List ℕ → ℕ → ℕ → ℂ,
    Blk (s.1.getD i default) t.bpre (lrRank t.N t.rank i) (t.N i) (t.rank (i + 1))
      (fun p α n β => ∑ l ∈ Finset.range (t.rank i), T p α l * t.fl p i n l β) ∧
    ∀ p, Valid t.bpre p → ∀ g, (∀ j < i, Valid (t.modes j) (g j)) → ∀ b < t.rank i,
      lprod t.rank (t.slice p g) i b = ∑ a ∈ Finset.range (lrRank t.N t.rank i), lprod (lrRank t.N t.rank) (cvl s.1 p g) i a * T p a b

theorem blk_core {t : TT ℂ} (h : t.WF) {k : ℕ} (hk : k < t.ndims) :
    Blk (t.core k) t.bpre (t.rank k) (t.N k) (t.rank (k + 1)) (fun p α n β => t.fl p k n α β) :=
  blk_of_core (h.core_shape k hk)

theorem LRInv.init {t : TT ℂ} (h : t.WF) : LRInv t 0 (t.cores, 1) where
  len := rfl
  rk := rfl
  shape := fun k hk => absurd hk (by omega)
  orth := fun p _ k hk => absurd hk (by omega)
  rest := fun k _ _ => rfl
  cur := by
    refine ⟨fun _ a b => δ a b, ?_, fun p _ g _ b hb => ?_⟩
    · have := blk_core h h.pos
      rw [h.rank_first] at this ⊢
      refine this.congr fun p _ α hα n _ β _ => ?_
      rw [sum_δ_left hα]
    · rw [h.rank_first] at hb
      obtain rfl : b = 0 := by omega
      simp [lrRank, lprod, δ]

theorem orthoLRStep_ok {qr : QRRoutine} (hqr : qr.Correct) {t : TT ℂ} (h : t.WF) (i : ℕ) (hi : i + 1 < t.ndims)
    (s : List (Tensor ℂ) × ℕ) (hs : LRInv t i s) :
    ∃ s', orthoLRStep qr t i s = Except.ok s' ∧ LRInv t (i + 1) s' := by
  obtain ⟨T, hB, hT⟩ := hs.cur
  set r' := lrRank t.N t.rank with hr'
  have hbp : 0 < t.bpre.prod := batch_prod_pos h.batch_pos
  obtain ⟨Y, eY, sY, bY⟩ := hB.reshape_some (s := t.bpre ++ [r' i * t.N i, t.rank (i + 1)])
    (by rw [List.prod_append]; simp only [List.prod_cons, List.prod_nil]; ring)
  obtain ⟨Q, S, q, τ, eQ, sQ, bQ, sS, vS, hq⟩ := qr_tall hqr (bs := t.batch) bY sY
  have hmin : min (r' i * t.N i) (t.rank (i + 1)) = r' (i + 1) := rfl
  rw [hmin] at sQ bQ sS hq
  obtain ⟨C, eC, sC, bC⟩ := bQ.reshape_some (s := t.batch.toList ++ r' i :: (t.modes i ++ [r' (i + 1)]))
    (by simp [List.prod_append, TT.N])
  have hnext := blk_core h hi
  obtain ⟨Z, eZ, sZ, bZ⟩ := hnext.reshape_last (t.rank (i + 1)) (t.N (i + 1) * t.rank (i + 2))
    (Nat.mul_pos hbp (h.rank_pos _ (by omega))) rfl
  obtain ⟨W, eW, sW, bW⟩ := bZ.mul_left (bs := t.batch) sZ sS
  have p1 : pyGet s.1 i = Except.ok (s.1.getD i default) := pyGet_of_lt _ _ _ (by rw [hs.len]; omega)
  have p2 : pyGet s.1 (i + 1) = Except.ok (t.core (i + 1)) := by
    rw [pyGet_of_lt _ _ default (by rw [hs.len]; omega), hs.rest (i + 1) (by omega) hi]
  have p3 : pyGet S.shape t.batch.toList.length = Except.ok (r' (i + 1)) := by
    rw [sS, pyGet_of_lt _ _ 0 (by simp), List.getD_append_right _ _ _ _ le_rfl]; simp
  have p4 : pyGet S.shape (t.batch.toList.length + 1) = Except.ok (t.rank (i + 1)) := by
    rw [sS, pyGet_of_lt _ _ 0 (by simp), List.getD_append_right _ _ _ _ (by omega)]; simp
  refine ⟨((s.1.set i C).set (i + 1) W, r' (i + 1)), ?_, ?_⟩
  · unfold orthoLRStep
    simp only [p1, hs.rk, h.pyRank (show i + 1 ≤ t.ndims by omega), R.ok_bind]
    rw [show reshape (s.1.getD i default) ((t.batch.toList ++ [lrRank t.N t.rank i * (coreModes t i).prod, t.rank (i + 1)]).map some) =
      Except.ok Y from eY]
    simp only [R.ok_bind, eQ, p3, p4]
    rw [show reshape Q ((t.batch.toList ++ lrRank t.N t.rank i :: (coreModes t i ++ [r' (i + 1)])).map some) = Except.ok C from eC]
    simp only [R.ok_bind, p2]
    rw [show reshape (t.core (i + 1)) (t.batch.toList.map some ++ [some (t.rank (i + 1)), none]) = Except.ok Z from eZ]
    simp only [R.ok_bind, eW, R.pure_eq]
  · have hlen : i < s.1.length := by rw [hs.len]; omega
    have ge : ∀ k, k < i → ((s.1.set i C).set (i + 1) W).getD k default = s.1.getD k default := fun k hk => by
      rw [getD_set_ne _ _ _ (by omega), getD_set_ne _ _ _ (by omega)]
    have gi : ((s.1.set i C).set (i + 1) W).getD i default = C := by
      rw [getD_set_ne _ _ _ (by omega), getD_set_self _ _ _ _ hlen]
    have gi1 : ((s.1.set i C).set (i + 1) W).getD (i + 1) default = W :=
      getD_set_self _ _ _ _ (by rw [List.length_set, hs.len]; omega)
    have hCv : ∀ p, Valid t.bpre p → ∀ v, Valid (t.modes i) v → ∀ a < r' i, ∀ b < r' (i + 1),
        C.get (p ++ a :: (v ++ [b])) = q p a (ravel (t.modes i) v) b := fun p hp v hv a ha b hb =>
      bC.core sC rfl hp ha hv hb
    refine ⟨by simp [hs.len], rfl, fun k hk => ?_, fun p hp k hk => ?_, fun k hk hk' => ?_, fun p γ l => τ p γ l, ?_, ?_⟩
    · rcases Nat.lt_succ_iff_lt_or_eq.1 hk with h1 | rfl
      · rw [ge k h1]; exact hs.shape k h1
      · rw [gi]; exact sC
    · rcases Nat.lt_succ_iff_lt_or_eq.1 hk with h1 | rfl
      · have := hs.orth p hp k h1
        intro b hb b' hb'
        rw [← this b hb b' hb']
        simp only [cfl, ge k h1]
      · intro b hb b' hb'
        have := (hq p hp).2 b hb b' hb'
        rw [δ, ← this]
        refine Finset.sum_congr rfl fun a ha => Finset.sum_congr rfl fun n hn => ?_
        rw [Finset.mem_range] at ha hn
        simp only [cfl, gi]
        rw [hCv p hp _ (unravel_valid hn) a ha b hb, hCv p hp _ (unravel_valid hn) a ha b' hb', ravel_unravel hn]
    · simp only []
      rw [getD_set_ne _ _ _ (by omega), getD_set_ne _ _ _ (by omega)]
      exact hs.rest k (by omega) hk'
    · simp only []
      rw [gi1]
      refine bW.congr fun p hp γ hγ n hn β hβ => ?_
      exact Finset.sum_congr rfl fun l _ => by rw [vS]
    · intro p hp g hg b hb
      have hcong : ∀ a, lprod r' (cvl ((s.1.set i C).set (i + 1) W) p g) i a = lprod r' (cvl s.1 p g) i a := fun a =>
        lprod_congr' fun j hj => by funext x y; simp only [cvl]; rw [ge j hj]
      have hgi := hg i (by omega)
      calc lprod t.rank (t.slice p g) (i + 1) b
          = ∑ l ∈ Finset.range (t.rank i), (∑ a ∈ Finset.range (r' i), lprod r' (cvl s.1 p g) i a * T p a l) * t.slice p g i l b := by
            rw [lprod]
            refine Finset.sum_congr rfl fun l hl => ?_
            rw [hT p hp g (fun j hj => hg j (by omega)) l (Finset.mem_range.1 hl)]
        _ = ∑ a ∈ Finset.range (r' i), lprod r' (cvl s.1 p g) i a *
              ∑ l ∈ Finset.range (t.rank i), T p a l * t.fl p i (ravel (t.modes i) (g i)) l b := by
            simp only [Finset.sum_mul, Finset.mul_sum]
            rw [Finset.sum_comm]
            refine Finset.sum_congr rfl fun a _ => Finset.sum_congr rfl fun l _ => ?_
            rw [TT.fl, unravel_ravel hgi, TT.slice]; ring
        _ = ∑ a ∈ Finset.range (r' i), lprod r' (cvl s.1 p g) i a *
              ∑ γ ∈ Finset.range (r' (i + 1)), q p a (ravel (t.modes i) (g i)) γ * τ p γ b := by
            refine Finset.sum_congr rfl fun a ha => ?_
            rw [(hq p hp).1 a (Finset.mem_range.1 ha) _ (ravel_lt hgi) b hb]
        _ = _ := by
            simp only [lprod, Finset.sum_mul, Finset.mul_sum]
            rw [Finset.sum_comm]
            refine Finset.sum_congr rfl fun γ hγ => Finset.sum_congr rfl fun a ha => ?_
            rw [hcong, show cvl ((s.1.set i C).set (i + 1) W) p g i a γ = q p a (ravel (t.modes i) (g i)) γ by
              simp only [cvl]; rw [gi, hCv p hp _ hgi a (Finset.mem_range.1 ha) γ (Finset.mem_range.1 hγ)]]
            ring

/-- What the left-to-right sweep returns. -/
theorem orthoLR_ok {qr : QRRoutine} (hqr : qr.Correct) {t : TT ℂ} (h : t.WF) (hm : t.ModesPos) :
    ∃ o, orthoLR qr t = Except.ok o ∧ o.WF ∧ o.rawShape = t.rawShape ∧ o.batch = t.batch ∧ o.ndims = t.ndims ∧
      (∀ k ≤ t.ndims, o.rank k = lrRank t.N t.rank k) ∧
      (∀ p, Valid t.bpre p → ∀ k, k + 1 < t.ndims → o.LeftUnitary p k) ∧
      ∀ p, Valid t.bpre p → ∀ g, (∀ j < t.ndims, Valid (t.modes j) (g j)) → o.entry p g = t.entry p g := by
  have hpos := h.pos
  obtain ⟨s, es, hs⟩ := forRange_inv (LRInv t) (orthoLRStep qr t) 0 (t.ndims - 1) (t.cores, 1) (LRInv.init h)
    (fun i s _ hi hP => orthoLRStep_ok hqr h i (by omega) s hP)
  rw [Nat.zero_add] at hs
  obtain ⟨T, hB, hT⟩ := hs.cur
  set r' := lrRank t.N t.rank with hr'
  set d := t.ndims with hd
  have hd1 : d - 1 + 1 = d := by omega
  have hN : ∀ k < d, 0 < t.N k := fun k hk => modes_pos h hm hk
  have hr'd : r' d = 1 := by
    have h1 := lrRank_pos hN h.rank_pos (k := d) le_rfl
    have h2 := lrRank_le t.N t.rank h.rank_first d
    rw [h.rank_last] at h2
    exact le_antisymm h2 h1
  rw [hd1, h.rank_last] at hB
  obtain ⟨C, eC, sC, bC⟩ := hB.reshape_some (s := t.batch.toList ++ r' (d - 1) :: (t.modes (d - 1) ++ [1]))
    (by simp [List.prod_append, TT.N, TT.bpre])
  have hl : (s.1.set (d - 1) C).length = d := by simp [hs.len, hd]
  have gl : (s.1.set (d - 1) C).getD (d - 1) default = C := getD_set_self _ _ _ _ (by rw [hs.len]; omega)
  have gk : ∀ k, k < d - 1 → (s.1.set (d - 1) C).getD k default = s.1.getD k default := fun k hk => getD_set_ne _ _ _ (by omega)
  have chain : Chain t.batch (s.1.set (d - 1) C) r' t.modes t.rawShape.length := by
    refine ⟨by omega, rfl, by rw [hl]; exact hr'd, fun k hk => lrRank_pos hN h.rank_pos (by omega), h.rows,
      fun k _ => by simp [TT.modes], fun k hk => ?_, h.batch_pos⟩
    rw [hl] at hk
    rcases Nat.lt_or_ge k (d - 1) with h1 | h1
    · rw [gk k h1]; exact hs.shape k h1
    · obtain rfl : k = d - 1 := by omega
      rw [gl, hd1, hr'd]; exact sC
  have rows : t.rawShape = rowsOf t.modes (s.1.set (d - 1) C).length t.rawShape.length := by rw [hl]; exact h.rows_eq
  have e : orthoLR qr t = Except.ok (chainTT t.batch (s.1.set (d - 1) C) r' t.modes t.rawShape.length) := by
    unfold orthoLR
    simp only [h.pyRank (Nat.zero_le _), h.rank_first, R.ok_bind, ← hd, es]
    rw [show pyGet s.1 (d - 1) = Except.ok (s.1.getD (d - 1) default) from pyGet_of_lt _ _ _ (by rw [hs.len]; omega), R.ok_bind,
      hs.rk, show reshape (s.1.getD (d - 1) default)
        ((t.batch.toList ++ lrRank t.N t.rank (d - 1) :: (coreModes t (d - 1) ++ [1])).map some) = Except.ok C from eC, R.ok_bind]
    cases hb : t.batch with
    | none =>
      rw [hb] at chain
      exact mkTT_ok chain _ (Or.inr (chain.clean rows)) _ (Or.inl rfl)
    | some n =>
      rw [hb] at chain
      exact mkBatch_ok chain _ (Or.inr (chain.clean rows)) _ (Or.inl rfl) _ (Or.inr rfl)
  have hrank : ∀ k ≤ d, (chainTT t.batch (s.1.set (d - 1) C) r' t.modes t.rawShape.length).rank k = r' k := fun k hk =>
    chainTT_rank k (by rw [hl]; exact hk)
  have hmodes : ∀ k < d, (chainTT t.batch (s.1.set (d - 1) C) r' t.modes t.rawShape.length).modes k = t.modes k := fun k hk =>
    chain.modes_eq k (by rw [hl]; exact hk)
  refine ⟨_, e, chain.wf, rows.symm, rfl, hl, hrank, fun p hp k hk => ?_, fun p hp g hg => ?_⟩
  · intro b hb b' hb'
    rw [hrank _ (by omega)] at hb hb'
    rw [hrank k (by omega), hmodes k (by omega)]
    have := hs.orth p hp k (by omega) b hb b' hb'
    rw [δ] at this
    rw [← this]
    have hf : ∀ n a b, (chainTT t.batch (s.1.set (d - 1) C) r' t.modes t.rawShape.length).fl p k n a b = cfl s.1 t.modes p k n a b := by
      intro n a b
      rw [TT.fl, hmodes k (by omega), cfl, ← gk k (by omega)]
      rfl
    simp only [hf]
    rfl
  · rw [chain.entry_eq, hl, TT.entry, ← hd, lprod_pred _ _ _ (by omega), lprod_pred _ _ _ (by omega)]
    have hgl := hg (d - 1) (by omega)
    have hcong : ∀ a, lprod r' (fun k a b => ((s.1.set (d - 1) C).getD k default).get (p ++ a :: (g k ++ [b]))) (d - 1) a =
        lprod r' (cvl s.1 p g) (d - 1) a := fun a =>
      lprod_congr' fun j hj => by funext x y; simp only [cvl]; rw [gk j hj]
    calc _ = ∑ a ∈ Finset.range (r' (d - 1)), lprod r' (cvl s.1 p g) (d - 1) a *
          ∑ l ∈ Finset.range (t.rank (d - 1)), T p a l * t.slice p g (d - 1) l 0 := by
          refine Finset.sum_congr rfl fun a ha => ?_
          rw [hcong, gl, bC.core sC rfl hp (Finset.mem_range.1 ha) hgl Nat.one_pos]
          refine congrArg _ (Finset.sum_congr rfl fun l _ => ?_)
          rw [TT.fl, unravel_ravel hgl, TT.slice]
      _ = _ := by
          simp only [Finset.mul_sum]
          rw [Finset.sum_comm]
          refine Finset.sum_congr rfl fun l hl => ?_
          rw [hT p hp g (fun j hj => hg j (by omega)) l (Finset.mem_range.1 hl), Finset.sum_mul]
          exact Finset.sum_congr rfl fun a _ => by ring


/-- QR decomposition of the transpose of a wide block: `f = τ g`, and the rows of `g` are orthonormal. -/
theorem qr_wide {qr : QRRoutine} (hqr : qr.Correct) {X : Tensor ℂ} {a N b : ℕ} {f : List ℕ → ℕ → ℕ → ℕ → ℂ}
    (h : Blk X [] a N b f) (hs : X.shape = [a, N * b]) :
    ∃ (Xt Q S Qt St : Tensor ℂ) (g : List ℕ → ℕ → ℕ → ℕ → ℂ) (τ : ℕ → ℕ → ℂ), transpose X [1, 0] = Except.ok Xt ∧
      linalgQR qr Xt = Except.ok (Q, S) ∧ transpose Q [1, 0] = Except.ok Qt ∧ transpose S [1, 0] = Except.ok St ∧
      Qt.shape = [min (N * b) a, N * b] ∧ Blk Qt [] (min (N * b) a) N b g ∧ St.shape = [a, min (N * b) a] ∧
      (∀ α γ, St.get [α, γ] = τ α γ) ∧
      (∀ α < a, ∀ n < N, ∀ β < b, ∑ γ ∈ Finset.range (min (N * b) a), τ α γ * g [] γ n β = f [] α n β) ∧
      ∀ γ < min (N * b) a, ∀ γ' < min (N * b) a,
        ∑ n ∈ Finset.range N, ∑ β ∈ Finset.range b, starRingEnd ℂ (g [] γ n β) * g [] γ' n β = if γ = γ' then 1 else 0 := by
  obtain ⟨Xt, eX, sX, vX⟩ := transpose_pre (bs := none) hs
  have hX : Blk Xt (none : Option ℕ).toList N b a fun p n β α => f p α n β := by
    refine ⟨by rw [sX]; simp; ring, fun p hp n hn β hβ α hα => ?_⟩
    have := h.wide (pre := []) hs (p := p) hp hα hn hβ
    show _ = f p α n β
    rw [← this, ← vX p hp]
    rw [← flat_two sX hp (mul_add_lt hn hβ) hα]
    congr 1; ring
  obtain ⟨Q, S, g, τ, eQ, sQ, bQ, sS, vS, hq⟩ := qr_tall hqr (bs := none) hX sX
  obtain ⟨Qt, eQt, sQt, vQt⟩ := transpose_pre (bs := none) sQ
  obtain ⟨St, eSt, sSt, vSt⟩ := transpose_pre (bs := none) sS
  obtain ⟨q1, q2⟩ := hq [] trivial
  refine ⟨Xt, Q, S, Qt, St, fun p γ n β => g p n β γ, fun α γ => τ [] γ α, eX, eQ, eQt, eSt, sQt, ?_, sSt, fun α γ => ?_,
    fun α hα n hn β hβ => ?_, fun γ hγ γ' hγ' => q2 γ hγ γ' hγ'⟩
  · refine (blk_of_wide (pre := []) sQt).congr fun p hp γ hγ n hn β hβ => ?_
    rw [vQt p hp]
    exact bQ.tall sQ hp hn hβ hγ
  · have := vSt [] trivial γ α
    simp only [List.nil_append] at this
    rw [this]
    exact vS [] γ α
  · rw [← q1 n hn β hβ α hα]
    exact Finset.sum_congr rfl fun γ _ => mul_comm _ _

structure RLInv (t : TT ℂ) (i : ℕ) (s : List (Tensor ℂ) × ℕ) : Prop where
  len : s.1.length = t.ndims
  rk : s.2 = rlRank t.N t.rank t.ndims (i + 1)
  shape : ∀ k, i < k → k < t.ndims → (s.1.getD k default).shape =
    rlRank t.N t.rank t.ndims k :: (t.modes k ++ [rlRank t.N t.rank t.ndims (k + 1)])
  orth : ∀ k, i < k → k < t.ndims → ROrth t.N (rlRank t.N t.rank t.ndims) (cfl s.1 t.modes []) k
  rest : ∀ k < i, s.1.getD k default = t.core k
  cur : ∃ T : ℕ → ℕ → ℂ,
    Blk (s.1.getD i default) [] (t.rank i) (t.N i) (rlRank t.N t.rank t.ndims (i + 1))
      (fun _ α n β => ∑ l ∈ Finset.range (t.rank (i + 1)), t.fl [] i n α l * T l β) ∧
    ∀ g, (∀ j, i < j → j < t.ndims → Valid (t.modes j) (g j)) → ∀ b < t.rank (i + 1),
      rprod t.rank (t.slice [] g) (t.ndims - 1 - i) (i + 1) b =
        ∑ a ∈ Finset.range (rlRank t.N t.rank t.ndims (i + 1)),
          T b a * rprod (rlRank t.N t.rank t.ndims) (cvl s.1 [] g) (t.ndims - 1 - i) (i + 1) a

theorem RLInv.init {t : TT ℂ} (h : t.WF) (hb : t.batch = none) : RLInv t (t.ndims - 1) (t.cores, 1) := by
  have hpos := h.pos
  have hd1 : t.ndims - 1 + 1 = t.ndims := by omega
  refine ⟨rfl, by rw [hd1, rlRank_last], fun k hk hk' => absurd hk (by omega), fun k hk hk' => absurd hk (by omega), fun k _ => rfl, ?_⟩
  refine ⟨fun a b => δ a b, ?_, fun g _ b hb => ?_⟩
  · have := blk_core h (k := t.ndims - 1) (by omega)
    rw [hd1, h.rank_last, TT.bpre, hb] at this
    rw [hd1, h.rank_last, rlRank_last]
    refine this.congr fun p hp α _ n _ β hβ => ?_
    obtain rfl := (valid_nil_iff p).1 hp
    rw [sum_δ_right hβ]
  · rw [hd1, h.rank_last] at hb
    obtain rfl : b = 0 := by omega
    simp [rlRank_last, rprod, δ, hd1]

theorem orthoRLStep_ok {qr : QRRoutine} (hqr : qr.Correct) {t : TT ℂ} (h : t.WF) (hb : t.batch = none) (i : ℕ) (hi : i + 1 < t.ndims)
    (hm : t.ModesPos) (s : List (Tensor ℂ) × ℕ) (hs : RLInv t (i + 1) s) :
    ∃ s', orthoRLStep qr t (i + 1) s = Except.ok s' ∧ RLInv t i s' := by
  obtain ⟨T, hB, hT⟩ := hs.cur
  have hpre : t.bpre = [] := by rw [TT.bpre, hb]; rfl
  set r' := rlRank t.N t.rank t.ndims with hr'
  have hr'pos : ∀ k ≤ t.ndims, 0 < r' k := fun k hk => rlRank_pos (fun k hk => modes_pos h hm hk) h.rank_pos hk
  obtain ⟨Y, eY, sY, bY⟩ := hB.reshape_some (s := [t.rank (i + 1), t.N (i + 1) * r' (i + 2)]) (by simp)
  obtain ⟨Xt, Q, S, Qt, St, q, τ, e1, e2, e3, e4, sQt, bQt, sSt, vSt, q1, q2⟩ := qr_wide hqr bY sY
  have hmin : min (t.N (i + 1) * r' (i + 2)) (t.rank (i + 1)) = r' (i + 1) := (rlRank_step _ _ hi).symm
  rw [hmin] at sQt bQt sSt q1 q2
  obtain ⟨C, eC, sC, bC⟩ := bQt.reshape_some (s := r' (i + 1) :: (t.modes (i + 1) ++ [r' (i + 2)])) (by simp [TT.N])
  have hprev := blk_core h (show i < t.ndims by omega)
  rw [hpre] at hprev
  obtain ⟨Z, eZ, sZ, bZ⟩ := hprev.reshape_first (t.rank (i + 1)) (t.rank i * t.N i)
    (by simpa using h.rank_pos _ (by omega)) (by ring)
  obtain ⟨W, eW, sW, bW⟩ := bZ.mul_right (bs := none) sZ (T := St) sSt
  have p1 : pyGet s.1 (i + 1) = Except.ok (s.1.getD (i + 1) default) := pyGet_of_lt _ _ _ (by rw [hs.len]; omega)
  have p2 : pyGet s.1 (i + 1 - 1) = Except.ok (t.core i) := by
    rw [Nat.add_sub_cancel, pyGet_of_lt _ _ default (by rw [hs.len]; omega), hs.rest i (by omega)]
  have p3 : pyGet St.shape 0 = Except.ok (t.rank (i + 1)) := by rw [sSt]; rfl
  have p4 : pyGet St.shape 1 = Except.ok (r' (i + 1)) := by rw [sSt]; rfl
  refine ⟨((s.1.set (i + 1) C).set i W, r' (i + 1)), ?_, ?_⟩
  · unfold orthoRLStep
    simp only [p1, hs.rk, h.pyRank (show i + 1 ≤ t.ndims by omega), R.ok_bind]
    rw [show reshape (s.1.getD (i + 1) default) [some (t.rank (i + 1)), some ((coreModes t (i + 1)).prod * rlRank t.N t.rank t.ndims (i + 1 + 1))] =
      Except.ok Y from eY]
    simp only [R.ok_bind, e1, e2, e3, e4, p3, p4]
    rw [show reshape Qt ((r' (i + 1) :: (coreModes t (i + 1) ++ [rlRank t.N t.rank t.ndims (i + 1 + 1)])).map some) = Except.ok C from eC]
    simp only [R.ok_bind, p2]
    rw [show reshape (t.core i) [none, some (t.rank (i + 1))] = Except.ok Z from eZ]
    simp only [R.ok_bind, eW, R.pure_eq, Nat.add_sub_cancel]
  · have ge : ∀ k, i + 1 < k → ((s.1.set (i + 1) C).set i W).getD k default = s.1.getD k default := fun k hk => by
      rw [getD_set_ne _ _ _ (by omega), getD_set_ne _ _ _ (by omega)]
    have gi : ((s.1.set (i + 1) C).set i W).getD (i + 1) default = C := by
      rw [getD_set_ne _ _ _ (by omega), getD_set_self _ _ _ _ (by rw [hs.len]; omega)]
    have gi1 : ((s.1.set (i + 1) C).set i W).getD i default = W :=
      getD_set_self _ _ _ _ (by rw [List.length_set, hs.len]; omega)
    have hCv : ∀ v, Valid (t.modes (i + 1)) v → ∀ a < r' (i + 1), ∀ b < r' (i + 2),
        C.get (a :: (v ++ [b])) = q [] a (ravel (t.modes (i + 1)) v) b := fun v hv a ha b hb =>
      bC.core (pre := []) sC rfl (p := []) trivial ha hv hb
    refine ⟨by simp [hs.len], rfl, fun k hk hk' => ?_, fun k hk hk' => ?_, fun k hk => ?_, τ, ?_, ?_⟩
    · rcases Nat.lt_or_ge (i + 1) k with h1 | h1
      · rw [ge k h1]; exact hs.shape k h1 hk'
      · obtain rfl : k = i + 1 := by omega
        rw [gi]; exact sC
    · rcases Nat.lt_or_ge (i + 1) k with h1 | h1
      · have := hs.orth k h1 hk'
        intro b hb b' hb'
        rw [← this b hb b' hb']
        simp only [cfl, ge k h1]
      · obtain rfl : k = i + 1 := by omega
        intro b hb b' hb'
        have := q2 b hb b' hb'
        rw [δ, ← this]
        refine Finset.sum_congr rfl fun n hn => Finset.sum_congr rfl fun a ha => ?_
        rw [Finset.mem_range] at ha hn
        simp only [cfl, gi, List.nil_append]
        rw [hCv _ (unravel_valid hn) b hb a ha, hCv _ (unravel_valid hn) b' hb' a ha, ravel_unravel hn]
    · simp only []
      rw [getD_set_ne _ _ _ (by omega), getD_set_ne _ _ _ (by omega)]
      exact hs.rest k (by omega)
    · simp only []
      rw [gi1]
      refine bW.congr fun p hp γ hγ n hn β hβ => ?_
      obtain rfl := (valid_nil_iff p).1 hp
      exact Finset.sum_congr rfl fun l _ => by rw [List.nil_append, vSt]
    · intro g hg b hb'
      have hgi := hg (i + 1) (by omega) hi
      have hcong : ∀ a < r' (i + 2), rprod r' (cvl ((s.1.set (i + 1) C).set i W) [] g) (t.ndims - 1 - (i + 1)) (i + 2) a =
          rprod r' (cvl s.1 [] g) (t.ndims - 1 - (i + 1)) (i + 2) a := fun a ha =>
        rprod_congr (fun _ _ _ => rfl) (fun j hj _ x y _ _ => by simp only [cvl]; rw [ge j (by omega)]) ha
      rw [show t.ndims - 1 - i = (t.ndims - 1 - (i + 1)) + 1 by omega]
      calc rprod t.rank (t.slice [] g) (t.ndims - 1 - (i + 1) + 1) (i + 1) b
          = ∑ l ∈ Finset.range (t.rank (i + 2)), t.slice [] g (i + 1) b l *
              ∑ a ∈ Finset.range (r' (i + 2)), T l a * rprod r' (cvl s.1 [] g) (t.ndims - 1 - (i + 1)) (i + 2) a := by
            rw [rprod]
            refine Finset.sum_congr rfl fun l hl => ?_
            rw [hT g (fun j hj hj' => hg j (by omega) hj') l (Finset.mem_range.1 hl)]
        _ = ∑ a ∈ Finset.range (r' (i + 2)), (∑ l ∈ Finset.range (t.rank (i + 2)),
              t.fl [] (i + 1) (ravel (t.modes (i + 1)) (g (i + 1))) b l * T l a) * rprod r' (cvl s.1 [] g) (t.ndims - 1 - (i + 1)) (i + 2) a := by
            simp only [Finset.sum_mul, Finset.mul_sum]
            rw [Finset.sum_comm]
            refine Finset.sum_congr rfl fun a _ => Finset.sum_congr rfl fun l _ => ?_
            rw [TT.fl, unravel_ravel hgi, TT.slice]; ring
        _ = ∑ a ∈ Finset.range (r' (i + 2)), (∑ γ ∈ Finset.range (r' (i + 1)),
              τ b γ * q [] γ (ravel (t.modes (i + 1)) (g (i + 1))) a) * rprod r' (cvl s.1 [] g) (t.ndims - 1 - (i + 1)) (i + 2) a := by
            refine Finset.sum_congr rfl fun a ha => ?_
            rw [q1 b hb' _ (ravel_lt hgi) a (Finset.mem_range.1 ha)]
        _ = _ := by
            simp only [rprod, Finset.sum_mul, Finset.mul_sum]
            rw [Finset.sum_comm]
            refine Finset.sum_congr rfl fun γ hγ => Finset.sum_congr rfl fun a ha => ?_
            rw [hcong a (Finset.mem_range.1 ha), show cvl ((s.1.set (i + 1) C).set i W) [] g (i + 1) γ a = q [] γ (ravel (t.modes (i + 1)) (g (i + 1))) a by
              simp only [cvl]; rw [gi, List.nil_append, hCv _ hgi γ (Finset.mem_range.1 hγ) a (Finset.mem_range.1 ha)]]
            ring

/-- What the right-to-left sweep returns. -/
theorem orthoRL_ok {qr : QRRoutine} (hqr : qr.Correct) {t : TT ℂ} (h : t.WF) (hb : t.batch = none) (hm : t.ModesPos) :
    ∃ o, orthoRL qr t = Except.ok o ∧ o.WF ∧ o.rawShape = t.rawShape ∧ o.batch = none ∧ o.ndims = t.ndims ∧
      (∀ k ≤ t.ndims, o.rank k = rlRank t.N t.rank t.ndims k) ∧
      (∀ k, 0 < k → k < t.ndims → o.RightUnitary [] k) ∧
      ∀ g, (∀ j < t.ndims, Valid (t.modes j) (g j)) → o.entry [] g = t.entry [] g := by
  have hpos := h.pos
  have hpre : t.bpre = [] := by rw [TT.bpre, hb]; rfl
  obtain ⟨s, es, hs⟩ := forRange_inv (fun j s => RLInv t (t.ndims - 1 - j) s) (fun j => orthoRLStep qr t (t.ndims - 1 - j)) 0
    (t.ndims - 1) (t.cores, 1) (RLInv.init h hb)
    (fun j s _ hj hP => by
      obtain ⟨i, hi⟩ : ∃ i, t.ndims - 1 - j = i + 1 := ⟨t.ndims - 1 - j - 1, by omega⟩
      rw [hi] at hP ⊢
      rw [show t.ndims - 1 - (j + 1) = i by omega]
      exact orthoRLStep_ok hqr h hb i (by omega) hm s hP)
  rw [Nat.zero_add, Nat.sub_self] at hs
  obtain ⟨T, hB, hT⟩ := hs.cur
  set r' := rlRank t.N t.rank t.ndims with hr'
  have hN : ∀ k < t.ndims, 0 < t.N k := fun k hk => modes_pos h hm hk
  have hr'0 : r' 0 = 1 := by
    have h1 := rlRank_pos hN h.rank_pos (k := 0) (by omega)
    have h2 := rlRank_le t.N t.rank h.rank_last (k := 0) (by omega)
    rw [h.rank_first] at h2
    exact le_antisymm h2 h1
  rw [h.rank_first] at hB
  obtain ⟨C, eC, sC, bC⟩ := hB.reshape_some (s := 1 :: (t.modes 0 ++ [r' 1])) (by simp [TT.N])
  have hl : (s.1.set 0 C).length = t.ndims := by simp [hs.len]
  have gl : (s.1.set 0 C).getD 0 default = C := getD_set_self _ _ _ _ (by rw [hs.len]; omega)
  have gk : ∀ k, 0 < k → (s.1.set 0 C).getD k default = s.1.getD k default := fun k hk => getD_set_ne _ _ _ (by omega)
  have chain : Chain none (s.1.set 0 C) r' t.modes t.rawShape.length := by
    refine ⟨by omega, hr'0, by rw [hl]; exact rlRank_last _ _ _, fun k hk => rlRank_pos hN h.rank_pos (by omega), h.rows,
      fun k _ => by simp [TT.modes], fun k hk => ?_, by simp⟩
    rw [hl] at hk
    rcases Nat.eq_zero_or_pos k with rfl | h1
    · rw [gl, hr'0]; exact sC
    · rw [gk k h1]; exact hs.shape k h1 hk
  have rows : t.rawShape = rowsOf t.modes (s.1.set 0 C).length t.rawShape.length := by rw [hl]; exact h.rows_eq
  have e : orthoRL qr t = Except.ok (chainTT none (s.1.set 0 C) r' t.modes t.rawShape.length) := by
    unfold orthoRL
    simp only [h.pyRank le_rfl, h.rank_last, R.ok_bind, es]
    rw [show pyGet s.1 0 = Except.ok (s.1.getD 0 default) from pyGet_of_lt _ _ _ (by rw [hs.len]; omega), R.ok_bind,
      hs.rk, show reshape (s.1.getD 0 default)
        ((1 :: (coreModes t 0 ++ [rlRank t.N t.rank t.ndims (0 + 1)])).map some) = Except.ok C from eC, R.ok_bind]
    exact mkTT_ok chain _ (Or.inr (chain.clean rows)) _ (Or.inl rfl)
  have hrank : ∀ k ≤ t.ndims, (chainTT none (s.1.set 0 C) r' t.modes t.rawShape.length).rank k = r' k := fun k hk =>
    chainTT_rank k (by rw [hl]; exact hk)
  have hmodes : ∀ k < t.ndims, (chainTT none (s.1.set 0 C) r' t.modes t.rawShape.length).modes k = t.modes k := fun k hk =>
    chain.modes_eq k (by rw [hl]; exact hk)
  refine ⟨_, e, chain.wf, rows.symm, rfl, hl, hrank, fun k hk hk' => ?_, fun g hg => ?_⟩
  · intro b hb b' hb'
    rw [hrank _ (by omega)] at hb hb'
    rw [hrank (k + 1) (by omega), hmodes k (by omega)]
    have := hs.orth k hk hk' b hb b' hb'
    rw [δ] at this
    rw [← this]
    have hf : ∀ n a b, (chainTT none (s.1.set 0 C) r' t.modes t.rawShape.length).fl [] k n a b = cfl s.1 t.modes [] k n a b := by
      intro n a b
      rw [TT.fl, hmodes k (by omega), cfl, ← gk k (by omega)]
      rfl
    simp only [hf]
    rfl
  · have hg0 := hg 0 hpos
    have e1 := lprod_split t.rank (t.slice [] g) t.ndims 0 (by rw [Nat.zero_add]; exact h.rank_last)
    have e2 := lprod_split r' (fun k a b => ((s.1.set 0 C).getD k default).get ([] ++ a :: (g k ++ [b]))) t.ndims 0
      (by rw [Nat.zero_add]; exact rlRank_last _ _ _)
    rw [Nat.zero_add, h.rank_first] at e1
    rw [Nat.zero_add, hr'0] at e2
    rw [chain.entry_eq, hl, TT.entry, e1, e2]
    have hd : t.ndims = (t.ndims - 1 - 0) + 1 := by omega
    simp only [Finset.range_one, Finset.sum_singleton, lprod, if_true, one_mul]
    rw [hd, rprod, rprod]
    have hcong : ∀ a < r' 1, rprod r' (fun k a b => ((s.1.set 0 C).getD k default).get ([] ++ a :: (g k ++ [b]))) (t.ndims - 1 - 0) 1 a =
        rprod r' (cvl s.1 [] g) (t.ndims - 1 - 0) 1 a := fun a ha =>
      rprod_congr (fun _ _ _ => rfl) (fun j hj _ x y _ _ => by simp only [cvl]; rw [gk j (by omega)]) ha
    calc _ = ∑ a ∈ Finset.range (r' 1), (∑ l ∈ Finset.range (t.rank 1), t.slice [] g 0 0 l * T l a) *
          rprod r' (cvl s.1 [] g) (t.ndims - 1 - 0) 1 a := by
          refine Finset.sum_congr rfl fun a ha => ?_
          rw [Nat.zero_add, hcong a (Finset.mem_range.1 ha), gl,
            bC.core (pre := []) (p := []) sC rfl trivial Nat.one_pos hg0 (Finset.mem_range.1 ha)]
          refine congrArg (· * _) (Finset.sum_congr rfl fun l _ => ?_)
          rw [TT.fl, unravel_ravel hg0, TT.slice]
      _ = _ := by
          simp only [Finset.sum_mul]
          rw [Finset.sum_comm]
          refine Finset.sum_congr rfl fun l hl => ?_
          rw [hT g (fun j _ hj => hg j hj) l (Finset.mem_range.1 hl), Finset.mul_sum]
          exact Finset.sum_congr rfl fun a _ => by rw [mul_assoc]

end T3f.Cx
