import Verif.Proofs.ComplexOrtho
import Verif.Proofs.Expr
import Verif.Proofs.IntExpr
import Verif.Proofs.Inner
import Verif.Proofs.Scalar
import Verif.Spec.CxExpr
import Mathlib.Analysis.InnerProductSpace.GramSchmidtOrtho
import Mathlib.Analysis.InnerProductSpace.PiL2

/-! # TT objects with complex cores: proofs -/

namespace T3f.Cx

section
open Matrix

theorem qr_exists (n m : ℕ) (A : Matrix (Fin n) (Fin m) ℂ) : ∃ (q : Matrix (Fin n) (Fin (min n m)) ℂ)
    (r : Matrix (Fin (min n m)) (Fin m) ℂ), qᴴ * q = 1 ∧ q * r = A ∧ ∀ (i : Fin (min n m)) (j : Fin m), (j : ℕ) < i → r i j = 0 := by
  let E := EuclideanSpace ℂ (Fin n)
  let f : Fin n → E := fun i => if h : (i : ℕ) < m then WithLp.toLp 2 fun l => A l ⟨i, h⟩ else 0
  have hfin : Module.finrank ℂ E = Fintype.card (Fin n) := by simp [E]
  let b := InnerProductSpace.gramSchmidtOrthonormalBasis hfin f
  let a : Fin m → E := fun j => WithLp.toLp 2 fun l => A l j
  have hz : ∀ (k : Fin n) (j : Fin m), (j : ℕ) < k → inner ℂ (b k) (a j) = 0 := by
    intro k j hjk
    have := InnerProductSpace.gramSchmidtOrthonormalBasis_inv_triangular hfin f (i := ⟨j, hjk.trans k.isLt⟩) (j := k) hjk
    simpa [f, a] using this
  let c : Fin (min n m) → Fin n := Fin.castLE (min_le_left _ _)
  refine ⟨Matrix.of fun i j => b (c j) i, Matrix.of fun k j => inner ℂ (b (c k)) (a j), ?_, ?_, ?_⟩
  · ext i j
    have := orthonormal_iff_ite.1 b.orthonormal (c i) (c j)
    rw [Matrix.mul_apply, Matrix.one_apply]
    rw [PiLp.inner_apply] at this
    simp only [conjTranspose_apply, of_apply]
    simp only [RCLike.inner_apply] at this
    rw [show (∑ x, star (b (c i) x) * b (c j) x) = ∑ x, b (c j) x * starRingEnd ℂ (b (c i) x) from
      Finset.sum_congr rfl fun x _ => mul_comm _ _, this]
    simp [c, Fin.ext_iff]
  · ext l j
    have := congrArg (fun x : EuclideanSpace ℂ (Fin n) => x l) (b.sum_repr (a j))
    simp only [OrthonormalBasis.repr_apply_apply] at this
    have hsum : (∑ k, inner ℂ (b k) (a j) • b k : EuclideanSpace ℂ (Fin n)) l = ∑ k, inner ℂ (b k) (a j) * b k l := by
      rw [WithLp.ofLp_sum, Finset.sum_apply]
      rfl
    replace this := hsum.symm.trans this
    rw [Matrix.mul_apply]
    simp only [of_apply]
    have h2 : ∑ k : Fin (min n m), b (c k) l * inner ℂ (b (c k)) (a j) = ∑ k : Fin n, inner ℂ (b k) (a j) * b k l := by
      rw [← Finset.sum_subset (Finset.subset_univ (Finset.univ.map (Fin.castLEEmb (min_le_left n m))))]
      · rw [Finset.sum_map]
        exact Finset.sum_congr rfl fun k _ => mul_comm _ _
      · intro k _ hk
        have : m ≤ k := by
          by_contra h
          push Not at h
          exact hk (Finset.mem_map.2 ⟨⟨k, lt_min k.isLt h⟩, Finset.mem_univ _, rfl⟩)
        rw [hz k j (lt_of_lt_of_le j.isLt this), zero_mul]
    rw [h2, this]
  · intro i j hij
    exact hz (c i) j hij

theorem qrRoutine_exists : ∃ qr : QRRoutine, qr.Correct := by
  choose q r h using qr_exists
  exact ⟨⟨q, r⟩, h⟩


end

theorem norm_mul_sign (c : ℂ) : (‖c‖ : ℂ) * tfSign c = c := by
  unfold tfSign
  split_ifs with h
  · simp [h]
  · rw [mul_div_cancel₀]
    exact_mod_cast norm_ne_zero_iff.2 h

theorem norm_mul_sign_re (c : ℂ) : ‖c‖ * (tfSign c).re = c.re := by
  have := congrArg Complex.re (norm_mul_sign c)
  rwa [Complex.re_ofReal_mul] at this

/-- What `multiply(a, c)` guarantees for complex cores. -/
theorem multiplyScalar_spec {a : TT ℂ} (ha : a.WF) (c : ℂ) :
    ∃ t, multiplyScalar a c = Except.ok t ∧ t.WF ∧ t.rawShape = a.rawShape ∧ t.batch = a.batch ∧
      t.ttRanks = a.ttRanks ∧ t.ndims = a.ndims ∧ ∀ p m, t.entry p m = c * a.entry p m := by
  have hpos := ha.pos
  set fact : ℂ := (‖c‖ : ℂ) ^ (1 / (a.ndims : ℂ)) with hf
  have hne : (a.cores.map (smul fact)) ≠ [] := by
    intro h; simp at h; rw [TT.ndims, h] at hpos; simp at hpos
  set cs := (a.cores.map (smul fact)).set 0 (((a.cores.map (smul fact)).getD 0 default).map (· * tfSign c))
    with hcs
  obtain ⟨hch, hent⟩ := scale_cores ha cs (fun k => if k = 0 then fact * tfSign c else fact)
    (by simp [hcs, TT.ndims]) (by
      intro k hk
      have hk' : k < a.cores.length := hk
      by_cases h0 : k = 0
      · subst h0
        rw [hcs, List.getD_eq_getElem _ _ (by simpa using hk'), List.getElem_set_self,
          List.getD_eq_getElem _ _ (by simpa using hk'), List.getElem_map, TT.core,
          List.getD_eq_getElem _ _ hk']
        simp only [smul, Tensor.map, if_true]
        congr 1
        funext idx
        ring
      · rw [hcs, List.getD_eq_getElem _ _ (by simpa using hk'),
          List.getElem_set_ne (by omega), List.getElem_map, TT.core, List.getD_eq_getElem _ _ hk']
        simp [smul, h0])
  have hlen : cs.length = a.ndims := by simp [hcs, TT.ndims]
  have hmk := mkLike_ok hch a.rawShape (by rw [hlen]; exact ha.rows_eq) a.ttRanks
    (by rw [hlen]; exact ha.ranks_eq)
  refine ⟨_, ?_, hch.wf, ?_, rfl, ?_, hlen, fun p m => ?_⟩
  · have hp : pyGet (a.cores.map (smul fact)) 0 = Except.ok ((a.cores.map (smul fact)).getD 0 default) :=
      pyGet_of_lt _ _ _ (by simpa [TT.ndims] using hpos)
    unfold multiplyScalar
    simp only [← hf, hp, R.ok_bind]
    exact hmk
  · change rowsOf _ _ _ = _
    rw [hlen]; exact ha.rows_eq.symm
  · change ranksOf _ _ = _
    rw [hlen]; exact ha.ranks_eq.symm
  · rw [hent]
    congr 1
    obtain ⟨e, he⟩ : ∃ e, a.ndims = e + 1 := ⟨a.ndims - 1, by omega⟩
    rw [he, Finset.prod_range_succ']
    simp only [Nat.add_eq_zero_iff, one_ne_zero, and_false, if_false, if_true, Finset.prod_const,
      Finset.card_range]
    rw [← mul_assoc, ← pow_succ, ← he, hf, one_div, Complex.cpow_nat_inv_pow _ (by omega)]
    exact norm_mul_sign c

/-- What `multiply(a, c)` guarantees for real cores and a complex number. -/
theorem multiplyReal_spec {a : TT ℝ} (ha : a.WF) (c : ℂ) :
    ∃ t, multiplyReal a c = Except.ok t ∧ t.WF ∧ t.rawShape = a.rawShape ∧ t.batch = a.batch ∧
      t.ttRanks = a.ttRanks ∧ t.ndims = a.ndims ∧ ∀ p m, t.entry p m = c.re * a.entry p m := by
  have hpos := ha.pos
  set fact : ℝ := ‖c‖ ^ (1 / (a.ndims : ℝ)) with hf
  have hne : (a.cores.map (smul fact)) ≠ [] := by
    intro h; simp at h; rw [TT.ndims, h] at hpos; simp at hpos
  set cs := (a.cores.map (smul fact)).set 0 (((a.cores.map (smul fact)).getD 0 default).map (· * (tfSign c).re))
    with hcs
  obtain ⟨hch, hent⟩ := scale_cores ha cs (fun k => if k = 0 then fact * (tfSign c).re else fact)
    (by simp [hcs, TT.ndims]) (by
      intro k hk
      have hk' : k < a.cores.length := hk
      by_cases h0 : k = 0
      · subst h0
        rw [hcs, List.getD_eq_getElem _ _ (by simpa using hk'), List.getElem_set_self,
          List.getD_eq_getElem _ _ (by simpa using hk'), List.getElem_map, TT.core,
          List.getD_eq_getElem _ _ hk']
        simp only [smul, Tensor.map, if_true]
        congr 1
        funext idx
        ring
      · rw [hcs, List.getD_eq_getElem _ _ (by simpa using hk'),
          List.getElem_set_ne (by omega), List.getElem_map, TT.core, List.getD_eq_getElem _ _ hk']
        simp [smul, h0])
  have hlen : cs.length = a.ndims := by simp [hcs, TT.ndims]
  have hmk := mkLike_ok hch a.rawShape (by rw [hlen]; exact ha.rows_eq) a.ttRanks
    (by rw [hlen]; exact ha.ranks_eq)
  refine ⟨_, ?_, hch.wf, ?_, rfl, ?_, hlen, fun p m => ?_⟩
  · have hp : pyGet (a.cores.map (smul fact)) 0 = Except.ok ((a.cores.map (smul fact)).getD 0 default) :=
      pyGet_of_lt _ _ _ (by simpa [TT.ndims] using hpos)
    unfold multiplyReal
    simp only [← hf, hp, R.ok_bind]
    exact hmk
  · change rowsOf _ _ _ = _
    rw [hlen]; exact ha.rows_eq.symm
  · change ranksOf _ _ = _
    rw [hlen]; exact ha.ranks_eq.symm
  · rw [hent]
    congr 1
    obtain ⟨e, he⟩ : ∃ e, a.ndims = e + 1 := ⟨a.ndims - 1, by omega⟩
    rw [he, Finset.prod_range_succ']
    simp only [Nat.add_eq_zero_iff, one_ne_zero, and_false, if_false, if_true, Finset.prod_const,
      Finset.card_range]
    rw [← mul_assoc, ← pow_succ, ← he, hf, one_div, Real.rpow_inv_natCast_pow (norm_nonneg c) (by omega)]
    exact norm_mul_sign_re c


theorem renormalize_error {t : TT ℂ} (h : t.WF) (eps : ℝ) : renormalize t eps = Except.error Err.tf := by
  have hpos := h.pos
  unfold renormalize
  rw [TT.ndims] at hpos
  cases hc : t.cores with
  | nil => rw [hc] at hpos; simp at hpos
  | cons c cs => rw [List.mapM_cons]; rfl

/-! ## Frobenius norms -/

/-- The sum of the squared absolute values. -/
noncomputable def absSum (t : TT ℂ) (p : List ℕ) : ℂ :=
  ∑ n ∈ Finset.range (restShape t.rawShape).prod, starRingEnd ℂ (t.entry p (restModes t.rawShape (unravel (restShape t.rawShape) n))) *
    t.entry p (restModes t.rawShape (unravel (restShape t.rawShape) n))

theorem lprod_conj (r : ℕ → ℕ) (A : ℕ → ℕ → ℕ → ℂ) (k b : ℕ) :
    lprod r (fun j x y => starRingEnd ℂ (A j x y)) k b = starRingEnd ℂ (lprod r A k b) := by
  induction k generalizing b with
  | zero => simp only [lprod]; split_ifs <;> simp
  | succ k ih => simp only [lprod, ih, map_sum, map_mul]

theorem gram_abs {t : TT ℂ} (h : t.WF) (p : List ℕ) :
    gram t.N t.rank t.rank (fun k n a b => starRingEnd ℂ (t.fl p k n a b)) (t.fl p) t.ndims 0 0 = absSum t p := by
  have := gram_msum t.modes t.rank t.rank (fun k v a b => starRingEnd ℂ ((t.core k).get (p ++ a :: (v ++ [b]))))
    (fun k v a b => (t.core k).get (p ++ a :: (v ++ [b]))) t.ndims 0 0
  refine (show gram t.N t.rank t.rank (fun k n a b => starRingEnd ℂ (t.fl p k n a b)) (t.fl p) t.ndims 0 0 = _ from this.symm).trans ?_
  simp only [lprod_conj]
  refine (msum_rest h _ ?_).trans ?_
  · intro g g' hg
    have h1 := entry_depends t p g g' hg
    simp only [TT.entry] at h1
    exact congrArg (fun z => starRingEnd ℂ z * z) h1
  · rfl

theorem gram_id {N r : ℕ → ℕ} {A : ℕ → ℕ → ℕ → ℕ → ℂ} {k : ℕ} (h0 : r 0 = 1) (h : ∀ j < k, LOrth N r A j) {x y : ℕ} (hx : x < r k) (hy : y < r k) :
    gram N r r (fun k n a b => starRingEnd ℂ (A k n a b)) A k x y = δ x y := by
  induction k generalizing x y with
  | zero =>
    rw [h0] at hx hy
    obtain rfl : x = 0 := by omega
    obtain rfl : y = 0 := by omega
    simp [gram, δ]
  | succ k ih =>
    rw [gram, ← h k (by omega) x hx y hy]
    refine Finset.sum_congr rfl fun a ha => ?_
    rw [Finset.mem_range] at ha
    rw [← sum_δ_left ha fun c => ∑ n ∈ Finset.range (N k), starRingEnd ℂ (A k n a x) * A k n c y]
    refine Finset.sum_congr rfl fun c hc => ?_
    rw [ih (fun j hj => h j (by omega)) ha (Finset.mem_range.1 hc)]

theorem Blk.sumAbs {X : Tensor ℂ} {pre : List ℕ} {a N b : ℕ} {f : List ℕ → ℕ → ℕ → ℕ → ℂ} (h : Blk X pre a N b f) {p : List ℕ}
    (hp : Valid pre p) : ∑ x ∈ Finset.range (a * (N * b)), starRingEnd ℂ (X.flat (ravel pre p * (a * (N * b)) + x)) *
        X.flat (ravel pre p * (a * (N * b)) + x) =
      ∑ α ∈ Finset.range a, ∑ n ∈ Finset.range N, ∑ β ∈ Finset.range b, starRingEnd ℂ (f p α n β) * f p α n β := by
  rw [sum_range_mul]
  refine Finset.sum_congr rfl fun α hα => ?_
  rw [sum_range_mul]
  refine Finset.sum_congr rfl fun n hn => Finset.sum_congr rfl fun β hβ => ?_
  rw [h.2 p hp α (Finset.mem_range.1 hα) n (Finset.mem_range.1 hn) β (Finset.mem_range.1 hβ)]

/-- The norm of a tensor train with orthonormal left parts is the norm of its last core. -/
theorem absSum_last {o : TT ℂ} (h : o.WF) {p : List ℕ} (ho : ∀ k, k + 1 < o.ndims → o.LeftUnitary p k) :
    absSum o p = ∑ α ∈ Finset.range (o.rank (o.ndims - 1)), ∑ n ∈ Finset.range (o.N (o.ndims - 1)),
      starRingEnd ℂ (o.fl p (o.ndims - 1) n α 0) * o.fl p (o.ndims - 1) n α 0 := by
  have hpos := h.pos
  rw [← gram_abs h]
  obtain ⟨d, hd⟩ : ∃ d, o.ndims = d + 1 := ⟨o.ndims - 1, by omega⟩
  rw [hd, Nat.add_sub_cancel, gram]
  refine Finset.sum_congr rfl fun α hα => ?_
  have hα' := Finset.mem_range.1 hα
  rw [Finset.sum_congr rfl fun c hc => by
    rw [gram_id (N := o.N) h.rank_first (fun j hj b hb b' hb' => ho j (by omega) b hb b' hb') hα' (Finset.mem_range.1 hc)], sum_δ_left hα']

theorem sqrt_sq (z : ℂ) : (z ^ (1 / 2 : ℂ)) ^ 2 = z := by
  rw [one_div]
  exact Complex.cpow_nat_inv_pow z (n := 2) (by norm_num)

theorem frobeniusQR_ok {qr : QRRoutine} (hqr : qr.Correct) {t : TT ℂ} (h : t.WF) (hm : t.ModesPos) :
    ∃ F, frobeniusNormSquared qr t false = Except.ok F ∧ F.shape = t.bpre ∧ ∀ p, Valid t.bpre p → F.get p = absSum t p := by
  obtain ⟨o, e, w, rs, b, nd, rk, orth, ent⟩ := orthoLR_ok hqr h hm
  have hpos := h.pos
  have hbp : o.bpre = t.bpre := by simp [TT.bpre, b]
  have hdot : ∀ p, Valid t.bpre p → absSum t p = absSum o p := by
    intro p hp
    unfold absSum
    rw [rs]
    refine Finset.sum_congr rfl fun n hn => ?_
    rw [ent p hp _ (validModes_rest h (unravel_valid (Finset.mem_range.1 hn)))]
  have hB := blk_core w (k := o.ndims - 1) (by omega)
  rw [hbp, show o.ndims - 1 + 1 = o.ndims by omega, w.rank_last] at hB
  have hlast : pyGet o.cores.reverse 0 = Except.ok (o.core (o.ndims - 1)) := by
    have hl : 0 < o.cores.length := w.pos
    rw [pyGet_of_lt _ _ default (by rw [List.length_reverse]; exact hl), List.getD_eq_getElem _ _ (by rw [List.length_reverse]; exact hl),
      List.getElem_reverse, TT.core, List.getD_eq_getElem _ _ (by rw [TT.ndims]; omega)]
    rfl
  have hsq : ∀ p, Valid t.bpre p → ∑ x ∈ Finset.range (o.rank (o.ndims - 1) * (o.N (o.ndims - 1) * 1)),
      starRingEnd ℂ ((o.core (o.ndims - 1)).flat (ravel t.bpre p * (o.rank (o.ndims - 1) * (o.N (o.ndims - 1) * 1)) + x)) *
        (o.core (o.ndims - 1)).flat (ravel t.bpre p * (o.rank (o.ndims - 1) * (o.N (o.ndims - 1) * 1)) + x) = absSum t p := by
    intro p hp
    rw [Blk.sumAbs hB hp, hdot p hp, absSum_last w (fun k hk => orth p hp k (by omega))]
    simp only [Finset.sum_range_one]
  unfold frobeniusNormSquared
  rw [if_neg (by simp), orthogonalize, if_pos rfl, e]
  simp only [R.ok_bind, hlast]
  cases hbt : t.batch with
  | none =>
    have hbpre : t.bpre = [] := by simp [TT.bpre, hbt]
    rw [if_neg (by simp [TT.isBatch, hbt])]
    refine ⟨_, rfl, by rw [hbpre]; rfl, fun p hp => ?_⟩
    rw [hbpre] at hp hB
    obtain rfl := (valid_nil_iff p).1 hp
    rw [← hsq [] (by rw [hbpre]; trivial)]
    show ((reduceSum ((o.core (o.ndims - 1)).map fun z => z * starRingEnd ℂ z)) ^ (1 / 2 : ℂ)) ^ 2 = _
    rw [sqrt_sq]
    unfold reduceSum
    have hs := hB.1
    rw [List.prod_nil, one_mul] at hs
    rw [show ((o.core (o.ndims - 1)).map fun z => z * starRingEnd ℂ z).shape = (o.core (o.ndims - 1)).shape from rfl, hs]
    refine Finset.sum_congr rfl fun x _ => ?_
    rw [hbpre]
    show _ = starRingEnd ℂ ((o.core (o.ndims - 1)).flat (0 * _ + x)) * (o.core (o.ndims - 1)).flat (0 * _ + x)
    rw [Nat.zero_mul, Nat.zero_add]
    exact mul_comm _ _
  | some bs =>
    have hbpre : t.bpre = [bs] := by simp [TT.bpre, hbt]
    have hbs : 0 < bs := by
      have := batch_prod_pos h.batch_pos
      simpa [hbt] using this
    have hlz : t.lazyBatchSize = Except.ok bs := by simp [TT.lazyBatchSize, hbt]
    rw [if_pos (by simp [TT.isBatch, hbt]), hlz, R.ok_bind]
    rw [hbpre] at hB
    set m := o.rank (o.ndims - 1) * (o.N (o.ndims - 1) * 1) with hm'
    obtain ⟨Y, eY, sY, vY⟩ := reshape_flat (o.core (o.ndims - 1)) [some bs, none] [bs, m]
      (resolveShape_infer [some bs, none] m _ (by simp) (by simpa [knownProd] using hbs) (by rw [hB.1, ← hm']; simp [knownProd]))
    rw [eY, R.ok_bind, tfNormRows, sY]
    refine ⟨_, rfl, by rw [hbpre]; rfl, fun p hp => ?_⟩
    obtain ⟨q, rfl⟩ : ∃ q, p = [q] := by
      have := hp.length_eq; rw [hbpre] at this; exact List.length_eq_one_iff.1 this
    rw [← hsq [q] hp]
    rw [hbpre] at hp ⊢
    have hq : q < bs := hp.1
    show ((∑ x ∈ Finset.range m, Y.get [q, x] * starRingEnd ℂ (Y.get [q, x])) ^ (1 / 2 : ℂ)) ^ 2 = _
    rw [sqrt_sq]
    refine Finset.sum_congr rfl fun x hx => ?_
    have hx := Finset.mem_range.1 hx
    rw [← Tensor.flat_ravel Y (idx := [q, x]) (by rw [sY]; exact ⟨hq, hx, trivial⟩), sY, vY _ (by
      rw [hB.1, ← hm']
      have := mul_add_lt hq hx
      simpa [ravel] using this)]
    simp [ravel, mul_comm]

theorem full_eqv {t o : TT ℂ} (h : t.WF) (ho : o.WF) (hs : o.rawShape = t.rawShape) (hb : o.batch = t.batch)
    (he : ∀ p, Valid t.bpre p → ∀ g, (∀ j < t.ndims, Valid (t.modes j) (g j)) → o.entry p g = t.entry p g) :
    ∃ T O, full t = Except.ok T ∧ full o = Except.ok O ∧ O ≃ₜ T := by
  obtain ⟨T, eT, sT, vT⟩ := full_ok h
  obtain ⟨O, eO, sO, vO⟩ := full_ok ho
  have hp : o.bpre = t.bpre := by simp [TT.bpre, hb]
  rw [hp, hs] at sO
  refine ⟨T, O, eT, eO, by rw [sO, sT], fun i hi => ?_⟩
  rw [sO] at hi
  obtain ⟨p, j, rfl, h1, h2⟩ := valid_append_iff.1 hi
  rw [vO p j (by rw [hp]; exact h1) (by rw [hs]; exact h2), vT p j h1 h2, hs]
  exact he p h1 _ (validModes_rest h h2)

/-! ## Functions that raise -/

theorem bind_error {α β : Type} (m : R α) (f : α → R β) (hf : ∀ a, ∃ e, f a = Except.error e) : ∃ e, (m >>= f) = Except.error e := by
  cases m with
  | error e => exact ⟨e, rfl⟩
  | ok a => exact hf a

theorem matmul_error {β : Type} (a : Tensor ℂ) (b : Tensor ℝ) (f : Tensor ℂ → R β) : ∃ e, (matmulCR a b >>= f) = Except.error e := ⟨_, rfl⟩

theorem matmul_error' {β : Type} (a : Tensor ℝ) (b : Tensor ℂ) (f : Tensor ℂ → R β) : ∃ e, (matmulRC a b >>= f) = Except.error e := ⟨_, rfl⟩

theorem roundStep_error (svd : SVDRoutine) (t : TT ℂ) (bounds : List ℕ) (i : ℕ) (s : List (Tensor ℂ) × List ℕ) :
    ∃ e, roundStep svd t bounds i s = Except.error e := by
  unfold roundStep
  repeat' (first | exact matmul_error _ _ _ | refine bind_error _ _ fun _ => ?_)

theorem toTTStep_error (svd : SVDRoutine) (shape bounds : List ℕ) (i : ℕ) (s : Tensor ℂ × List ℕ × List (Tensor ℂ)) :
    ∃ e, toTTStep svd shape bounds i s = Except.error e := by
  unfold toTTStep
  repeat' (first | exact matmul_error' _ _ _ | refine bind_error _ _ fun _ => ?_)

section
variable {a b : TT ℂ} {τ σ : Ty} {v w : ℕ → List ℕ → ℂ}

theorem smul_rep (ha : Rep a τ v) (x : ℂ) :
    ∃ c, multiplyScalar a x = Except.ok c ∧ Rep c τ (fun o i => x * v o i) := by
  obtain ⟨c, e, wc, rc, bc, -, -, vc⟩ := multiplyScalar_spec ha.wf x
  exact ⟨c, e, ha.same wc rc bc fun o i ho hi => by rw [vc, ha.val o i ho hi]⟩

theorem sub_rep (ha : Rep a τ v) (hb : Rep b σ w) :
    match addTy τ σ with
    | none => ∃ e, sub a b = Except.error e
    | some ρ => ∃ c, sub a b = Except.ok c ∧ Rep c ρ (fun o i => v o i - w o i) := by
  obtain ⟨b', e, hb'⟩ := smul_rep hb (-1)
  have := add_rep ha hb'
  unfold sub
  rw [e, R.ok_bind]
  revert this
  cases addTy τ σ with
  | none => exact id
  | some ρ =>
      rintro ⟨c, ec, hc⟩
      refine ⟨c, ec, ?_⟩
      have : (fun o i => v o i - w o i) = fun o i => v o i + -1 * w o i := by funext o i; ring
      rw [this]; exact hc

theorem orthogonalize_rep {qr : QRRoutine} (hqr : qr.Correct) (lr : Bool) (ha : Rep a τ v) :
    match (if lr = true ∨ τ.batch = none then some τ else none) with
    | none => ∃ e, orthogonalize qr a lr = Except.error e
    | some ρ => ∃ c, orthogonalize qr a lr = Except.ok c ∧ Rep c ρ v := by
  unfold orthogonalize
  by_cases hlr : lr = true
  · rw [if_pos (Or.inl hlr), if_pos hlr]
    obtain ⟨c, e, wc, rc, bc, nc, -, -, vc⟩ := orthoLR_ok hqr ha.wf ha.pos
    exact ⟨c, e, ha.same wc rc bc fun o i ho hi => by
      rw [vc _ (ha.valid ho) _ (ha.modes hi), ha.val o i ho hi]⟩
  · by_cases hb : τ.batch = none
    · have hb' : a.batch = none := ha.batch.trans hb
      rw [if_pos (Or.inr hb), if_neg hlr, if_neg (by simp [TT.isBatch, hb'])]
      obtain ⟨c, e, wc, rc, bc, nc, -, -, vc⟩ := orthoRL_ok hqr ha.wf hb' ha.pos
      exact ⟨c, e, ha.same wc rc (bc.trans hb'.symm) fun o i ho hi => by
        have := ha.val o i ho hi
        rw [hb] at this ⊢
        rw [← this]
        exact vc _ (ha.modes hi)⟩
    · rw [if_neg (by tauto), if_neg hlr, if_pos]
      · exact ⟨_, rfl⟩
      · rw [← ha.batch] at hb
        simpa [TT.isBatch, Option.isSome_iff_ne_none] using hb

end

end T3f.Cx

namespace T3f

/-- Two arguments. -/
theorem CxExpr.bin {a b : CxExpr} {qr : Cx.QRRoutine} (op : TT ℂ → TT ℂ → R (TT ℂ)) (opTy : Ty → Ty → Option Ty)
    (val : Ty → Ty → (ℕ → List ℕ → ℂ) → (ℕ → List ℕ → ℂ) → ℕ → List ℕ → ℂ) (fv : ℕ → List ℕ → ℂ)
    (hfv : ∀ τ σ, a.ty = some τ → b.ty = some σ → fv = val τ σ a.value b.value)
    (hop : ∀ s t τ σ v w, Rep s τ v → Rep t σ w → match opTy τ σ with
      | none => ∃ e, op s t = Except.error e
      | some ρ => ∃ c, op s t = Except.ok c ∧ Rep c ρ (val τ σ v w))
    (ha : match a.ty with | none => ∃ e, a.run qr = Except.error e | some τ => ∃ t, a.run qr = Except.ok t ∧ Rep t τ a.value)
    (hb : match b.ty with | none => ∃ e, b.run qr = Except.error e | some τ => ∃ t, b.run qr = Except.ok t ∧ Rep t τ b.value) :
    match (do opTy (← a.ty) (← b.ty)) with
    | none => ∃ e, (do op (← a.run qr) (← b.run qr)) = Except.error e
    | some ρ => ∃ c, (do op (← a.run qr) (← b.run qr)) = Except.ok c ∧ Rep c ρ fv := by
  cases ea : a.ty with
  | none =>
      rw [ea] at ha
      obtain ⟨e, he⟩ := ha
      exact ⟨e, by rw [he]; rfl⟩
  | some τ =>
      rw [ea] at ha
      obtain ⟨s, hs, hR⟩ := ha
      rw [hs]
      cases eb : b.ty with
      | none =>
          rw [eb] at hb
          obtain ⟨e, he⟩ := hb
          exact ⟨e, by rw [he]; rfl⟩
      | some σ =>
          rw [eb] at hb
          obtain ⟨t, ht, hR'⟩ := hb
          rw [ht]
          have := hop s t τ σ _ _ hR hR'
          rw [hfv τ σ ea eb]
          exact this

/-- One argument. -/
theorem CxExpr.un {a : CxExpr} {qr : Cx.QRRoutine} (op : TT ℂ → R (TT ℂ)) (opTy : Ty → Option Ty)
    (val : Ty → (ℕ → List ℕ → ℂ) → ℕ → List ℕ → ℂ) (fv : ℕ → List ℕ → ℂ)
    (hfv : ∀ τ, a.ty = some τ → fv = val τ a.value)
    (hop : ∀ s τ v, Rep s τ v → match opTy τ with
      | none => ∃ e, op s = Except.error e
      | some ρ => ∃ c, op s = Except.ok c ∧ Rep c ρ (val τ v))
    (ha : match a.ty with | none => ∃ e, a.run qr = Except.error e | some τ => ∃ t, a.run qr = Except.ok t ∧ Rep t τ a.value) :
    match (do opTy (← a.ty)) with
    | none => ∃ e, (do op (← a.run qr)) = Except.error e
    | some ρ => ∃ c, (do op (← a.run qr)) = Except.ok c ∧ Rep c ρ fv := by
  cases ea : a.ty with
  | none =>
      rw [ea] at ha
      obtain ⟨e, he⟩ := ha
      exact ⟨e, by rw [he]; rfl⟩
  | some τ =>
      rw [ea] at ha
      obtain ⟨s, hs, hR⟩ := ha
      rw [hs, hfv τ ea]
      exact hop s τ _ hR

/-- Every expression evaluates to a representation of its value. -/
theorem CxExpr.rep {qr : Cx.QRRoutine} (hqr : qr.Correct) (e : CxExpr) (h : e.Ok) :
    match e.ty with
    | none => ∃ err, e.run qr = Except.error err
    | some τ => ∃ t, e.run qr = Except.ok t ∧ Rep t τ e.value := by
  induction e with
  | obj t =>
      refine ⟨t, rfl, h.1, h.2, rfl, rfl, fun o i ho hi => ?_⟩
      obtain ⟨F, eF, -, vF⟩ := full_ok h.1
      show _ = (Expr.fullOf t).get (bsel t.batch o ++ i)
      rw [Expr.fullOf, eF]
      exact (vF _ i (hasItem_valid ho h.1.batch_pos) hi).symm
  | add a b iha ihb =>
      exact CxExpr.bin T3f.add addTy (fun _ _ v w o i => v o i + w o i) _ (fun _ _ _ _ => rfl)
        (fun _ _ _ _ _ _ h1 h2 => add_rep h1 h2) (iha h.1) (ihb h.2)
  | sub a b iha ihb =>
      exact CxExpr.bin Cx.sub addTy (fun _ _ v w o i => v o i - w o i) _ (fun _ _ _ _ => rfl)
        (fun _ _ _ _ _ _ h1 h2 => Cx.sub_rep h1 h2) (iha h.1) (ihb h.2)
  | neg a iha =>
      have := CxExpr.un Cx.neg some (fun _ v o i => - v o i) _ (fun _ _ => rfl)
        (fun s τ v hs => by
          obtain ⟨c, e, hc⟩ := Cx.smul_rep hs (-1)
          refine ⟨c, e, ?_⟩
          have : (fun o i => - v o i) = fun o i => -1 * v o i := by funext o i; ring
          simp only [this]; exact hc) (iha h)
      simpa [CxExpr.run, CxExpr.ty, CxExpr.value] using this
  | mul a b iha ihb =>
      exact CxExpr.bin T3f.multiply mulTy (fun _ _ v w o i => v o i * w o i) _ (fun _ _ _ _ => rfl)
        (fun _ _ _ _ _ _ h1 h2 => mul_rep h1 h2) (iha h.1) (ihb h.2)
  | smul c a iha =>
      have := CxExpr.un (fun t => Cx.multiplyScalar t c) some (fun _ v o i => c * v o i) _ (fun _ _ => rfl)
        (fun s τ v hs => Cx.smul_rep hs c) (iha h)
      simpa [CxExpr.run, CxExpr.ty, CxExpr.value] using this
  | matmul a b iha ihb =>
      exact CxExpr.bin T3f.ttTTMatmul matmulTy (fun τ _ v w o i =>
          ∑ z ∈ Finset.range (τ.raw.getD 1 []).prod, v o [i.getD 0 0, z] * w o [z, i.getD 1 0]) _
        (fun τ σ ea _ => by funext o i; rw [CxExpr.value, ea]; rfl)
        (fun _ _ _ _ _ _ h1 h2 => matmul_rep h1 h2) (iha h.1) (ihb h.2)
  | transpose a iha =>
      exact CxExpr.un T3f.ttTranspose transposeTy (fun _ v o i => v o i.reverse) _ (fun _ _ => rfl)
        (fun _ _ _ hs => transpose_rep hs) (iha h)
  | orthogonalize lr a iha =>
      exact CxExpr.un (fun t => Cx.orthogonalize qr t lr) (fun τ => if lr = true ∨ τ.batch = none then some τ else none)
        (fun _ v => v) _ (fun _ _ => rfl) (fun _ _ _ hs => Cx.orthogonalize_rep hqr lr hs) (iha h)
  | renormalize eps a iha =>
      have := iha h
      show ∃ err, (a.run qr >>= fun s => Cx.renormalize s eps) = Except.error err
      cases ea : a.ty with
      | none =>
          rw [ea] at this
          obtain ⟨e, he⟩ := this
          exact ⟨e, by rw [he]; rfl⟩
      | some τ =>
          rw [ea] at this
          obtain ⟨t, et, hR⟩ := this
          exact ⟨_, by rw [et, R.ok_bind, Cx.renormalize_error hR.wf eps]⟩
  | expand a iha =>
      exact CxExpr.un T3f.expandBatchDim (fun τ => some ⟨τ.raw, some (τ.batch.getD 1)⟩)
        (fun _ v => v) _ (fun _ _ => rfl) (fun _ _ _ hs => expand_rep hs) (iha h)
  | squeeze a iha =>
      exact CxExpr.un T3f.squeezeBatchDim (fun τ => some ⟨τ.raw, squeezed τ.batch⟩)
        (fun _ v => v) _ (fun _ _ => rfl) (fun _ _ _ hs => squeeze_rep hs) (iha h)
  | pick k a iha =>
      exact CxExpr.un (Expr.pickItem k) (pickTy k) (fun τ v _ i => v (pyPos (τ.batch.getD 0) k) i) _
        (fun τ ea => by funext o i; rw [CxExpr.value, ea]; rfl) (fun _ _ _ hs => pick_rep k hs) (iha h)


end T3f
