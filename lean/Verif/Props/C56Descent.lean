import Verif.Proofs.Descent
import Verif.Props.C37Project
import Mathlib.Analysis.SpecialFunctions.Pow.Real

/-!
# C56: Riemannian gradient descent

The program of the tutorial `docs/tutorials/riemannian.ipynb`: minimize the distance to `A` over tensors of bounded TT-rank by steps
`assign(X, round(X - alpha * project(X - A, X), max_tt_rank=m))`.
-/

namespace T3f

/-- No TT-rank is larger than what the core on either side of it can carry. -/
def TT.RanksFit {K : Type} (t : TT K) : Prop :=
  ∀ k < t.ndims, t.rank (k + 1) ≤ t.rank k * (t.modes k).prod ∧ t.rank k ≤ (t.modes k).prod * t.rank (k + 1)

/-- The tensor `X - alpha * P`. -/
def Tensor.move (X P : Tensor ℝ) (alpha : ℝ) : Tensor ℝ := ⟨X.shape, fun i => X.get i - alpha * P.get i⟩

/-- `round` gives exactly the requested ranks, if they fit to each other and do not exceed those of the argument. -/
theorem C56_round_ranks {qr : QRRoutine} (hqr : qr.Correct) {svd : SVDRoutine} (hsvd : svd.Correct) {t : TT ℝ} (h : t.WF) (hm : t.ModesPos)
    {m : MaxRank} {b : ℕ → ℕ} (hb : m.Bounds t.ndims b) (hbatch : t.isBatch → m.Single) {eps : Option ℝ} (he : ∀ e ∈ eps, 0 ≤ e)
    {S : TT ℝ} (hS : S.WF) (hrs : S.rawShape = t.rawShape) (hfit : S.RanksFit) (hr : ∀ k, 0 < k → k < t.ndims → S.rank k = b k ∧ S.rank k ≤ t.rank k) :
    ∃ x, ttRound qr svd t m eps = Except.ok x ∧ x.ttRanks = S.ttRanks := by
  obtain ⟨l, el, hl, hlb, hpos⟩ := maxRanks_ok hb he
  obtain ⟨x, e, w, rs, bt, nd, rk, -⟩ := roundWith_spec hqr hsvd h hm hl hpos
  have hn : S.ndims = t.ndims := ndims_eq_of_rawShape hS h hrs
  have hN : ∀ k, (S.modes k).prod = t.N k := fun k => by simp [TT.N, TT.modes, hrs]
  refine ⟨x, by rw [ttRound_eq hbatch, el]; exact e, ?_⟩
  have hk : ∀ k ≤ t.ndims, x.rank k = S.rank k := fun k hk => by
    rw [rk k hk]
    refine rdRank_attained hS.rank_first (by rw [← hn]; exact hS.rank_last) (fun k h0 h1 => ?_) (fun k h0 h1 => (hr k h0 h1).2) (fun k h1 => ?_)
      (fun k h1 => ?_) hk
    · rw [hlb k (by omega), (hr k h0 h1).1]
    · rw [← hN]; exact (hfit k (by omega)).1
    · rw [← hN]; exact (hfit k (by omega)).2
  have h1 := w.ranks_len
  have h2 := hS.ranks_len
  apply List.ext_getElem
  · omega
  · intro k hk1 hk2
    have := hk k (by omega)
    rwa [TT.rank, TT.rank, List.getD_eq_getElem _ _ hk1, List.getD_eq_getElem _ _ hk2] at this

/-- One update. `P` is the Riemannian gradient, the projection of `X - A` on the tangent space at `X`. Before the retraction the squared distance to `A` decreases by
`alpha (2 - alpha) ‖P‖²`. The retraction is quasi-optimal among all tensors within the rank bounds. -/
theorem C56_update {qr : QRRoutine} (hqr : qr.Correct) {svd : SVDRoutine} (hsvd : svd.Correct) {x a : TT ℝ} (hx : x.WF) (hxb : x.batch = none)
    (hm : x.ModesPos) (hd : 2 ≤ x.ndims) (ha : a.WF) (hab : a.batch = none) (har : a.rawShape = x.rawShape)
    {m : MaxRank} {b : ℕ → ℕ} (hb : m.Bounds x.ndims b) (alpha : ℝ) :
    ∃ g p z X A P Z, sub x a = Except.ok g ∧ project qr g x = Except.ok p ∧ descentUpdate qr svd alpha m x a = Except.ok z ∧
      z.WF ∧ z.rawShape = x.rawShape ∧ z.batch = none ∧ (∀ k, 0 < k → k < x.ndims → z.rank k ≤ b k) ∧
      full x = Except.ok X ∧ full a = Except.ok A ∧ full p = Except.ok P ∧ full z = Except.ok Z ∧
      A.shape = X.shape ∧ P.shape = X.shape ∧ Z.shape = X.shape ∧
      (X.move P alpha).distSq A [] X.shape = X.distSq A [] X.shape - alpha * (2 - alpha) * P.normSq [] X.shape ∧
      ∀ S F, S.WF → S.rawShape = x.rawShape → S.batch = none → (∀ k, 0 < k → k < x.ndims → S.rank k ≤ b k) → full S = Except.ok F →
        (X.move P alpha).distSq Z [] X.shape ≤ (x.ndims - 1 : ℕ) * (X.move P alpha).distSq F [] X.shape := by
  obtain ⟨g, p, y, X, A, P, Y, eg, ep, eu, wy, ry, by', ny, rky, eX, eA, eP, eY, sX, sA, sP, sY, vY, ho⟩ := descent_point hqr hx hxb hm hd ha hab har alpha
  have hmy : y.ModesPos := by rw [TT.ModesPos, ry]; exact hm
  have hnb : y.isBatch → m.Single := fun h => by rw [TT.isBatch, by'] at h; simp at h
  have hb' : m.Bounds y.ndims b := by rw [ny]; exact hb
  have he : ∀ e ∈ (none : Option ℝ), 0 ≤ e := by simp
  obtain ⟨z, ez, wz, rz, bz, r1, r2⟩ := C31_ranks hqr hsvd wy hmy hb' hnb he
  obtain ⟨Z, eZ, sZ, -⟩ := full_single wz (bz.trans by')
  refine ⟨g, p, z, X, A, P, Z, eg, ep, by rw [eu]; exact ez, wz, rz.trans ry, bz.trans by', fun k h0 h1 => r1 k h0 (by omega), eX, eA, eP, eZ, sA, sP,
    by rw [sZ, rz, ry, sX], ?_, fun S F hS hrs hSb hSr eF => ?_⟩
  · have e1 : (X.move P alpha).distSq A [] X.shape = dot X.shape (fun i => (X.get i - A.get i) - alpha * P.get i) (fun i => (X.get i - A.get i) - alpha * P.get i) := by
      rw [distSq_dot]
      exact dot_congr (fun i _ => by simp only [Tensor.move]; ring) (fun i _ => by simp only [Tensor.move]; ring)
    rw [e1, distSq_dot, normSq_dot]
    rw [dot_sub, sub_eq_zero] at ho
    unfold dot at ho ⊢
    have : ∀ n, ((X.get (unravel X.shape n) - A.get (unravel X.shape n)) - alpha * P.get (unravel X.shape n)) *
        ((X.get (unravel X.shape n) - A.get (unravel X.shape n)) - alpha * P.get (unravel X.shape n)) =
        (X.get (unravel X.shape n) - A.get (unravel X.shape n)) * (X.get (unravel X.shape n) - A.get (unravel X.shape n)) -
        2 * alpha * ((X.get (unravel X.shape n) - A.get (unravel X.shape n)) * P.get (unravel X.shape n)) +
        alpha ^ 2 * (P.get (unravel X.shape n) * P.get (unravel X.shape n)) := fun n => by ring
    simp only [this]
    rw [Finset.sum_add_distrib, Finset.sum_sub_distrib, ← Finset.mul_sum, ← Finset.mul_sum, ho]
    ring
  · obtain ⟨z', Y', Z', F', s, ez', eY', eZ', eF', sY', sZ', sF', hq⟩ := C32_quasi_optimal hqr hsvd wy hmy hb' hnb he hS (hrs.trans ry.symm) (hSb.trans by'.symm)
      (fun k h0 h1 => hSr k h0 (by omega))
    obtain rfl : z' = z := Except.ok.inj (ez'.symm.trans ez)
    obtain rfl : Z' = Z := Except.ok.inj (eZ'.symm.trans eZ)
    obtain rfl : Y' = Y := Except.ok.inj (eY'.symm.trans eY)
    obtain rfl : F' = F := Except.ok.inj (eF'.symm.trans eF)
    have hyp : y.bpre = [] := by simp [TT.bpre, by']
    rw [hyp] at sY' hq
    obtain rfl : X.shape = s := by rw [← sY]; exact sY'
    have := hq [] trivial
    rw [ny] at this
    rwa [distSq_congr (X := X.move P alpha) (X' := Y') (Y := Z') (fun i hi => (vY i hi).symm) (fun _ _ => rfl),
      distSq_congr (X := X.move P alpha) (X' := Y') (Y := F') (fun i hi => (vY i hi).symm) (fun _ _ => rfl)]

theorem distSq_nonneg (X Y : Tensor ℝ) (p s : List ℕ) : 0 ≤ X.distSq Y p s := Finset.sum_nonneg fun _ _ => sq_nonneg _

theorem distSq_comm (X Y : Tensor ℝ) (p s : List ℕ) : X.distSq Y p s = Y.distSq X p s :=
  Finset.sum_congr rfl fun _ _ => by ring

theorem dist_triangle (X Y Z : Tensor ℝ) (p s : List ℕ) : √(X.distSq Z p s) ≤ √(X.distSq Y p s) + √(Y.distSq Z p s) := by
  have h1 := Real.sq_sqrt (distSq_nonneg X Y p s)
  have h2 := Real.sq_sqrt (distSq_nonneg Y Z p s)
  refine Real.sqrt_le_iff.2 ⟨by positivity, ?_⟩
  have cs := Finset.sum_mul_sq_le_sq_mul_sq (Finset.range s.prod) (fun n => X.get (p ++ unravel s n) - Y.get (p ++ unravel s n))
    (fun n => Y.get (p ++ unravel s n) - Z.get (p ++ unravel s n))
  change _ ≤ X.distSq Y p s * Y.distSq Z p s at cs
  have e : X.distSq Z p s = X.distSq Y p s + Y.distSq Z p s + 2 * ∑ n ∈ Finset.range s.prod,
      (X.get (p ++ unravel s n) - Y.get (p ++ unravel s n)) * (Y.get (p ++ unravel s n) - Z.get (p ++ unravel s n)) := by
    unfold Tensor.distSq
    rw [Finset.mul_sum, ← Finset.sum_add_distrib, ← Finset.sum_add_distrib]
    exact Finset.sum_congr rfl fun n _ => by ring
  have h3 : ∑ n ∈ Finset.range s.prod, (X.get (p ++ unravel s n) - Y.get (p ++ unravel s n)) * (Y.get (p ++ unravel s n) - Z.get (p ++ unravel s n)) ≤
      √(X.distSq Y p s) * √(Y.distSq Z p s) := by
    refine abs_le_of_sq_le_sq' ?_ (by positivity) |>.2
    rw [mul_pow, h1, h2]
    exact cs
  rw [e, add_sq, h1, h2]
  linarith

/-- If `A` is within the rank bounds, one step with step size one leads to a distance of at most `1 + √(d - 1)` times the norm of the component of `X - A` that is
orthogonal to the tangent space. -/
theorem C56_error {qr : QRRoutine} (hqr : qr.Correct) {svd : SVDRoutine} (hsvd : svd.Correct) {x a : TT ℝ} (hx : x.WF) (hxb : x.batch = none)
    (hm : x.ModesPos) (hd : 2 ≤ x.ndims) (ha : a.WF) (hab : a.batch = none) (har : a.rawShape = x.rawShape)
    {m : MaxRank} {b : ℕ → ℕ} (hb : m.Bounds x.ndims b) (hrk : ∀ k, 0 < k → k < x.ndims → a.rank k ≤ b k) :
    ∃ g p z X A P Z, sub x a = Except.ok g ∧ project qr g x = Except.ok p ∧ descentUpdate qr svd 1 m x a = Except.ok z ∧
      full x = Except.ok X ∧ full a = Except.ok A ∧ full p = Except.ok P ∧ full z = Except.ok Z ∧
      √(Z.distSq A [] X.shape) ≤ (1 + √((x.ndims : ℝ) - 1)) * √(X.distSq A [] X.shape - P.normSq [] X.shape) := by
  obtain ⟨g, p, z, X, A, P, Z, eg, ep, ez, wz, rz, bz, rk, eX, eA, eP, eZ, sA, sP, sZ, h1, h2⟩ := C56_update hqr hsvd hx hxb hm hd ha hab har hb 1
  refine ⟨g, p, z, X, A, P, Z, eg, ep, ez, eX, eA, eP, eZ, ?_⟩
  have h3 := h2 a A ha har hab hrk eA
  have h4 := dist_triangle Z (X.move P 1) A [] X.shape
  rw [show X.distSq A [] X.shape - P.normSq [] X.shape = (X.move P 1).distSq A [] X.shape by rw [h1]; ring]
  rw [distSq_comm] at h3
  have h5 := Real.sqrt_le_sqrt h3
  rw [Real.sqrt_mul (by positivity), Nat.cast_sub (by omega), Nat.cast_one] at h5
  linarith

/-- At a stationary point (the Riemannian gradient is zero) the update changes nothing, whatever the step size. -/
theorem C56_stationary {qr : QRRoutine} (hqr : qr.Correct) {svd : SVDRoutine} (hsvd : svd.Correct) {x a g p : TT ℝ} (hx : x.WF) (hxb : x.batch = none)
    (hm : x.ModesPos) (hd : 2 ≤ x.ndims) (ha : a.WF) (hab : a.batch = none) (har : a.rawShape = x.rawShape)
    {m : MaxRank} {b : ℕ → ℕ} (hb : m.Bounds x.ndims b) (hrk : ∀ k, 0 < k → k < x.ndims → x.rank k ≤ b k) (alpha : ℝ)
    (hg : sub x a = Except.ok g) (hp : project qr g x = Except.ok p) {P : Tensor ℝ} (hP : full p = Except.ok P) (h0 : ∀ i, Valid P.shape i → P.get i = 0) :
    ∃ z X Z, descentUpdate qr svd alpha m x a = Except.ok z ∧ full x = Except.ok X ∧ full z = Except.ok Z ∧ Z ≃ₜ X := by
  obtain ⟨g', p', z, X, A, P', Z, eg, ep, ez, wz, rz, bz, rk, eX, eA, eP, eZ, sA, sP, sZ, h1, h2⟩ := C56_update hqr hsvd hx hxb hm hd ha hab har hb alpha
  obtain rfl : g' = g := Except.ok.inj (eg.symm.trans hg)
  obtain rfl : p' = p := Except.ok.inj (ep.symm.trans hp)
  obtain rfl : P' = P := Except.ok.inj (eP.symm.trans hP)
  refine ⟨z, X, Z, ez, eX, eZ, ?_⟩
  have h3 := h2 x X hx rfl hxb hrk eX
  have hmv : ∀ i, Valid X.shape i → (X.move P' alpha).get i = X.get i := fun i hi => by
    simp only [Tensor.move]; rw [h0 i (by rw [sP]; exact hi)]; ring
  rw [distSq_congr hmv (fun _ _ => rfl), distSq_congr (Y := X) hmv (fun _ _ => rfl)] at h3
  have h4 : X.distSq X [] X.shape = 0 := Finset.sum_eq_zero fun _ _ => by ring
  rw [h4, mul_zero] at h3
  refine (distSq_zero (pre := []) (s := X.shape) rfl sZ).1 fun q hq => ?_
  obtain rfl := (valid_nil_iff q).1 hq
  exact le_antisymm h3 (distSq_nonneg _ _ _ _)

/-- The target itself is a stationary point. -/
theorem C56_target {qr : QRRoutine} (hqr : qr.Correct) {svd : SVDRoutine} (hsvd : svd.Correct) {x a : TT ℝ} (hx : x.WF) (hxb : x.batch = none)
    (hm : x.ModesPos) (hd : 2 ≤ x.ndims) (ha : a.WF) (hab : a.batch = none) (har : a.rawShape = x.rawShape)
    {m : MaxRank} {b : ℕ → ℕ} (hb : m.Bounds x.ndims b) (hrk : ∀ k, 0 < k → k < x.ndims → x.rank k ≤ b k) (alpha : ℝ)
    {X A : Tensor ℝ} (eX : full x = Except.ok X) (eA : full a = Except.ok A) (hXA : X ≃ₜ A) :
    ∃ z Z, descentUpdate qr svd alpha m x a = Except.ok z ∧ full z = Except.ok Z ∧ Z ≃ₜ A := by
  obtain ⟨g, p, y, X', A', P, Y, eg, ep, -, -, -, -, -, -, eX', eA', eP, -, sX, sA, sP, -, -, ho⟩ := descent_point hqr hx hxb hm hd ha hab har alpha
  obtain rfl : X' = X := Except.ok.inj (eX'.symm.trans eX)
  obtain rfl : A' = A := Except.ok.inj (eA'.symm.trans eA)
  have h0 : dot X'.shape P.get P.get = 0 := by
    rw [dot_sub] at ho
    have : dot X'.shape (fun i => X'.get i - A'.get i) P.get = 0 := by
      rw [dot_congr (f' := fun _ => 0) (g' := P.get) (fun i hi => by rw [hXA.2 i hi, sub_self]) (fun _ _ => rfl)]
      simp [dot]
    linarith
  obtain ⟨z, X₂, Z, ez, eX₂, eZ, hZ⟩ := C56_stationary hqr hsvd hx hxb hm hd ha hab har hb hrk alpha eg ep eP (by rw [sP]; exact dot_self h0)
  obtain rfl : X₂ = X' := Except.ok.inj (eX₂.symm.trans eX)
  exact ⟨z, Z, ez, eZ, hZ.trans hXA⟩

theorem ofTT_tt {K : Type} [Zero K] (σ : Store K) (t : TT K) : (VObj.ofTT t).tt σ = t := by
  cases t
  simp [VObj.ofTT, VObj.tt, VCore.value, Function.comp_def]

theorem ofTT_separate {K : Type} [Zero K] (t : TT K) (as : List ℕ) : (VObj.ofTT t).Separate as := by
  intro i j a h
  simp [VObj.ofTT] at h

/-- An object that shares no variable with the addresses `as` is not affected by changes there. -/
theorem tt_unchanged {K : Type} [Zero K] {o : VObj K} {as : List ℕ} {σ σ' : Store K} (h : ∀ a ∈ as, VCore.var a ∉ o.cores) (hσ : ∀ a ∉ as, σ'[a]? = σ[a]?) :
    o.tt σ' = o.tt σ := by
  unfold VObj.tt
  congr 1
  refine List.map_congr_left fun c hc => ?_
  cases c with
  | tensor T => rfl
  | var a =>
    have : a ∉ as := fun ha => h a ha hc
    simp only [VCore.value, List.getD_eq_getElem?_getD, hσ a this]

/-- One call of `step`: it succeeds, the variable holds the update, and the returned value is half of the squared distance to `A` after the step. -/
theorem C56_step {qr : QRRoutine} (hqr : qr.Correct) {svd : SVDRoutine} (hsvd : svd.Correct) (σ : Store ℝ) {X A : VObj ℝ} {as : List ℕ} (hv : X.IsVariable σ as)
    (hA : ∀ a ∈ as, VCore.var a ∉ A.cores) (hx : (X.tt σ).WF) (hxb : X.batch = none) (hm : (X.tt σ).ModesPos) (hd : 2 ≤ (X.tt σ).ndims)
    (ha : (A.tt σ).WF) (hab : A.batch = none) (har : A.rawShape = X.rawShape) {m : MaxRank} {b : ℕ → ℕ} (hb : m.Bounds (X.tt σ).ndims b)
    (hfit : (X.tt σ).RanksFit) (hrk : ∀ k, 0 < k → k < (X.tt σ).ndims → (X.tt σ).rank k = b k) (alpha : ℝ) :
    ∃ σ' F z, descentStep qr svd alpha m X A σ = (σ', Except.ok F) ∧ descentUpdate qr svd alpha m (X.tt σ) (A.tt σ) = Except.ok z ∧ X.tt σ' = z ∧
      A.tt σ' = A.tt σ ∧ X.IsVariable σ' as ∧ (∀ a ∉ as, σ'[a]? = σ[a]?) ∧
      ∃ Z D, full z = Except.ok Z ∧ full (A.tt σ) = Except.ok D ∧ F.shape = [] ∧ F.get [] = 0.5 * Z.distSq D [] Z.shape := by
  obtain ⟨g, p, y, Xd, Ad, P, Y, eg, ep, eu, wy, ry, by', ny, rky, -⟩ := descent_point hqr hx hxb hm hd ha hab har alpha
  have hmy : y.ModesPos := by rw [TT.ModesPos, ry]; exact hm
  have hnb : y.isBatch → m.Single := fun h => by rw [TT.isBatch, by'] at h; simp at h
  have hb' : m.Bounds y.ndims b := by rw [ny]; exact hb
  have he : ∀ e ∈ (none : Option ℝ), 0 ≤ e := by simp
  obtain ⟨z, ez, wz, rz, bz, -, -⟩ := C31_ranks hqr hsvd wy hmy hb' hnb he
  obtain ⟨z', ez', hzr⟩ := C56_round_ranks hqr hsvd wy hmy hb' hnb he hx ry.symm hfit
    (fun k h0 h1 => ⟨hrk k h0 (by omega), rky k (by omega)⟩)
  obtain rfl : z' = z := Except.ok.inj (ez'.symm.trans ez)
  have eU : descentUpdate qr svd alpha m (X.tt σ) (A.tt σ) = Except.ok z' := by rw [eu]; exact ez
  have wz' : ((VObj.ofTT z').tt σ).WF := by rw [ofTT_tt]; exact wz
  obtain ⟨σ', r, e, h1, h2, h3, h4, h5⟩ := C48_assign σ X (VObj.ofTT z') as hv hx wz' (ofTT_separate z' as) (bz.trans (by'.trans hxb.symm))
    (rz.trans ry) hzr
  rw [ofTT_tt] at h1 h2
  have hA' : A.tt σ' = A.tt σ := tt_unchanged hA h5
  have hv' : X.IsVariable σ' as := ⟨hv.cores, hv.nodup, fun a h => by rw [h4]; exact hv.inStore a h⟩
  have hrz : z'.rawShape = X.rawShape := rz.trans ry
  have hnz : z'.ndims = (X.tt σ).ndims := ndims_eq_of_rawShape wz hx hrz
  obtain ⟨c, ec, wc, rc, bc, nc, -, vc⟩ := sub_single wz ha (by omega) (har.trans hrz.symm) (bz.trans by') hab
  have hmc : c.ModesPos := by rw [TT.ModesPos, rc, hrz]; exact hm
  obtain ⟨F, C, s, eF, eC, sC, sF, vF⟩ := C13_frobenius_norm_squared hqr wc hmc false
  obtain ⟨Z, eZ, sZ, -⟩ := full_single wz (bz.trans by')
  obtain ⟨D, eD, sD, -⟩ := full_single ha hab
  obtain ⟨C', eC', sC', -⟩ := full_single wc bc
  obtain rfl : C' = C := Except.ok.inj (eC'.symm.trans eC)
  rw [bc] at sC sF vF
  refine ⟨σ', F.map (0.5 * ·), z', ?_, eU, h1, hA', hv', h5, Z, D, eZ, eD, sF, ?_⟩
  · unfold descentStep
    rw [eU]
    simp only []
    rw [e]
    simp only []
    rw [h1, hA', ec, R.ok_bind, eF, R.ok_bind]
    rfl
  · have hs : s = Z.shape := by
      have : C'.shape = s := sC
      rw [← this, sC', sZ, rc]
    subst hs
    change 0.5 * F.get [] = _
    rw [vF [] trivial, Tensor.distSq]
    congr 1
    refine Finset.sum_congr rfl fun n hn => ?_
    have := unravel_valid (Finset.mem_range.1 hn)
    rw [List.nil_append, vc Z D C' eZ eD eC' _ (by rw [← sZ]; exact this)]

/-- The loop of the tutorial never fails, for any number of iterations, any step size, and any correct QR and SVD routines, if the ranks of the initial value are the
bounds and fit to each other. Shape and ranks are kept, `A` and all other variables are not changed. -/
theorem C56_loop {qr : QRRoutine} (hqr : qr.Correct) {svd : SVDRoutine} (hsvd : svd.Correct) (σ : Store ℝ) {X A : VObj ℝ} {as : List ℕ} (hv : X.IsVariable σ as)
    (hA : ∀ a ∈ as, VCore.var a ∉ A.cores) (hx : (X.tt σ).WF) (hxb : X.batch = none) (hm : (X.tt σ).ModesPos) (hd : 2 ≤ (X.tt σ).ndims)
    (ha : (A.tt σ).WF) (hab : A.batch = none) (har : A.rawShape = X.rawShape) {m : MaxRank} {b : ℕ → ℕ} (hb : m.Bounds (X.tt σ).ndims b)
    (hfit : (X.tt σ).RanksFit) (hrk : ∀ k, 0 < k → k < (X.tt σ).ndims → (X.tt σ).rank k = b k) (alpha : ℝ) (n : ℕ) :
    ∃ σ' log, descentLoop qr svd alpha m X A σ n = (σ', Except.ok log) ∧ log.length = n ∧ (X.tt σ').WF ∧ A.tt σ' = A.tt σ ∧ X.IsVariable σ' as ∧
      ∀ a ∉ as, σ'[a]? = σ[a]? := by
  induction n with
  | zero => exact ⟨σ, [], rfl, rfl, hx, rfl, hv, fun _ _ => rfl⟩
  | succ n ih =>
    obtain ⟨σ', log, e, hl, hw, hA', hv', hσ⟩ := ih
    have hn : (X.tt σ').ndims = (X.tt σ).ndims := by simp [VObj.tt, TT.ndims]
    have ha' : (A.tt σ').WF := by rw [hA']; exact ha
    obtain ⟨σ'', F, z, e', ez, hX, hA'', hv'', hσ', -⟩ := C56_step hqr hsvd σ' hv' hA hw hxb hm (by omega) ha' hab har
      (by rw [hn]; exact hb) (fun k hk => hfit k (by omega)) (fun k h0 h1 => hrk k h0 (by omega)) alpha
    obtain ⟨-, -, z', -, -, -, -, -, -, ez', wz, -⟩ := C56_update hqr hsvd hw hxb hm (by omega) ha' hab har
      (by rw [hn]; exact hb) alpha
    obtain rfl : z' = z := Except.ok.inj (ez'.symm.trans ez)
    refine ⟨σ'', log ++ [F], ?_, by simp [hl], by rw [hX]; exact wz, hA''.trans hA', hv'', fun a h => (hσ' a h).trans (hσ a h)⟩
    rw [descentLoop, e]
    simp only []
    rw [e']

theorem lrRank_le_prod (N r : ℕ → ℕ) (k : ℕ) : lrRank N r k ≤ ∏ j ∈ Finset.range k, N j := by
  induction k with
  | zero => simp [lrRank]
  | succ k ih =>
    rw [lrRank, Finset.prod_range_succ]
    exact (min_le_left _ _).trans (Nat.mul_le_mul_right _ ih)

theorem rdRank_le_prod {bd N r : ℕ → ℕ} {d : ℕ} (hb : ∀ k ≤ d, 0 < bd k) (hN : ∀ k < d, 0 < N k) (hr : ∀ k ≤ d, 0 < r k) (m k : ℕ) (h0 : 0 < k) (hk : k + m = d) :
    rdRank bd N r d k ≤ ∏ j ∈ Finset.Ico k d, N j := by
  induction m generalizing k with
  | zero =>
    obtain rfl : k = d := hk
    rw [rdRank_last]
    simp
  | succ m ih =>
    rw [rdRank_step _ _ _ h0 (by omega), Finset.prod_eq_prod_Ico_succ_bot (by omega)]
    have h1 := rdRank_pos hb hN hr (k := k + 1) (by omega)
    refine (keptRank_le_min (hr k (by omega)) (Nat.mul_pos (hN k (by omega)) h1)).trans ((min_le_right _ _).trans ?_)
    exact Nat.mul_le_mul_left _ (ih (k + 1) (by omega) (by omega))

/-- If a rank of `X` exceeds the number of rows or of columns of the unfolding (as happens for `random_tensor` with a large rank), `step` raises ValueError: the
rounded tensor has smaller ranks and cannot be assigned to `X`. -/
theorem C56_large_ranks {qr : QRRoutine} (hqr : qr.Correct) {svd : SVDRoutine} (hsvd : svd.Correct) (σ : Store ℝ) {X A : VObj ℝ} {as : List ℕ}
    (hv : X.IsVariable σ as) (hx : (X.tt σ).WF) (hxb : X.batch = none) (hm : (X.tt σ).ModesPos) (hd : 2 ≤ (X.tt σ).ndims)
    (ha : (A.tt σ).WF) (hab : A.batch = none) (har : A.rawShape = X.rawShape) {m : MaxRank} {b : ℕ → ℕ} (hb : m.Bounds (X.tt σ).ndims b) (alpha : ℝ)
    {k : ℕ} (h0 : 0 < k) (hk : k < (X.tt σ).ndims)
    (hlarge : ∏ j ∈ Finset.range k, ((X.tt σ).modes j).prod < (X.tt σ).rank k ∨
      ∏ j ∈ Finset.Ico k (X.tt σ).ndims, ((X.tt σ).modes j).prod < (X.tt σ).rank k) :
    ∃ σ', descentStep qr svd alpha m X A σ = (σ', Except.error Err.value) := by
  obtain ⟨g, p, y, Xd, Ad, P, Y, eg, ep, eu, wy, ry, by', ny, rky, -⟩ := descent_point hqr hx hxb hm hd ha hab har alpha
  have hmy : y.ModesPos := by rw [TT.ModesPos, ry]; exact hm
  have hnb : y.isBatch → m.Single := fun h => by rw [TT.isBatch, by'] at h; simp at h
  have hb' : m.Bounds y.ndims b := by rw [ny]; exact hb
  have he : ∀ e ∈ (none : Option ℝ), 0 ≤ e := by simp
  obtain ⟨l, el, hl, hlb, hpos⟩ := maxRanks_ok hb' he
  obtain ⟨z, e, wz, rz, bz, nz, rk, -⟩ := roundWith_spec hqr hsvd wy hmy hl hpos
  have ez : ttRound qr svd y m none = Except.ok z := by rw [ttRound_eq hnb, el]; exact e
  have hN : ∀ j, ((X.tt σ).modes j).prod = y.N j := fun j => by simp [TT.N, TT.modes, ry]
  have hNp : ∀ k < y.ndims, 0 < y.N k := fun k hk => modes_pos wy hmy hk
  have hne : z.rank k ≠ (X.tt σ).rank k := by
    rw [rk k (by omega)]
    simp only [hN] at hlarge
    rcases hlarge with h | h
    · have h1 : rdRank (fun k => l.getD k 0) y.N (lrRank y.N y.rank) y.ndims k ≤ lrRank y.N y.rank k := by
        rw [rdRank_step _ _ _ h0 (by omega)]
        refine (keptRank_le_min (lrRank_pos hNp wy.rank_pos (by omega)) (Nat.mul_pos (hNp k (by omega)) ?_)).trans (min_le_left _ _)
        exact rdRank_pos hpos hNp (fun k hk => lrRank_pos hNp wy.rank_pos hk) (by omega)
      have := lrRank_le_prod y.N y.rank k
      omega
    · have := rdRank_le_prod (r := lrRank y.N y.rank) hpos hNp (fun k hk => lrRank_pos hNp wy.rank_pos hk) (y.ndims - k) k h0 (by omega)
      rw [ny] at this ⊢
      omega
  have eU : descentUpdate qr svd alpha m (X.tt σ) (A.tt σ) = Except.ok z := by rw [eu]; exact ez
  have wz' : ((VObj.ofTT z).tt σ).WF := by rw [ofTT_tt]; exact wz
  have hlen : (VObj.ofTT z).cores.length = X.cores.length := by
    have h1 : z.ndims = (X.tt σ).ndims := nz.trans ny
    simpa [VObj.ofTT, TT.ndims, VObj.tt] using h1
  have hrz : z.rawShape = X.rawShape := rz.trans ry
  have hbz : z.batch = X.batch := bz.trans (by'.trans hxb.symm)
  obtain ⟨σ', n, h1, h2, h3, -⟩ := C48_assign_error σ X (VObj.ofTT z) as hv hx wz' (ofTT_separate z as) (by rw [show (VObj.ofTT z).batch = z.batch from rfl, hbz])
    (by rw [ofTT_tt, TT.isMatrix, TT.isMatrix, hrz]; rfl) hlen.le (by
      rintro ⟨-, -, h⟩
      exact hne (congrArg (fun l : List ℕ => l.getD k 0) h))
  rw [if_pos (by omega)] at h3
  refine ⟨σ', ?_⟩
  unfold descentStep
  rw [eU]
  simp only []
  rw [h3]

/-- The matrix with the only nonzero element 20 in the corner, as a tensor of rank one. -/
def exCorner : TT ℤ where
  cores := [.ofList [1, 2, 1] [20, 0], .ofList [1, 2, 1] [1, 0]]
  rawShape := [[2, 2]]
  ttRanks := [1, 1, 1]
  batch := none

/-- The matrix `((20, 20), (20, -2000))`. -/
def exFar : TT ℤ where
  cores := [.ofList [1, 2, 2] [1, 0, 0, 1], .ofList [2, 2, 1] [20, 20, 20, -2000]]
  rawShape := [[2, 2]]
  ttRanks := [1, 2, 1]
  batch := none

/-- The matrix `((25, 15), (15, 9))`. -/
def exNear : TT ℤ where
  cores := [.ofList [1, 2, 1] [5, 3], .ofList [1, 2, 1] [5, 3]]
  rawShape := [[2, 2]]
  ttRanks := [1, 1, 1]
  batch := none

theorem exCorner_wf : exCorner.toReal.WF := TT.WF.toReal (by decide)
theorem exFar_wf : exFar.toReal.WF := TT.WF.toReal (by decide)
theorem exNear_wf : exNear.toReal.WF := TT.WF.toReal (by decide)

theorem exCorner_entry (i j : ℕ) (hi : i < 2) (hj : j < 2) : exCorner.toReal.dense.get [i, j] = if i = 0 ∧ j = 0 then 20 else 0 := by
  interval_cases i <;> interval_cases j <;>
    simp [TT.dense, TT.decode, TT.entry, TT.toReal, exCorner, TT.isMatrix, TT.bpre, TT.ndims, lprod, TT.slice, TT.core, TT.rank, tIdx, Tensor.map,
      Tensor.ofList, ravel]

theorem exFar_entry (i j : ℕ) (hi : i < 2) (hj : j < 2) : exFar.toReal.dense.get [i, j] = if i = 1 ∧ j = 1 then -2000 else 20 := by
  interval_cases i <;> interval_cases j <;>
    simp [TT.dense, TT.decode, TT.entry, TT.toReal, exFar, TT.isMatrix, TT.bpre, TT.ndims, lprod, TT.slice, TT.core, TT.rank, tIdx, Tensor.map,
      Tensor.ofList, ravel, Finset.sum_range_succ]

theorem exNear_entry (i j : ℕ) (hi : i < 2) (hj : j < 2) :
    exNear.toReal.dense.get [i, j] = (if i = 0 then 5 else 3) * (if j = 0 then 5 else 3) := by
  interval_cases i <;> interval_cases j <;>
    simp [TT.dense, TT.decode, TT.entry, TT.toReal, exNear, TT.isMatrix, TT.bpre, TT.ndims, lprod, TT.slice, TT.core, TT.rank, tIdx, Tensor.map,
      Tensor.ofList, ravel]

theorem exCorner_minimal : exCorner.toReal.MinimalRanks := by
  intro s hs hb hr he k hk
  have hk : k ≤ 2 := hk
  have hn : s.ndims = 2 := ndims_of_rows hs exCorner_wf hr
  have hpos := hs.rank_pos k (by omega)
  interval_cases k <;> exact hpos

theorem exCorner_nonzero : exCorner.toReal.Nonzero :=
  ⟨[0, 0], by simp [TT.dense, TT.denseShape, TT.toReal, exCorner, TT.isMatrix, TT.bpre, Valid], by rw [exCorner_entry 0 0 (by omega) (by omega)]; simp⟩

/-- Tangent vectors at the corner matrix: the last element is zero, the others are arbitrary. -/
theorem exCorner_tangent (f : List ℕ → ℝ) : exCorner.toReal.TangentVector f ↔ f [1, 1] = 0 := by
  have hs : exCorner.toReal.dense.shape = [2, 2] := rfl
  have hn : exCorner.toReal.ndims = 2 := rfl
  have e : ∀ (D : ℕ → List ℕ → ℕ → ℕ → ℝ) (i j : ℕ), i < 2 → j < 2 → ∑ k ∈ Finset.range 2, exCorner.toReal.replaceCore k (D k) [i, j] =
      D 0 [i] 0 0 * (if j = 0 then 1 else 0) + (if i = 0 then 20 else 0) * D 1 [j] 0 0 := by
    intro D i j hi hj
    interval_cases i <;> interval_cases j <;>
      simp [TT.replaceCore, TT.decode, TT.toReal, exCorner, TT.isMatrix, TT.bpre, TT.ndims, lprod, TT.slice, TT.core, TT.rank, tIdx, Tensor.map,
        Tensor.ofList, ravel, Finset.sum_range_succ]
  constructor
  · rintro ⟨D, h⟩
    rw [h [1, 1] (by rw [hs]; simp [Valid]), hn, e D 1 1 (by omega) (by omega)]
    simp
  · intro h
    refine ⟨fun k m _ _ => if k = 0 then f (m ++ [0]) else if m = [0] then 0 else f (0 :: m) / 20, fun i hi => ?_⟩
    rw [hs] at hi
    obtain ⟨x, y, rfl, hx, hy⟩ := (valid_pair _ _ _).1 hi
    rw [hn, e _ x y hx hy]
    interval_cases x <;> interval_cases y <;> (simp [h]; try ring)

theorem sum_four (f : List ℕ → ℝ) : ∑ n ∈ Finset.range [2, 2].prod, f (unravel [2, 2] n) = f [0, 0] + f [0, 1] + f [1, 0] + f [1, 1] := by
  simp [Finset.sum_range_succ, unravel]

/-- The functional may increase: there are `X` within the rank bounds and `A` so that one step of the tutorial (step size one) leads farther away from `A`, for all
correct QR and SVD routines. -/
theorem C56_may_increase : ∃ x a : TT ℝ, x.WF ∧ a.WF ∧ x.batch = none ∧ a.batch = none ∧ a.rawShape = x.rawShape ∧ x.ModesPos ∧ x.RanksFit ∧ x.rank 1 = 1 ∧
    ∀ (qr : QRRoutine) (svd : SVDRoutine), qr.Correct → svd.Correct →
      ∃ z X A Z, descentUpdate qr svd 1 (.num 1) x a = Except.ok z ∧ full x = Except.ok X ∧ full a = Except.ok A ∧ full z = Except.ok Z ∧
        X.distSq A [] X.shape < Z.distSq A [] X.shape := by
  have hm : exCorner.toReal.ModesPos := by simp [TT.ModesPos, TT.toReal, exCorner]
  refine ⟨exCorner.toReal, exFar.toReal, exCorner_wf, exFar_wf, rfl, rfl, rfl, hm, ?_, rfl, fun qr svd hqr hsvd => ?_⟩
  · intro k hk
    have hk : k < 2 := hk
    interval_cases k <;> decide
  obtain ⟨g, p, z, X, A, P, Z, eg, ep, ez, wz, rz, bz, rk, eX, eA, eP, eZ, sA, sP, sZ, h1, h2⟩ := C56_update hqr hsvd exCorner_wf rfl hm le_rfl exFar_wf rfl rfl
    (m := .num 1) (b := fun _ => 1) (Or.inl ⟨1, le_rfl, Or.inl rfl, fun _ => rfl⟩) 1
  obtain ⟨c, ec, wc, rc, bc, nc, -, vc⟩ := sub_single exCorner_wf exFar_wf le_rfl rfl rfl rfl
  obtain rfl : c = g := Except.ok.inj (ec.symm.trans eg)
  obtain ⟨p', P', G, ep', -, -, -, -, eP', eG, sPG, hpr⟩ := C37_project hqr exCorner_wf rfl hm le_rfl exCorner_minimal exCorner_nonzero wc rc
  obtain rfl : p' = p := Except.ok.inj (ep'.symm.trans ep)
  obtain rfl : P' = P := Except.ok.inj (eP'.symm.trans eP)
  obtain ⟨X', eX', sX, vX⟩ := full_single exCorner_wf rfl
  obtain ⟨A', eA', -, vA⟩ := full_single exFar_wf rfl
  obtain rfl : X' = X := Except.ok.inj (eX'.symm.trans eX)
  obtain rfl : A' = A := Except.ok.inj (eA'.symm.trans eA)
  have hs : X'.shape = [2, 2] := sX
  obtain ⟨S, eS, hS⟩ := full_dense exNear_wf
  have val : ∀ (t : TT ℝ) (T : Tensor ℝ), t.WF → t.dense.shape = [2, 2] → full t = Except.ok T → ∀ i < 2, ∀ j < 2, T.get [i, j] = t.dense.get [i, j] := by
    intro t T ht hst eT i hi j hj
    obtain ⟨T', eT', hT⟩ := full_dense ht
    obtain rfl : T' = T := Except.ok.inj (eT'.symm.trans eT)
    exact hT.2 _ (by rw [hT.1, hst]; simp [Valid, hi, hj])
  have hX : ∀ i < 2, ∀ j < 2, X'.get [i, j] = if i = 0 ∧ j = 0 then 20 else 0 := fun i hi j hj => by
    rw [val _ _ exCorner_wf rfl eX i hi j hj, exCorner_entry i j hi hj]
  have hA : ∀ i < 2, ∀ j < 2, A'.get [i, j] = if i = 1 ∧ j = 1 then -2000 else 20 := fun i hi j hj => by
    rw [val _ _ exFar_wf rfl eA i hi j hj, exFar_entry i j hi hj]
  have hSv : ∀ i < 2, ∀ j < 2, S.get [i, j] = (if i = 0 then 5 else 3) * (if j = 0 then 5 else 3) := fun i hi j hj => by
    rw [val _ _ exNear_wf rfl eS i hi j hj, exNear_entry i j hi hj]
  have hG : ∀ i < 2, ∀ j < 2, G.get [i, j] = X'.get [i, j] - A'.get [i, j] := fun i hi j hj =>
    vc X' A' G eX eA eG [i, j] (by rw [← sX, hs]; simp [Valid, hi, hj])
  have hcp : c.bpre = [] := by simp [TT.bpre, bc]
  obtain ⟨t1, t2⟩ := hpr [] (by rw [hcp]; trivial)
  rw [exCorner_tangent] at t1
  simp only [List.nil_append] at t1 t2
  have hP : ∀ i < 2, ∀ j < 2, P'.get [i, j] = if i = j then 0 else -20 := by
    intro i hi j hj
    have h3 := t2 (fun l => if l = [i, j] then (if i = 1 ∧ j = 1 then 0 else 1) else 0) ((exCorner_tangent _).2 (by
      by_cases h : i = 1 ∧ j = 1
      · rw [if_pos (by rw [h.1, h.2]), if_pos h]
      · rw [if_neg (by simp; omega)]))
    rw [show exCorner.toReal.dense.shape = [2, 2] from rfl, dot, sum_four (fun l => (G.get l - P'.get l) * (if l = [i, j] then (if i = 1 ∧ j = 1 then 0 else 1) else 0))] at h3
    rw [hG 0 (by omega) 0 (by omega), hG 0 (by omega) 1 (by omega), hG 1 (by omega) 0 (by omega), hG 1 (by omega) 1 (by omega),
      hX 0 (by omega) 0 (by omega), hX 0 (by omega) 1 (by omega), hX 1 (by omega) 0 (by omega), hX 1 (by omega) 1 (by omega),
      hA 0 (by omega) 0 (by omega), hA 0 (by omega) 1 (by omega), hA 1 (by omega) 0 (by omega), hA 1 (by omega) 1 (by omega), t1] at h3
    interval_cases i <;> interval_cases j <;> simp at h3 ⊢ <;> linarith
  have hz1 : z.rank 1 = 1 := by
    have hn : z.ndims = 2 := ndims_of_rows wz exCorner_wf rz
    have := rk 1 (by omega) (by decide)
    have := wz.rank_pos 1 (by omega)
    omega
  obtain ⟨Z', eZ', sZ', vZ⟩ := full_single wz bz
  obtain rfl : Z' = Z := Except.ok.inj (eZ'.symm.trans eZ)
  have hn : z.ndims = 2 := ndims_of_rows wz exCorner_wf rz
  have hZ : ∀ i < 2, ∀ j < 2, Z'.get [i, j] = (z.core 0).get [0, i, 0] * (z.core 1).get [0, j, 0] := by
    intro i hi j hj
    have hr' : z.rawShape = [[2, 2]] := rz
    rw [vZ [i, j] (by rw [← sZ', sZ, hs]; simp [Valid, hi, hj]), restModes, if_neg (by simp [hr'])]
    simp [TT.entry, hn, lprod, hz1, wz.rank_first, TT.slice, tIdx]
  have h4 := h2 exNear.toReal S exNear_wf rfl rfl (fun k h0 h1 => by
    have : k < 2 := h1
    obtain rfl : k = 1 := by omega
    exact le_rfl) eS
  refine ⟨z, X', A', Z', ez, eX, eA, eZ, ?_⟩
  rw [hs] at h4 ⊢
  rw [show exCorner.toReal.ndims - 1 = 1 from rfl] at h4
  have ed : ∀ T U : Tensor ℝ, T.distSq U [] [2, 2] = (T.get [0, 0] - U.get [0, 0]) ^ 2 + (T.get [0, 1] - U.get [0, 1]) ^ 2 +
      (T.get [1, 0] - U.get [1, 0]) ^ 2 + (T.get [1, 1] - U.get [1, 1]) ^ 2 := fun T U => by
    have := sum_four (fun l => (T.get l - U.get l) ^ 2)
    simpa [Tensor.distSq] using this
  rw [ed, ed] at h4 ⊢
  simp only [Tensor.move] at h4
  rw [hX 0 (by omega) 0 (by omega), hX 0 (by omega) 1 (by omega), hX 1 (by omega) 0 (by omega), hX 1 (by omega) 1 (by omega)] at h4 ⊢
  rw [hA 0 (by omega) 0 (by omega), hA 0 (by omega) 1 (by omega), hA 1 (by omega) 0 (by omega), hA 1 (by omega) 1 (by omega)]
  rw [hP 0 (by omega) 0 (by omega), hP 0 (by omega) 1 (by omega), hP 1 (by omega) 0 (by omega), hP 1 (by omega) 1 (by omega),
    hSv 0 (by omega) 0 (by omega), hSv 0 (by omega) 1 (by omega), hSv 1 (by omega) 0 (by omega), hSv 1 (by omega) 1 (by omega)] at h4
  have hdet : Z'.get [0, 0] * Z'.get [1, 1] = Z'.get [0, 1] * Z'.get [1, 0] := by
    rw [hZ 0 (by omega) 0 (by omega), hZ 0 (by omega) 1 (by omega), hZ 1 (by omega) 0 (by omega), hZ 1 (by omega) 1 (by omega)]
    ring
  generalize Z'.get [0, 0] = w at *
  generalize Z'.get [0, 1] = q at *
  generalize Z'.get [1, 0] = r at *
  generalize Z'.get [1, 1] = t at *
  norm_num at h4 ⊢
  have q1 : 7 < q := by nlinarith [sq_nonneg (20 - w), sq_nonneg (20 - r), sq_nonneg t, sq_nonneg (20 - q)]
  have r1 : 7 < r := by nlinarith [sq_nonneg (20 - w), sq_nonneg (20 - q), sq_nonneg t, sq_nonneg (20 - r)]
  have w1 : 7 < w := by nlinarith [sq_nonneg (20 - q), sq_nonneg (20 - r), sq_nonneg t, sq_nonneg (20 - w)]
  have w2 : w < 33 := by nlinarith [sq_nonneg (20 - q), sq_nonneg (20 - r), sq_nonneg t, sq_nonneg (20 - w)]
  have t1 : 1 < t := by
    by_contra h
    push Not at h
    have h5 : 49 < q * r := by nlinarith
    nlinarith
  nlinarith [sq_nonneg (w - 20), sq_nonneg (q - 20), sq_nonneg (r - 20)]

/-- The variable `X` of the example: the identity matrix, of rank two. -/
def exVarEye : VObj ℝ := ⟨[.var 0, .var 1], [[2, 2]], [1, 2, 1], none⟩

/-- The hypotheses of `C56_step` and `C56_loop` hold for a rank two variable and `max_tt_rank=2`. -/
example : exVarEye.IsVariable exEye2.toReal.cores [0, 1] ∧ (∀ a ∈ [0, 1], VCore.var a ∉ (VObj.ofTT exFar.toReal).cores) ∧
    (exVarEye.tt exEye2.toReal.cores).WF ∧ exVarEye.batch = none ∧ (exVarEye.tt exEye2.toReal.cores).ModesPos ∧ 2 ≤ (exVarEye.tt exEye2.toReal.cores).ndims ∧
    ((VObj.ofTT exFar.toReal).tt exEye2.toReal.cores).WF ∧ (VObj.ofTT exFar.toReal).batch = none ∧ (VObj.ofTT exFar.toReal).rawShape = exVarEye.rawShape ∧
    (MaxRank.num 2).Bounds (exVarEye.tt exEye2.toReal.cores).ndims (fun _ => 2) ∧ (exVarEye.tt exEye2.toReal.cores).RanksFit ∧
    (∀ k, 0 < k → k < (exVarEye.tt exEye2.toReal.cores).ndims → (exVarEye.tt exEye2.toReal.cores).rank k = 2) ∧
    (∃ qr : QRRoutine, qr.Correct) ∧ ∃ svd : SVDRoutine, svd.Correct := by
  have e : exVarEye.tt exEye2.toReal.cores = exEye2.toReal := rfl
  rw [e, ofTT_tt]
  refine ⟨⟨rfl, by decide, by simp [TT.toReal, exEye2]⟩, by simp [VObj.ofTT], exEye2_wf, rfl, by simp [TT.ModesPos, TT.toReal, exEye2], le_rfl, exFar_wf, rfl,
    rfl, Or.inl ⟨2, by omega, Or.inl rfl, fun _ => rfl⟩, fun k hk => ?_, fun k h0 hk => ?_, qrRoutine_exists, svdRoutine_exists⟩
  · have hk : k < 2 := hk
    interval_cases k <;> decide
  · have hk : k < 2 := hk
    obtain rfl : k = 1 := by omega
    rfl

/-- The hypotheses of `C56_update`, `C56_stationary` and `C56_target` hold; those of `C56_error` with the roles exchanged. -/
example : exCorner.toReal.WF ∧ exCorner.toReal.ModesPos ∧ 2 ≤ exCorner.toReal.ndims ∧ exFar.toReal.WF ∧ exFar.toReal.rawShape = exCorner.toReal.rawShape ∧
    (MaxRank.num 1).Bounds exCorner.toReal.ndims (fun _ => 1) ∧ (∀ k, 0 < k → k < exCorner.toReal.ndims → exCorner.toReal.rank k ≤ 1) := by
  refine ⟨exCorner_wf, by simp [TT.ModesPos, TT.toReal, exCorner], le_rfl, exFar_wf, rfl, Or.inl ⟨1, le_rfl, Or.inl rfl, fun _ => rfl⟩, fun k h0 hk => ?_⟩
  have hk : k < 2 := hk
  obtain rfl : k = 1 := by omega
  exact le_rfl

/-- A tensor of shape `2 × 2` with rank three: `C56_large_ranks` applies. -/
def exLargeRank : TT ℤ where
  cores := [.ofList [1, 2, 3] [1, 0, 0, 0, 1, 0], .ofList [3, 2, 1] [1, 0, 0, 1, 0, 0]]
  rawShape := [[2, 2]]
  ttRanks := [1, 3, 1]
  batch := none

example : exLargeRank.toReal.WF ∧ ∏ j ∈ Finset.range 1, (exLargeRank.toReal.modes j).prod < exLargeRank.toReal.rank 1 :=
  ⟨TT.WF.toReal (by decide), by simp [TT.modes, TT.toReal, exLargeRank, TT.rank]⟩

end T3f
