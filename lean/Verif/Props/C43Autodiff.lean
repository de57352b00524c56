import Verif.Proofs.AutodiffError
import Verif.Props.C42Deltas
import Verif.Model.Inner
import Verif.Proofs.Inner

/-!
# C43: Riemannian gradients and Hessian products

`ad` is any routine that returns correct derivatives (`Tf/Autodiff.lean`); `qr` is any correct QR routine. `func` is a function of a TT-object that depends on its
elements only: `func y` is `φ` of the elements of `y` (`Spec/Autodiff.lean`). `g` is the gradient of `φ` in the elements.
-/

namespace T3f

/-- C43: `gradients(func, x)` is the orthogonal projection of the gradient of `func` on the tangent space at `x`. With the runtime check the value of
`func` at `x` must not be zero. -/
theorem C43_gradient {qr : QRRoutine} (hqr : qr.Correct) {ad : GradRoutine} (had : ad.Correct) {x : TT ℝ} (h : x.WF) (hb : x.batch = none)
    (hm : x.ModesPos) (hd : 2 ≤ x.ndims) (hmin : x.MinimalRanks) (hne : x.Nonzero) {func : TT ℝ → R ℝ} {φ : (List ℕ → ℝ) → ℝ}
    (hf : ElementFunction x func φ) {X : Tensor ℝ} (eX : full x = Except.ok X) {g : List ℕ → ℝ} (hg : GradAt x.dense.shape φ X.get g)
    {check : Bool} (hc : check = true → φ X.get ≠ 0) :
    ∃ y Y, gradients qr ad func x check = Except.ok y ∧ y.WF ∧ y.rawShape = x.rawShape ∧ y.batch = none ∧
      (∀ k, 0 < k → k < x.ndims → y.rank k = 2 * x.rank k) ∧ full y = Except.ok Y ∧ Y.shape = X.shape ∧ x.TangentVector Y.get ∧
      ∀ f, x.TangentVector f → dot x.dense.shape (fun i => g i - Y.get i) f = 0 := by
  obtain ⟨left, right, hl, hr, -, -, hk⟩ := C42_minimal hqr h hb hm hd hmin
  obtain ⟨_, F⟩ := frame_of hqr h hb hm hl hr
  obtain ⟨y, D, e, T, yb, Y, eY, sY, mY, oY⟩ := gradients_ok had F hl hr h hb hd (fun k hk' => (hk k hk').2.trans (hk k hk').1.symm) hf eX hg hc
  obtain ⟨X', eX', sX, _⟩ := full_single h hb
  obtain rfl : X' = X := Except.ok.inj (eX'.symm.trans eX)
  refine ⟨y, Y, e, T.tan.wf, T.tan.rows.trans F.rl, yb, fun k h0 h1 => ?_, eY, sY.trans sX.symm, (frame_tangent F h hb hmin hne _).1 mY, fun f hf' => ?_⟩
  · rw [T.tan.rank k (by rw [F.nl]; omega), F.nl, addRk, if_neg (by omega), (hk k h1.le).1, (hk k h1.le).2, two_mul]
  · rw [dense_shape_single hb, dot_sub, oY f ((frame_tangent F h hb hmin hne f).2 hf'), sub_self]

/-- C43: `gradients(func, x)` is what `project` returns for the gradient, if the two orthogonalizations of `x` have the same ranks (they do if `x` has minimal
ranks). -/
theorem C43_project {qr : QRRoutine} (hqr : qr.Correct) {ad : GradRoutine} (had : ad.Correct) {x left right : TT ℝ} (h : x.WF) (hb : x.batch = none)
    (hm : x.ModesPos) (hd : 2 ≤ x.ndims) (hl : orthogonalize qr x true = Except.ok left) (hr : orthogonalize qr left false = Except.ok right)
    (hk : ∀ k, 0 < k → k < x.ndims → right.rank k = left.rank k) {func : TT ℝ → R ℝ} {φ : (List ℕ → ℝ) → ℝ} (hf : ElementFunction x func φ)
    {X : Tensor ℝ} (eX : full x = Except.ok X) {z : TT ℝ} (hz : z.WF) (hzb : z.batch = none) (hzr : z.rawShape = x.rawShape) {Z : Tensor ℝ}
    (eZ : full z = Except.ok Z) (hg : GradAt x.dense.shape φ X.get Z.get) {check : Bool} (hc : check = true → φ X.get ≠ 0) :
    ∃ y w Y W, gradients qr ad func x check = Except.ok y ∧ project qr z x = Except.ok w ∧ y.ttRanks = w.ttRanks ∧
      full y = Except.ok Y ∧ full w = Except.ok W ∧ Y ≃ₜ W := by
  obtain ⟨hF, F⟩ := frame_of hqr h hb hm hl hr
  have hk' : ∀ k ≤ x.ndims, right.rank k = left.rank k := fun k hk' => by
    rcases Nat.eq_zero_or_pos k with rfl | h0
    · rw [F.wr.rank_first, F.wl.rank_first]
    · rcases hk'.lt_or_eq with h1 | rfl
      · exact hk k h0 h1
      · have h1 := F.wr.rank_last
        have h2 := F.wl.rank_last
        rw [F.nr] at h1; rw [F.nl] at h2
        rw [h1, h2]
  obtain ⟨y, D, e, T, yb, Y, eY, sY, mY, oY⟩ := gradients_ok had F hl hr h hb hd hk' hf eX hg hc
  obtain ⟨w, W, Z', e', ww, rs, b, rk, eW, eZ', sW, sZ, hv⟩ := project_frame h hb hd hF F hz hzr
  obtain rfl : Z' = Z := Except.ok.inj (eZ'.symm.trans eZ)
  have hzp : z.bpre = [] := by simp [TT.bpre, hzb]
  rw [hzp] at hv sZ
  obtain ⟨mW, oW⟩ := hv [] trivial
  refine ⟨y, w, Y, W, e, e', ?_, eY, eW, sY.trans (sZ.symm.trans sW.symm), fun i hi => ?_⟩
  · have hnw : w.ndims = x.ndims := ndims_of_rows ww h rs
    have hny : y.ndims = x.ndims := T.tan.nd.trans F.nl
    rw [T.tan.wf.ranks_eq, ww.ranks_eq, hny, hnw]
    refine List.map_congr_left fun k hk1 => ?_
    replace hk1 : k ≤ x.ndims := by rw [List.mem_range] at hk1; omega
    rw [T.tan.rank k (by rw [F.nl]; exact hk1), F.nl, addRk]
    split_ifs with hc'
    · rcases hc' with rfl | rfl
      · exact ww.rank_first.symm
      · rw [← hnw]; exact ww.rank_last.symm
    · exact (rk k (by omega) (by omega)).symm
  · rw [sY] at hi
    refine proj_unique (z := Z'.get) mY mW (fun f hf' => ?_) oW i hi
    rw [dot_sub, oY f hf', sub_self]

/-- C43: `hessian_vector_product(func, x, z)` is the orthogonal projection, on the tangent space at `x`, of the product of the Hessian of `func` and the
projection of `z`. -/
theorem C43_hessian {qr : QRRoutine} (hqr : qr.Correct) {ad : GradRoutine} (had : ad.Correct) {x z : TT ℝ} (h : x.WF) (hb : x.batch = none)
    (hm : x.ModesPos) (hd : 2 ≤ x.ndims) (hmin : x.MinimalRanks) (hne : x.Nonzero) {func : TT ℝ → R ℝ} {φ : (List ℕ → ℝ) → ℝ}
    (hf : ElementFunction x func φ) {X : Tensor ℝ} (eX : full x = Except.ok X) {grad H : (List ℕ → ℝ) → List ℕ → ℝ}
    (hH : HessAt x.dense.shape φ grad X.get H) {check : Bool} (hc : check = true → φ X.get ≠ 0) (hz : z.WF) (hzb : z.batch = none)
    (hzr : z.rawShape = x.rawShape) :
    ∃ p P y Y, project qr z x = Except.ok p ∧ full p = Except.ok P ∧ hessianVectorProduct qr ad func x z check = Except.ok y ∧ y.WF ∧
      y.rawShape = x.rawShape ∧ y.batch = none ∧ (∀ k, 0 < k → k < x.ndims → y.rank k = 2 * x.rank k) ∧ full y = Except.ok Y ∧ Y.shape = X.shape ∧
      x.TangentVector Y.get ∧ ∀ f, x.TangentVector f → dot x.dense.shape (fun i => H P.get i - Y.get i) f = 0 := by
  obtain ⟨left, right, hl, hr, -, -, hk⟩ := C42_minimal hqr h hb hm hd hmin
  obtain ⟨hF, F⟩ := frame_of hqr h hb hm hl hr
  obtain ⟨p, P, -, ep, -, -, -, -, eP, -⟩ := project_frame h hb hd hF F hz hzr
  obtain ⟨y, D, e, T, yb, Y, eY, sY, mY, oY⟩ := hessian_ok had F hF h hb hd (fun k hk' => (hk k hk').2.trans (hk k hk').1.symm) hf eX hH hc hz hzb hzr ep eP
  obtain ⟨X', eX', sX, _⟩ := full_single h hb
  obtain rfl : X' = X := Except.ok.inj (eX'.symm.trans eX)
  refine ⟨p, P, y, Y, ep, eP, e, T.tan.wf, T.tan.rows.trans F.rl, yb, fun k h0 h1 => ?_, eY, sY.trans sX.symm,
    (frame_tangent F h hb hmin hne _).1 mY, fun f hf' => ?_⟩
  · rw [T.tan.rank k (by rw [F.nl]; omega), F.nl, addRk, if_neg (by omega), (hk k h1.le).1, (hk k h1.le).2, two_mul]
  · rw [dense_shape_single hb, dot_sub, oY f ((frame_tangent F h hb hmin hne f).2 hf'), sub_self]

/-- C43: with the runtime check, `gradients` fails where the function is zero, whatever its gradient (the check divides by the value). -/
theorem C43_zero_value {qr : QRRoutine} (hqr : qr.Correct) {ad : GradRoutine} (had : ad.Correct) {x : TT ℝ} (h : x.WF) (hb : x.batch = none)
    (hm : x.ModesPos) (hd : 2 ≤ x.ndims) (hmin : x.MinimalRanks) {func : TT ℝ → R ℝ} {φ : (List ℕ → ℝ) → ℝ}
    (hf : ElementFunction x func φ) {X : Tensor ℝ} (eX : full x = Except.ok X) {g : List ℕ → ℝ} (hg : GradAt x.dense.shape φ X.get g)
    (hc : φ X.get = 0) : gradients qr ad func x true = Except.error Err.tf := by
  obtain ⟨left, right, hl, hr, -, -, hk⟩ := C42_minimal hqr h hb hm hd hmin
  obtain ⟨_, F⟩ := frame_of hqr h hb hm hl hr
  have hrk : ∀ k ≤ x.ndims, right.rank k = left.rank k := fun k hk' => (hk k hk').2.trans (hk k hk').1.symm
  obtain ⟨ds, e, hds, hv⟩ := pointDeltas_ok F h hrk
  obtain ⟨X', eX', _, vX⟩ := full_single h hb
  obtain rfl : X' = X := Except.ok.inj (eX'.symm.trans eX)
  have hφ := hf.ext
  rw [dense_shape_single hb] at hφ hg
  have hpt : ∀ i, Valid (restShape x.rawShape) i → vecOf x left right (elems ds) i = X'.get i := fun i hi => (hv i hi).trans (vX i hi).symm
  obtain ⟨gs, e1, _, _⟩ := inner_run (qr := qr) had F h hb hd (fun k _ hk => hrk k (by omega)) hf hds (hg.congr hφ hpt)
  rw [hφ _ _ hpt, hc] at e1
  unfold gradients
  rw [hl, R.ok_bind, hr, R.ok_bind, e, R.ok_bind, e1, R.ok_bind]
  simp only []
  rw [runtimeCheck_error (hf.value x X' h hb rfl eX)]
  rfl

/-- C43: if the two orthogonalizations of `x` have different ranks, `gradients` fails for every function. -/
theorem C43_rank_error {qr : QRRoutine} (hqr : qr.Correct) {ad : GradRoutine} (had : ad.Correct) {x left right : TT ℝ} (h : x.WF) (hb : x.batch = none)
    (hm : x.ModesPos) (hd : 2 ≤ x.ndims) (hl : orthogonalize qr x true = Except.ok left) (hr : orthogonalize qr left false = Except.ok right)
    (hk : ∃ k, 0 < k ∧ k < x.ndims ∧ right.rank k ≠ left.rank k) (func : TT ℝ → R ℝ) (check : Bool) :
    ∃ e, gradients qr ad func x check = Except.error e := by
  obtain ⟨_, F⟩ := frame_of hqr h hb hm hl hr
  obtain ⟨ds, e1, e, e2⟩ := pointDeltas_error (qr := qr) F h hb hd hk
  refine ⟨e, ?_⟩
  unfold gradients
  rw [hl, R.ok_bind, hr, R.ok_bind, e1, R.ok_bind, (had (augmentedFunc qr func x left right) ds).1 e (by rw [augmentedFunc, e2]; rfl)]
  rfl

/-- C43: `gradients` fails for objects with one core. -/
theorem C43_one_dim {qr : QRRoutine} (hqr : qr.Correct) {ad : GradRoutine} (had : ad.Correct) {x : TT ℝ} (h : x.WF) (hb : x.batch = none)
    (hm : x.ModesPos) (hd : x.ndims = 1) (func : TT ℝ → R ℝ) (check : Bool) : gradients qr ad func x check = Except.error Err.value := by
  obtain ⟨left, right, e, F⟩ := tangentFrame_ok hqr h hb hm
  obtain ⟨hl, hr⟩ := tangentFrame_inv e
  obtain ⟨ds, e1, e2⟩ := pointDeltas_one (qr := qr) F h hb hd
  unfold gradients
  rw [hl, R.ok_bind, hr, R.ok_bind, e1, R.ok_bind, (had (augmentedFunc qr func x left right) ds).1 Err.value (by rw [augmentedFunc, e2]; rfl)]
  rfl

/-- A tensor with one core. -/
def exRow3 : TT ℤ where
  cores := [.ofList [1, 3, 1] [1, 2, 3]]
  rawShape := [[3]]
  ttRanks := [1, 1]
  batch := none

example : exRow3.toReal.WF ∧ exRow3.toReal.batch = none ∧ exRow3.toReal.ModesPos ∧ exRow3.toReal.ndims = 1 :=
  ⟨TT.WF.toReal (by decide), rfl, by simp [TT.ModesPos, TT.toReal, exRow3], rfl⟩

/-- The squared Frobenius norm as a function of a TT-object. -/
def exSqNorm (y : TT ℝ) : R ℝ := (flatInner y y).map (·.get [])

theorem exSqNorm_element (x : TT ℝ) (hb : x.batch = none) : ElementFunction x exSqNorm (fun f => dot x.dense.shape f f) where
  ext f g h := dot_congr h h
  value y Y hy hyb hr eY := by
    obtain ⟨T, e, -, v⟩ := flatInner_spec hy hy rfl (by rw [hyb]; trivial)
    obtain ⟨Y', eY', _, vY⟩ := full_single hy hyb
    obtain rfl : Y' = Y := Except.ok.inj (eY'.symm.trans eY)
    rw [exSqNorm, e]
    have := v 0 (by rw [hyb]; exact Nat.one_pos)
    rw [hyb] at this
    change Except.ok (T.get []) = Except.ok _
    rw [show T.get [] = _ from this, dense_shape_single hb, ← hr]
    congr 1
    refine Finset.sum_congr rfl fun n hn => ?_
    rw [vY _ (unravel_valid (Finset.mem_range.1 hn))]
    rfl

theorem exSqNorm_grad (s : List ℕ) (X : List ℕ → ℝ) : GradAt s (fun f => dot s f f) X (fun i => 2 * X i) := fun e => by
  have : (fun t : ℝ => dot s (fun i => X i + t * e i) (fun i => X i + t * e i)) =
      fun t => dot s X X + t * (2 * dot s X e) + t * t * dot s e e := by
    funext t
    unfold dot
    rw [Finset.mul_sum, Finset.mul_sum, Finset.mul_sum, ← Finset.sum_add_distrib, ← Finset.sum_add_distrib]
    exact Finset.sum_congr rfl fun n _ => by ring
  rw [this, show dot s (fun i => 2 * X i) e = 2 * dot s X e by rw [dot_comm, dot_smul, dot_comm]]
  have h1 : HasDerivAt (fun t : ℝ => dot s X X + t * (2 * dot s X e)) (2 * dot s X e) 0 := by
    simpa using ((hasDerivAt_id (0 : ℝ)).mul_const (2 * dot s X e)).const_add (dot s X X)
  have h2 : HasDerivAt (fun t : ℝ => t * t * dot s e e) 0 0 := by
    simpa using ((hasDerivAt_id (0 : ℝ)).mul (hasDerivAt_id (0 : ℝ))).mul_const (dot s e e)
  have h3 := h1.add h2
  rw [add_zero] at h3
  exact h3

theorem exSqNorm_hess (s : List ℕ) (X : List ℕ → ℝ) : HessAt s (fun f => dot s f f) (fun f i => 2 * f i) X (fun v i => 2 * v i) where
  near e := Filter.Eventually.of_forall fun t => exSqNorm_grad s _
  hess v e := by
    have : (fun t : ℝ => dot s (fun i => 2 * (X i + t * e i)) v) = fun t => dot s (fun i => 2 * X i) v + t * dot s (fun i => 2 * v i) e := by
      funext t
      unfold dot
      rw [Finset.mul_sum, ← Finset.sum_add_distrib]
      exact Finset.sum_congr rfl fun n _ => by ring
    rw [this]
    simpa using ((hasDerivAt_id (0 : ℝ)).mul_const (dot s (fun i => 2 * v i) e)).const_add (dot s (fun i => 2 * X i) v)

theorem exEye2_square : ∃ X, full exEye2.toReal = Except.ok X ∧ dot exEye2.toReal.dense.shape X.get X.get ≠ 0 := by
  obtain ⟨X, eX, sX, vX⟩ := full_single exEye2_wf rfl
  refine ⟨X, eX, fun h0 => ?_⟩
  obtain ⟨i, hi, hne⟩ := exEye2_nonzero
  refine hne ?_
  rw [← dot_self h0 i hi, vX i hi]
  exact dense_get exEye2.toReal [] i rfl

/-- The hypotheses of the theorems on gradients and Hessians, for the squared norm at the identity matrix. -/
example : ∃ (qr : QRRoutine) (ad : GradRoutine) (X : Tensor ℝ), qr.Correct ∧ ad.Correct ∧ exEye2.toReal.WF ∧ exEye2.toReal.batch = none ∧
    exEye2.toReal.ModesPos ∧ 2 ≤ exEye2.toReal.ndims ∧ exEye2.toReal.MinimalRanks ∧ exEye2.toReal.Nonzero ∧
    ElementFunction exEye2.toReal exSqNorm (fun f => dot exEye2.toReal.dense.shape f f) ∧ full exEye2.toReal = Except.ok X ∧
    GradAt exEye2.toReal.dense.shape (fun f => dot exEye2.toReal.dense.shape f f) X.get (fun i => 2 * X.get i) ∧
    HessAt exEye2.toReal.dense.shape (fun f => dot exEye2.toReal.dense.shape f f) (fun f i => 2 * f i) X.get (fun v i => 2 * v i) ∧
    (true = true → dot exEye2.toReal.dense.shape X.get X.get ≠ 0) := by
  obtain ⟨qr, hqr⟩ := qrRoutine_exists
  obtain ⟨ad, had⟩ := gradRoutine_exists
  obtain ⟨X, eX, hX⟩ := exEye2_square
  exact ⟨qr, ad, X, hqr, had, exEye2_wf, rfl, by simp [TT.ModesPos, TT.toReal, exEye2], le_rfl, exEye2_minimal, exEye2_nonzero, exSqNorm_element _ rfl, eX,
    exSqNorm_grad _ _, exSqNorm_hess _ _, fun _ => hX⟩

/-- The hypotheses of `C43_zero_value`, for the squared norm minus two at the identity matrix. -/
example : ∃ X, full exEye2.toReal = Except.ok X ∧ ∃ c, ElementFunction exEye2.toReal (fun y => (exSqNorm y).map (· - c))
    (fun f => dot exEye2.toReal.dense.shape f f - c) ∧
    GradAt exEye2.toReal.dense.shape (fun f => dot exEye2.toReal.dense.shape f f - c) X.get (fun i => 2 * X.get i) ∧
    dot exEye2.toReal.dense.shape X.get X.get - c = 0 := by
  obtain ⟨X, eX, hX⟩ := exEye2_square
  refine ⟨X, eX, dot exEye2.toReal.dense.shape X.get X.get, ⟨fun f g h => by rw [dot_congr h h], fun y Y h1 h2 h3 h4 => ?_⟩, fun e => ?_, sub_self _⟩
  · rw [(exSqNorm_element _ rfl).value y Y h1 h2 h3 h4]; rfl
  · exact (exSqNorm_grad _ X.get e).sub_const _

/-- The hypotheses of `C43_rank_error`: a tensor with a rank larger than needed. -/
example : exTall.toReal.WF ∧ exTall.toReal.batch = none ∧ exTall.toReal.ModesPos ∧ 2 ≤ exTall.toReal.ndims ∧ ∃ (qr : QRRoutine) (ad : GradRoutine)
    (left right : TT ℝ), qr.Correct ∧ ad.Correct ∧ orthogonalize qr exTall.toReal true = Except.ok left ∧ orthogonalize qr left false = Except.ok right ∧
    ∃ k, 0 < k ∧ k < exTall.toReal.ndims ∧ right.rank k ≠ left.rank k := by
  have hw : exTall.toReal.WF := TT.WF.toReal (by decide)
  have hm : exTall.toReal.ModesPos := by simp [TT.ModesPos, TT.toReal, exTall]
  obtain ⟨qr, hqr⟩ := qrRoutine_exists
  obtain ⟨ad, had⟩ := gradRoutine_exists
  obtain ⟨left, right, e, F⟩ := tangentFrame_ok hqr hw rfl hm
  obtain ⟨h1, h2⟩ := tangentFrame_inv e
  refine ⟨hw, rfl, hm, by decide, qr, ad, left, right, hqr, had, h1, h2, 1, by omega, by decide, ?_⟩
  have hl1 : left.rank 1 = 5 := by rw [F.kl 1 (by decide)]; rfl
  have hr2 : right.rank 2 ≤ 2 := by
    rw [F.kr 2 (by decide), rlRank_step _ _ (by decide)]
    exact min_le_left _ _
  have hr1 : right.rank 1 ≤ 2 * right.rank 2 := by
    rw [F.kr 1 (by decide), rlRank_step _ _ (by decide), ← F.kr 2 (by decide)]
    exact min_le_left _ _
  omega

end T3f
