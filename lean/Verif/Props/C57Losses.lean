import Verif.Proofs.Losses

/-!
# C57: derivatives of functions written with the library

`qr` and `ad` are any correct QR and automatic differentiation routines. The functions are those of `Model/Losses.lean`; the Riemannian gradient and Hessian of
each are given by the formulas in the tests and the tutorial, for all arguments.
-/

namespace T3f

/-- Two tangent vectors with the same inner products with all tangent vectors are equal. -/
theorem tangent_unique {qr : QRRoutine} (hqr : qr.Correct) {x : TT ℝ} (h : x.WF) (hb : x.batch = none) (hm : x.ModesPos) (hd : 2 ≤ x.ndims)
    (hmin : x.MinimalRanks) (hne : x.Nonzero) {z u v : List ℕ → ℝ} (hu : x.TangentVector u) (hv : x.TangentVector v)
    (ou : ∀ f, x.TangentVector f → dot x.dense.shape (fun i => z i - u i) f = 0)
    (ov : ∀ f, x.TangentVector f → dot x.dense.shape (fun i => z i - v i) f = 0) : ∀ i, Valid x.dense.shape i → u i = v i := by
  obtain ⟨T, -, hT, -⟩ := project_space hqr h hb hm hd
  have hT := hT hmin hne
  exact proj_unique ((hT u).2 hu) ((hT v).2 hv) (fun f hf => ou f ((hT f).1 hf)) (fun f hf => ov f ((hT f).1 hf))

/-- C43: `hessian_vector_product(func, x, z)` is what `project` returns for the product of the Hessian and the projection of `z`. -/
theorem C43_hessian_project {qr : QRRoutine} (hqr : qr.Correct) {ad : GradRoutine} (had : ad.Correct) {x z : TT ℝ} (h : x.WF) (hb : x.batch = none)
    (hm : x.ModesPos) (hd : 2 ≤ x.ndims) (hmin : x.MinimalRanks) (hne : x.Nonzero) {func : TT ℝ → R ℝ} {φ : (List ℕ → ℝ) → ℝ}
    (hf : ElementFunction x func φ) {X : Tensor ℝ} (eX : full x = Except.ok X) {grad H : (List ℕ → ℝ) → List ℕ → ℝ}
    (hH : HessAt x.dense.shape φ grad X.get H) {check : Bool} (hc : check = true → φ X.get ≠ 0) (hz : z.WF) (hzb : z.batch = none)
    (hzr : z.rawShape = x.rawShape) {p : TT ℝ} {P : Tensor ℝ} (ep : project qr z x = Except.ok p) (eP : full p = Except.ok P) {u : TT ℝ} (hu : u.WF)
    (hub : u.batch = none) (hur : u.rawShape = x.rawShape) {U : Tensor ℝ} (eU : full u = Except.ok U)
    (hU : ∀ i, Valid U.shape i → U.get i = H P.get i) :
    ∃ y v Y V, hessianVectorProduct qr ad func x z check = Except.ok y ∧ project qr u x = Except.ok v ∧ full y = Except.ok Y ∧ full v = Except.ok V ∧
      Y ≃ₜ V := by
  obtain ⟨p', P', y, Y, ep', eP', ey, -, -, -, -, eY, sY, tY, oY⟩ := C43_hessian hqr had h hb hm hd hmin hne hf eX hH hc hz hzb hzr
  obtain rfl : p' = p := Except.ok.inj (ep'.symm.trans ep)
  obtain rfl : P' = P := Except.ok.inj (eP'.symm.trans eP)
  obtain ⟨v, V, U', ev, -, -, -, -, eV, eU', sV, hv⟩ := C37_project hqr h hb hm hd hmin hne hu hur
  obtain rfl : U' = U := Except.ok.inj (eU'.symm.trans eU)
  have hup : u.bpre = [] := by simp [TT.bpre, hub]
  obtain ⟨tV, oV⟩ := hv [] (by rw [hup]; trivial)
  obtain ⟨X', eX', sX, -⟩ := full_single h hb
  obtain rfl : X' = X := Except.ok.inj (eX'.symm.trans eX)
  obtain ⟨U'', eU'', sU, -⟩ := full_single hu hub
  obtain rfl : U'' = U' := Except.ok.inj (eU''.symm.trans eU)
  rw [hur] at sU
  refine ⟨y, v, Y, V, ey, ev, eY, eV, sY.trans (sX.trans (sU.symm.trans sV.symm)), fun i hi => ?_⟩
  rw [sY, sX, ← dense_shape_single hb] at hi
  refine tangent_unique hqr h hb hm hd hmin hne tY tV oY (fun f hf' => ?_) i hi
  rw [← oV f hf']
  exact dot_congr (fun i hi => by rw [← hU i (by rw [sU, ← dense_shape_single hb]; exact hi)]; rfl) (fun _ _ => rfl)

section
variable {qr : QRRoutine} (hqr : qr.Correct) {ad : GradRoutine} (had : ad.Correct) {x : TT ℝ} (h : x.WF) (hb : x.batch = none) (hm : x.ModesPos)
  (hd : 2 ≤ x.ndims) (hmin : x.MinimalRanks)
include hqr had h hb hm hd hmin

theorem gradients_project {func : TT ℝ → R ℝ} {φ : (List ℕ → ℝ) → ℝ} (hf : ElementFunction x func φ) {X : Tensor ℝ} (eX : full x = Except.ok X)
    {g : List ℕ → ℝ} (hg : GradAt x.dense.shape φ X.get g) {z : TT ℝ} (hz : z.WF) (hzb : z.batch = none) (hzr : z.rawShape = x.rawShape)
    {Z : Tensor ℝ} (eZ : full z = Except.ok Z) (hZ : ∀ i, Valid x.dense.shape i → Z.get i = g i) {check : Bool} (hc : check = true → φ X.get ≠ 0) :
    ∃ y w Y W, gradients qr ad func x check = Except.ok y ∧ project qr z x = Except.ok w ∧ y.ttRanks = w.ttRanks ∧
      full y = Except.ok Y ∧ full w = Except.ok W ∧ Y ≃ₜ W := by
  obtain ⟨left, right, hl, hr, -, -, hk⟩ := C42_minimal hqr h hb hm hd hmin
  refine C43_project hqr had h hb hm hd hl hr (fun k _ hk' => (hk k hk'.le).2.trans (hk k hk'.le).1.symm) hf eX hz hzb hzr eZ (fun e => ?_) hc
  rw [dot_congr (f' := g) hZ (fun _ _ => rfl)]
  exact hg e

/-- C57: the Riemannian gradient of `0.5 * flat_inner(x, w) ** 2` is `project(w, x) * flat_inner(x, w)`. -/
theorem C57_half_square {w : TT ℝ} (hw : w.WF) (hwb : w.batch = none) (hwr : w.rawShape = x.rawShape) {check : Bool}
    (hc : check = true → ∀ c, flatInner x w = Except.ok c → c.get [] ≠ 0) :
    ∃ y p c q Y Q, gradients qr ad (halfSquareInner w) x check = Except.ok y ∧ project qr w x = Except.ok p ∧ flatInner x w = Except.ok c ∧
      multiplyScalar p (c.get []) = Except.ok q ∧ full y = Except.ok Y ∧ full q = Except.ok Q ∧ Y ≃ₜ Q := by
  obtain ⟨X, eX, sX, -⟩ := full_single h hb
  obtain ⟨W, eW, sW, -⟩ := full_single hw hwb
  obtain ⟨c, ec, -, vc⟩ := flatInner_dot h hw hwr hb hwb eX eW
  obtain ⟨z, ez, wz, rz, bz, vz⟩ := scalar_single hw hwb (c.get [])
  obtain ⟨Z, eZ, sZ, -⟩ := full_single wz bz
  have hs := dense_shape_single hb
  obtain ⟨y, v, Y, V, ey, ev, -, eY, eV, hYV⟩ := gradients_project hqr had h hb hm hd hmin (halfSquareInner_element hb hw hwb hwr eW) eX
    (quad_grad (symOp_outer _ _) X.get) wz bz (rz.trans hwr) eZ (fun i hi => by
      rw [vz W Z eW eZ i (by rw [hwr, ← hs]; exact hi), vc, hs]; ring) (check := check) (fun hck => by
      have := hc hck c ec
      rw [vc, ← hs] at this
      rw [quad, dot_smul]
      have h0 : dot x.dense.shape (fun _ => 0) X.get = 0 := by simp [dot]
      rw [h0, add_zero, add_zero]
      exact mul_ne_zero (by norm_num) (mul_ne_zero this this))
  have hsz : ∀ i, Valid Z.shape i → Z.get i = c.get [] * W.get i + 0 * W.get i := fun i hi => by
    rw [sZ, rz] at hi
    rw [vz W Z eW eZ i hi]; ring
  obtain ⟨p, p₂, v', P, P₂, V', ep, -, ev', eP, -, eV', sV, vV⟩ := C37_linear hqr h hb hm hd hw hwr hw hwr wz (rz.trans hwr) (hwb.trans bz.symm)
    (hwb.trans bz.symm) eW eW eZ hsz
  obtain rfl : v' = v := Except.ok.inj (ev'.symm.trans ev)
  obtain rfl : V' = V := Except.ok.inj (eV'.symm.trans eV)
  obtain ⟨T, -, -, hP⟩ := project_space hqr h hb hm hd
  obtain ⟨p', P', -, ep', wp, rp, bp, -, eP', -, sP, -⟩ := hP w hw hwr
  obtain rfl : p' = p := Except.ok.inj (ep'.symm.trans ep)
  obtain rfl : P' = P := Except.ok.inj (eP'.symm.trans eP)
  obtain ⟨q, eq, wq, rq, bq, vq⟩ := scalar_single wp (bp.trans hwb) (c.get [])
  obtain ⟨Q, eQ, sQ, -⟩ := full_single wq bq
  refine ⟨y, p', c, q, Y, Q, ey, ep, ec, eq, eY, eQ, hYV.1.trans ?_, fun i hi => ?_⟩
  · rw [sV, sZ, sQ, rz, rq, rp, hwr]
  · rw [hYV.2 i hi]
    have hi' : Valid Z.shape i := by rw [← sV, ← hYV.1]; exact hi
    rw [vV i hi', vq P' Q eP eQ i (by rw [rp, ← hwr, ← rz, ← sZ]; exact hi')]
    ring

/-- C57: the Riemannian gradient of `bilinear_form(A, x, x)` is `project(matmul(transpose(A) + A, x), x)`. -/
theorem C57_quadratic {A : TT ℝ} {I L : List ℕ} (hxr : x.rawShape = [I, L]) (hA : A.WF) (hAb : A.batch = none) (hAr : A.rawShape = [I, I])
    {check : Bool} (hc : check = true → ∀ c, bilinearForm A x x = Except.ok c → c.get [] ≠ 0) :
    ∃ y At S z v Y V, gradients qr ad (quadraticLoss A) x check = Except.ok y ∧ ttTranspose A = Except.ok At ∧ add At A = Except.ok S ∧
      ttTTMatmul S x = Except.ok z ∧ project qr z x = Except.ok v ∧ y.ttRanks = v.ttRanks ∧ full y = Except.ok Y ∧ full v = Except.ok V ∧ Y ≃ₜ V := by
  obtain ⟨X, eX, sX, -⟩ := full_single h hb
  obtain ⟨M, eM, -, -⟩ := full_single hA hAb
  obtain ⟨At, S, z, Z, eAt, eS, ez, wz, bz, rz, eZ, vZ⟩ := symMatmul_ok h hb hd hxr hA hAb hAr eX eM
  have hf := quadraticLoss_element hb hxr hA hAb hAr eM
  have hs : x.dense.shape = [I.prod, L.prod] := by rw [dense_shape_single hb, hxr]; rfl
  obtain ⟨y, v, Y, V, ey, ev, hk, eY, eV, hYV⟩ := gradients_project hqr had h hb hm hd hmin hf eX
    (quad_grad (by rw [hs]; exact symOp_mul _ _ _) X.get) wz bz rz eZ (fun i hi => by rw [vZ i hi, add_zero]) (check := check) (fun hck => by
      have h1 := hf.value x X h hb rfl eX
      unfold quadraticLoss at h1
      cases hbf : bilinearForm A x x with
      | error e => rw [hbf] at h1; cases h1
      | ok c =>
        rw [hbf] at h1
        have h2 : c.get [] = _ := Except.ok.inj h1
        rw [← h2]
        exact hc hck c hbf)
  exact ⟨y, At, S, z, v, Y, V, ey, eAt, eS, ez, ev, hk, eY, eV, hYV⟩

/-- C57: the Riemannian gradient of `0.5 * frobenius_norm_squared(x - w, differentiable=True)` is `project(x - w, x)`, the direction of the descent of the
tutorial. -/
theorem C57_distance {w : TT ℝ} (hw : w.WF) (hwb : w.batch = none) (hwr : w.rawShape = x.rawShape) {check : Bool}
    (hc : check = true → ∀ X W, full x = Except.ok X → full w = Except.ok W → ¬ X ≃ₜ W) :
    ∃ y d v Y V, gradients qr ad (halfDistance qr w) x check = Except.ok y ∧ sub x w = Except.ok d ∧ project qr d x = Except.ok v ∧
      y.ttRanks = v.ttRanks ∧ full y = Except.ok Y ∧ full v = Except.ok V ∧ Y ≃ₜ V := by
  obtain ⟨X, eX, sX, -⟩ := full_single h hb
  obtain ⟨W, eW, sW, -⟩ := full_single hw hwb
  obtain ⟨d, ed, wd, rd, bd, -, -, vd⟩ := sub_single h hw hd hwr hb hwb
  obtain ⟨D, eD, -, -⟩ := full_single wd bd
  have hs := dense_shape_single hb
  obtain ⟨y, v, Y, V, ey, ev, hk, eY, eV, hYV⟩ := gradients_project hqr had h hb hm hd hmin (halfDistance_element qr hd h hb hw hwb hwr eW) eX
    (quad_grad (symOp_id _) X.get) wd bd rd eD (fun i hi => by rw [vd X W D eX eW eD i (by rw [← hs]; exact hi)]; ring) (check := check)
    (fun hck h0 => hc hck X W eX eW ⟨by rw [sX, sW, hwr], fun i hi => by
      have h1 : dot x.dense.shape (fun i => X.get i - W.get i) (fun i => X.get i - W.get i) = 0 := by
        have h2 : dot x.dense.shape (fun i => - W.get i) X.get = - dot x.dense.shape W.get X.get := by simp [dot, Finset.sum_neg_distrib]
        rw [quad, h2] at h0
        rw [dot_sub, dot_comm X.get, dot_comm W.get, dot_sub, dot_sub, dot_comm X.get W.get]
        linarith
      exact sub_eq_zero.1 (dot_self h1 i (by rw [hs, ← sX]; exact hi))⟩)
  exact ⟨y, d, v, Y, V, ey, ed, ev, hk, eY, eV, hYV⟩

variable (hne : x.Nonzero)
include hne

/-- C57: the product of the Hessian of `0.5 * flat_inner(x, w) ** 2` and `z` is `project(w * flat_inner(project(z, x), w), x)`. -/
theorem C57_half_square_hessian {w z : TT ℝ} (hw : w.WF) (hwb : w.batch = none) (hwr : w.rawShape = x.rawShape) (hz : z.WF) (hzb : z.batch = none)
    (hzr : z.rawShape = x.rawShape) {check : Bool} (hc : check = true → ∀ c, flatInner x w = Except.ok c → c.get [] ≠ 0) :
    ∃ y p c u v Y V, hessianVectorProduct qr ad (halfSquareInner w) x z check = Except.ok y ∧ project qr z x = Except.ok p ∧
      flatInner p w = Except.ok c ∧ multiplyScalar w (c.get []) = Except.ok u ∧ project qr u x = Except.ok v ∧ full y = Except.ok Y ∧
      full v = Except.ok V ∧ Y ≃ₜ V := by
  obtain ⟨X, eX, sX, -⟩ := full_single h hb
  obtain ⟨W, eW, sW, -⟩ := full_single hw hwb
  obtain ⟨p, P, -, ep, wp, rp, bp, -, eP, -, -, -⟩ := C37_project hqr h hb hm hd hmin hne hz hzr
  obtain ⟨c, ec, -, vc⟩ := flatInner_dot wp hw (hwr.trans rp.symm) (bp.trans hzb) hwb eP eW
  obtain ⟨c', ec', -, vc'⟩ := flatInner_dot h hw hwr hb hwb eX eW
  obtain ⟨u, eu, wu, ru, bu, vu⟩ := scalar_single hw hwb (c.get [])
  obtain ⟨U, eU, sU, -⟩ := full_single wu bu
  have hs := dense_shape_single hb
  obtain ⟨y, v, Y, V, ey, ev, eY, eV, hYV⟩ := C43_hessian_project hqr had h hb hm hd hmin hne (halfSquareInner_element hb hw hwb hwr eW) eX
    (quad_hess (symOp_outer _ _) X.get) (check := check) (fun hck => by
      have := hc hck c' ec'
      rw [vc', ← hs] at this
      rw [quad, dot_smul]
      have h0 : dot x.dense.shape (fun _ => 0) X.get = 0 := by simp [dot]
      rw [h0, add_zero, add_zero]
      exact mul_ne_zero (by norm_num) (mul_ne_zero this this)) hz hzb hzr ep eP wu bu (ru.trans hwr) eU (fun i hi => by
      rw [sU, ru] at hi
      rw [vu W U eW eU i hi, vc, rp, hs])
  exact ⟨y, p, c, u, v, Y, V, ey, ep, ec, eu, ev, eY, eV, hYV⟩

/-- C57: the product of the Hessian of `bilinear_form(A, x, x)` and `z` is `project(matmul(transpose(A) + A, project(z, x)), x)`. -/
theorem C57_quadratic_hessian {A z : TT ℝ} {I L : List ℕ} (hxr : x.rawShape = [I, L]) (hA : A.WF) (hAb : A.batch = none) (hAr : A.rawShape = [I, I])
    (hz : z.WF) (hzb : z.batch = none) (hzr : z.rawShape = x.rawShape)
    {check : Bool} (hc : check = true → ∀ c, bilinearForm A x x = Except.ok c → c.get [] ≠ 0) :
    ∃ y p At S u v Y V, hessianVectorProduct qr ad (quadraticLoss A) x z check = Except.ok y ∧ project qr z x = Except.ok p ∧
      ttTranspose A = Except.ok At ∧ add At A = Except.ok S ∧ ttTTMatmul S p = Except.ok u ∧ project qr u x = Except.ok v ∧ full y = Except.ok Y ∧
      full v = Except.ok V ∧ Y ≃ₜ V := by
  obtain ⟨X, eX, sX, -⟩ := full_single h hb
  obtain ⟨M, eM, -, -⟩ := full_single hA hAb
  obtain ⟨p, P, -, ep, wp, rp, bp, -, eP, -, -, -⟩ := C37_project hqr h hb hm hd hmin hne hz hzr
  have bp' := bp.trans hzb
  have hpd : 2 ≤ p.ndims := by rw [ndims_eq_of_rawShape wp h rp]; exact hd
  obtain ⟨At, S, u, U, eAt, eS, eu, wu, bu, ru, eU, vU⟩ := symMatmul_ok wp bp' hpd (rp.trans hxr) hA hAb hAr eP eM
  have hf := quadraticLoss_element hb hxr hA hAb hAr eM
  have hs : x.dense.shape = [I.prod, L.prod] := by rw [dense_shape_single hb, hxr]; rfl
  obtain ⟨U', eU', sU, -⟩ := full_single wu bu
  obtain rfl : U' = U := Except.ok.inj (eU'.symm.trans eU)
  obtain ⟨y, v, Y, V, ey, ev, eY, eV, hYV⟩ := C43_hessian_project hqr had h hb hm hd hmin hne hf eX
    (quad_hess (by rw [hs]; exact symOp_mul _ _ _) X.get) (check := check) (fun hck => by
      have h1 := hf.value x X h hb rfl eX
      unfold quadraticLoss at h1
      cases hbf : bilinearForm A x x with
      | error e => rw [hbf] at h1; cases h1
      | ok c =>
        rw [hbf] at h1
        have h2 : c.get [] = _ := Except.ok.inj h1
        rw [← h2]
        exact hc hck c hbf) hz hzb hzr ep eP wu bu (ru.trans rp) eU (fun i hi => vU i (by rw [dense_shape_single bp', ← ru, ← sU]; exact hi))
  exact ⟨y, p, At, S, u, v, Y, V, ey, ep, eAt, eS, eu, ev, eY, eV, hYV⟩

/-- C57: the product of the Hessian of the squared distance and `z` is `project(z, x)`: the second derivative does not see the curvature of the set of tensors of
this rank. -/
theorem C57_distance_hessian {w z : TT ℝ} (hw : w.WF) (hwb : w.batch = none) (hwr : w.rawShape = x.rawShape) (hz : z.WF) (hzb : z.batch = none)
    (hzr : z.rawShape = x.rawShape) {check : Bool} (hc : check = true → ∀ X W, full x = Except.ok X → full w = Except.ok W → ¬ X ≃ₜ W) :
    ∃ y p Y P, hessianVectorProduct qr ad (halfDistance qr w) x z check = Except.ok y ∧ project qr z x = Except.ok p ∧ full y = Except.ok Y ∧
      full p = Except.ok P ∧ Y ≃ₜ P := by
  obtain ⟨X, eX, sX, -⟩ := full_single h hb
  obtain ⟨W, eW, sW, -⟩ := full_single hw hwb
  have hs := dense_shape_single hb
  obtain ⟨p, P, y, Y, ep, eP, ey, -, -, -, -, eY, sY, tY, oY⟩ := C43_hessian hqr had h hb hm hd hmin hne (halfDistance_element qr hd h hb hw hwb hwr eW) eX
    (quad_hess (symOp_id _) X.get) (check := check) (fun hck h0 => hc hck X W eX eW ⟨by rw [sX, sW, hwr], fun i hi => by
      have h1 : dot x.dense.shape (fun i => X.get i - W.get i) (fun i => X.get i - W.get i) = 0 := by
        have h2 : dot x.dense.shape (fun i => - W.get i) X.get = - dot x.dense.shape W.get X.get := by simp [dot, Finset.sum_neg_distrib]
        rw [quad, h2] at h0
        rw [dot_sub, dot_comm X.get, dot_comm W.get, dot_sub, dot_sub, dot_comm X.get W.get]
        linarith
      exact sub_eq_zero.1 (dot_self h1 i (by rw [hs, ← sX]; exact hi))⟩) hz hzb hzr
  obtain ⟨p', P', Z, ep', -, -, -, -, eP', eZ, sP, hv⟩ := C37_project hqr h hb hm hd hmin hne hz hzr
  obtain rfl : p' = p := Except.ok.inj (ep'.symm.trans ep)
  obtain rfl : P' = P := Except.ok.inj (eP'.symm.trans eP)
  obtain ⟨Z', eZ', sZ, -⟩ := full_single hz hzb
  obtain rfl : Z' = Z := Except.ok.inj (eZ'.symm.trans eZ)
  have hzp : z.bpre = [] := by simp [TT.bpre, hzb]
  obtain ⟨tP, -⟩ := hv [] (by rw [hzp]; trivial)
  refine ⟨y, p', Y, P', ey, ep, eY, eP, by rw [sY, sX, sP, sZ, hzr], fun i hi => ?_⟩
  rw [sY, sX, ← hs] at hi
  exact tangent_unique hqr h hb hm hd hmin hne tY tP oY (fun f _ => by simp [dot]) i hi

end

/-- The matrix of ones of raw shape `(2, 1) × (1, 2)`. -/
def exFlatMat : TT ℤ where
  cores := [.ofList [1, 2, 1, 1] [1, 1], .ofList [1, 1, 2, 1] [1, 1]]
  rawShape := [[2, 1], [1, 2]]
  ttRanks := [1, 1, 1]
  batch := none

theorem exFlatMat_wf : exFlatMat.toReal.WF := TT.WF.toReal (by decide)

theorem exEyeMat_get {X : Tensor ℝ} (eX : full exEyeMat.toReal = Except.ok X) (i j : ℕ) (hi : i < 2) (hj : j < 2) :
    X.get [i, j] = if i = j then 1 else 0 := by
  obtain ⟨X', eX', hX⟩ := full_dense exEyeMat_wf
  obtain rfl : X' = X := Except.ok.inj (eX'.symm.trans eX)
  rw [hX.2 [i, j] (by rw [hX.1]; simp [TT.dense, TT.denseShape, TT.toReal, exEyeMat, TT.isMatrix, TT.bpre, Valid, hi, hj]), exEyeMat_entry i j hi hj]

/-- The hypotheses of the theorems: the identity matrix as `x`, the matrix of ones as `w`, and a square matrix `A` that is not symmetric. -/
example : exEyeMat.toReal.WF ∧ exEyeMat.toReal.batch = none ∧ exEyeMat.toReal.ModesPos ∧ 2 ≤ exEyeMat.toReal.ndims ∧ exEyeMat.toReal.MinimalRanks ∧
    exEyeMat.toReal.Nonzero ∧ exFlatMat.toReal.WF ∧ exFlatMat.toReal.batch = none ∧ exFlatMat.toReal.rawShape = exEyeMat.toReal.rawShape ∧
    exEyeMat.toReal.rawShape = [[2, 1], [1, 2]] ∧ exEyeSquare.toReal.WF ∧ exEyeSquare.toReal.batch = none ∧
    exEyeSquare.toReal.rawShape = [[2, 1], [2, 1]] ∧
    (∀ c, flatInner exEyeMat.toReal exFlatMat.toReal = Except.ok c → c.get [] ≠ 0) ∧
    (∀ c, bilinearForm exEyeSquare.toReal exEyeMat.toReal exEyeMat.toReal = Except.ok c → c.get [] ≠ 0) ∧
    ∀ X W, full exEyeMat.toReal = Except.ok X → full exFlatMat.toReal = Except.ok W → ¬ X ≃ₜ W := by
  have hflat : ∀ W, full exFlatMat.toReal = Except.ok W → ∀ i j, i < 2 → j < 2 → W.get [i, j] = 1 := fun W eW i j hi hj => by
    obtain ⟨W', eW', hW⟩ := full_dense exFlatMat_wf
    obtain rfl : W' = W := Except.ok.inj (eW'.symm.trans eW)
    rw [hW.2 [i, j] (by rw [hW.1]; simp [TT.dense, TT.denseShape, TT.toReal, exFlatMat, TT.isMatrix, TT.bpre, Valid, hi, hj])]
    interval_cases i <;> interval_cases j <;>
      simp [TT.dense, TT.decode, TT.entry, TT.toReal, exFlatMat, TT.isMatrix, TT.bpre, TT.ndims, lprod, TT.slice, TT.core, TT.rank, mIdx, Tensor.map,
        Tensor.ofList, ravel, unravel]
  have wS : exEyeSquare.toReal.WF := TT.WF.toReal (by decide)
  refine ⟨exEyeMat_wf, rfl, by simp [TT.ModesPos, TT.toReal, exEyeMat], by decide, exEyeMat_minimal, exEyeMat_nonzero, exFlatMat_wf, rfl, rfl, rfl, wS, rfl,
    rfl, fun c ec => ?_, fun c ec => ?_, fun X W eX eW hXW => ?_⟩
  · obtain ⟨X, eX, -, -⟩ := full_single exEyeMat_wf rfl
    obtain ⟨W, eW, -, -⟩ := full_single exFlatMat_wf rfl
    obtain ⟨T, eT, -, vT⟩ := flatInner_dot exEyeMat_wf exFlatMat_wf rfl rfl rfl eX eW
    obtain rfl : T = c := Except.ok.inj (eT.symm.trans ec)
    rw [vT, show restShape exEyeMat.toReal.rawShape = [2, 2] from rfl, dot_matrix]
    simp [Finset.sum_range_succ, exEyeMat_get eX, hflat W eW]
  · obtain ⟨T, M, X, X', eT, eM, eX, eX', -, vT⟩ := C15_bilinear_form _ _ _ wS exEyeMat_wf exEyeMat_wf [2, 1] [2, 1] [1, 2] rfl rfl rfl rfl rfl
    obtain rfl : T = c := Except.ok.inj (eT.symm.trans ec)
    have hM : ∀ i, i < 2 → M.get [i, i] ≠ 0 ∧ 0 ≤ M.get [i, i] := fun i hi => by
      obtain ⟨M', eM', hM⟩ := full_dense wS
      obtain rfl : M' = M := Except.ok.inj (eM'.symm.trans eM)
      rw [hM.2 [i, i] (by rw [hM.1]; simp [TT.dense, TT.denseShape, TT.toReal, exEyeSquare, TT.isMatrix, TT.bpre, Valid, hi])]
      interval_cases i <;>
        simp [TT.dense, TT.decode, TT.entry, TT.toReal, exEyeSquare, TT.isMatrix, TT.bpre, TT.ndims, lprod, TT.slice, TT.core, TT.rank, mIdx, Tensor.map,
          Tensor.ofList, ravel, unravel]
    have := vT 0 Nat.one_pos
    rw [show T.get [] = _ from this]
    obtain ⟨h1, h2⟩ := hM 0 (by omega)
    obtain ⟨h3, h4⟩ := hM 1 (by omega)
    have hsum : ∑ i ∈ Finset.range [2, 1].prod, ∑ l ∈ Finset.range [1, 2].prod, ∑ j ∈ Finset.range [2, 1].prod,
        X.get [i, l] * (M.get [i, j] * X'.get [j, l]) = M.get [0, 0] + M.get [1, 1] := by
      simp [Finset.sum_range_succ, exEyeMat_get eX, exEyeMat_get eX']
    refine fun h0 => h1 ?_
    have : M.get [0, 0] + M.get [1, 1] = 0 := hsum ▸ h0
    linarith
  · have h1 := exEyeMat_get eX 0 1 (by omega) (by omega)
    rw [hXW.2 [0, 1] (by
      obtain ⟨X', eX', sX, -⟩ := full_single exEyeMat_wf rfl
      obtain rfl : X' = X := Except.ok.inj (eX'.symm.trans eX)
      rw [sX]; simp [restShape, TT.toReal, exEyeMat, Valid]), hflat W eW 0 1 (by omega) (by omega)] at h1
    simp at h1

end T3f
