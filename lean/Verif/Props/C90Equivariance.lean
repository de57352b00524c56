import Verif.Proofs.Equivariance
import Verif.Props.C06Arith
import Verif.Props.C09Matmul
import Verif.Props.C39ProjectMatmul
import Verif.Props.C70Gaps
import Verif.Props.C89Representations

/-!
# C90: rounding and projecting commute with scaling and transposition

`round(c * t)` is `c * round(t)`, `round(transpose(t))` is `transpose(round(t))`, `project(what, c * where)` is `project(what, where)`, and
`project(transpose(what), transpose(where))` is `transpose(project(what, where))`: the two sides represent the same tensors. For `round` the best
approximations have to be unique, for `project` the point has to be given with minimal TT-ranks.
-/

namespace T3f

variable {qr qr' : QRRoutine}

/-- **C90.** `round(c * t)` represents the same tensors as `c * round(t)`, for all numbers `c`. -/
theorem C90_round_scale (hqr : qr.Correct) (hqr' : qr'.Correct) {svd svd' : SVDRoutine} (hsvd : svd.Correct) (hsvd' : svd'.Correct)
    {t : TT ℝ} (h : t.WF) (hm : t.ModesPos) (c : ℝ) {m : MaxRank} {b : ℕ → ℕ} (hb : m.Bounds t.ndims b) (hbatch : t.isBatch → m.Single)
    {eps eps' : Option ℝ} (he : ∀ e ∈ eps, 0 ≤ e) (he' : ∀ e ∈ eps', 0 ≤ e) {T : Tensor ℝ} {s : List ℕ}
    (eT : full t = Except.ok T) (sT : T.shape = t.bpre ++ s)
    (hu : ∀ p, Valid t.bpre p → NoTies t.rawShape s b (List.range' 1 (t.ndims - 1)).reverse fun i => T.get (p ++ i)) :
    ∃ x cx ct y, ttRound qr svd t m eps = Except.ok x ∧ multiplyScalar x c = Except.ok cx ∧ multiplyScalar t c = Except.ok ct ∧
      ttRound qr' svd' ct m eps' = Except.ok y ∧ SameTensors cx y := by
  obtain ⟨x, e, w, rs, bt, ht⟩ := ttRound_truncated hqr hsvd h hm hb hbatch he
  obtain ⟨cx, ecx, wcx, rcx, bcx, -, -, vcx⟩ := multiplyScalar_spec w c
  obtain ⟨ct, ect, wct, rct, bct, -, nct, vct⟩ := multiplyScalar_spec h c
  have hp : ct.bpre = t.bpre := by simp [TT.bpre, bct]
  have hib : ct.isBatch → m.Single := fun hh => hbatch (by unfold TT.isBatch at hh ⊢; rwa [bct] at hh)
  obtain ⟨y, ey, wy, ry, by', hy⟩ := ttRound_truncated hqr' hsvd' wct (modesPos_of_raw hm rct) (by rw [nct]; exact hb) hib he'
  rw [hp, rct, nct] at hy
  obtain ⟨T', eT', sT', vT⟩ := full_ok h
  obtain rfl : T' = T := Except.ok.inj (eT'.symm.trans eT)
  obtain rfl : s = restShape t.rawShape := List.append_cancel_left (sT.symm.trans sT')
  obtain ⟨A, eA, sA, vA⟩ := full_ok wcx
  obtain ⟨B, eB, sB, vB⟩ := full_ok wy
  have pA : cx.bpre = t.bpre := by simp [TT.bpre, bcx, bt]
  have pB : y.bpre = t.bpre := by simp [TT.bpre, by', bct]
  rw [pA, rcx, rs] at sA vA
  rw [pB, ry, rct] at sB vB
  refine ⟨x, cx, ct, y, e, ecx, ect, ey, by rw [ry, rct, rcx, rs], by rw [by', bct, bcx, bt], A, B, eA, eB, by rw [sA, sB], fun i hi => ?_⟩
  rw [sB] at hi
  obtain ⟨p, i, rfl, hpv, hi⟩ := valid_append_iff.1 hi
  rw [vA p i hpv hi, vB p i hpv hi, vcx]
  have k := hy p hpv
  simp only [vct] at k
  by_cases hc : c = 0
  · subst hc
    rw [zero_mul]
    exact truncated_zero k (fun i _ => zero_mul _) i hi
  · have k' := truncated_smul (inv_ne_zero hc) k
    have := (hu p hpv).unique (truncated_congr (fun i hi => (vT p i hpv hi).symm) (fun _ _ => rfl) (ht p hpv))
      (truncated_congr (fun i hi => by rw [vT p i hpv hi, ← mul_assoc, inv_mul_cancel₀ hc, one_mul]) (fun _ _ => rfl) k') i hi
    rw [← this, ← mul_assoc, mul_inv_cancel₀ hc, one_mul]

/-- **C90.** `round(transpose(t))` represents the same matrices as `transpose(round(t))`. -/
theorem C90_round_transpose (hqr : qr.Correct) (hqr' : qr'.Correct) {svd svd' : SVDRoutine} (hsvd : svd.Correct) (hsvd' : svd'.Correct)
    {t : TT ℝ} (h : t.WF) (hm : t.ModesPos) (hmat : t.isMatrix) {m : MaxRank} {b : ℕ → ℕ} (hb : m.Bounds t.ndims b) (hbatch : t.isBatch → m.Single)
    {eps eps' : Option ℝ} (he : ∀ e ∈ eps, 0 ≤ e) (he' : ∀ e ∈ eps', 0 ≤ e) {T : Tensor ℝ} {s : List ℕ}
    (eT : full t = Except.ok T) (sT : T.shape = t.bpre ++ s)
    (hu : ∀ p, Valid t.bpre p → NoTies t.rawShape s b (List.range' 1 (t.ndims - 1)).reverse fun i => T.get (p ++ i)) :
    ∃ x xt tt y, ttRound qr svd t m eps = Except.ok x ∧ ttTranspose x = Except.ok xt ∧ ttTranspose t = Except.ok tt ∧
      ttRound qr' svd' tt m eps' = Except.ok y ∧ SameTensors xt y := by
  obtain ⟨I, J, hr, -, -⟩ := h.rawShape_matrix hmat
  obtain ⟨x, e, w, rs, bt, ht⟩ := ttRound_truncated hqr hsvd h hm hb hbatch he
  obtain ⟨xt, ext, wxt, rxt, bxt, -, -, vxt⟩ := ttTranspose_spec w (rs.trans hr)
  obtain ⟨tt, ett, wtt, rtt, btt, ntt, -, vtt⟩ := ttTranspose_spec h hr
  have hp : tt.bpre = t.bpre := by simp [TT.bpre, btt]
  have hpx : x.bpre = t.bpre := by simp [TT.bpre, bt]
  have hib : tt.isBatch → m.Single := fun hh => hbatch (by unfold TT.isBatch at hh ⊢; rwa [btt] at hh)
  have hmt : tt.ModesPos := by
    unfold TT.ModesPos at hm ⊢
    rw [hr] at hm
    rw [rtt]
    intro row hrow
    exact hm row (by simp at hrow ⊢; tauto)
  obtain ⟨y, ey, wy, ry, by', hy⟩ := ttRound_truncated hqr' hsvd' wtt hmt (by rw [ntt]; exact hb) hib he'
  rw [hp, rtt, ntt] at hy
  obtain ⟨T', eT', sT', vT⟩ := full_ok h
  obtain rfl : T' = T := Except.ok.inj (eT'.symm.trans eT)
  obtain rfl : s = restShape t.rawShape := List.append_cancel_left (sT.symm.trans sT')
  obtain ⟨A, eA, sA, vA⟩ := full_ok wxt
  obtain ⟨B, eB, sB, vB⟩ := full_ok wy
  have pA : xt.bpre = t.bpre := by simp [TT.bpre, bxt, bt]
  have pB : y.bpre = t.bpre := by simp [TT.bpre, by', btt]
  rw [pA, rxt] at sA vA
  rw [pB, ry, rtt] at sB vB
  refine ⟨x, xt, tt, y, e, ext, ett, ey, by rw [ry, rtt, rxt], by rw [by', btt, bxt, bt], A, B, eA, eB, by rw [sA, sB], fun i hi => ?_⟩
  rw [sB] at hi
  obtain ⟨p, i, rfl, hpv, hi⟩ := valid_append_iff.1 hi
  rw [vA p i hpv hi, vB p i hpv hi]
  have k := truncated_transpose (hy p hpv)
  have hu := hu p hpv
  have ht := ht p hpv
  rw [hr] at hu ht vT
  have := hu.unique (truncated_congr (fun i hi => (vT p i hpv hi).symm) (fun _ _ => rfl) ht)
    (truncated_congr (fun j hj => by
      obtain ⟨c, r, rfl, hc, hr'⟩ := swap_valid hj
      rw [vT p _ hpv hj]
      exact vtt p _ _ hpv) (fun _ _ => rfl) k)
  obtain ⟨r, c, rfl, hr', hc⟩ := swap_valid hi
  refine (this [r, c] ⟨hr', hc, trivial⟩).trans ?_
  exact (vxt p _ _ (by rw [hpx]; exact hpv)).symm

/-- What scaling the point does to the tangent space. -/
theorem scale_point {x cx : TT ℝ} {c : ℝ} (hc : c ≠ 0) (h : x.WF) (hb : x.batch = none) (hmin : x.MinimalRanks) (hne : x.Nonzero)
    (e : multiplyScalar x c = Except.ok cx) : cx.WF ∧ cx.batch = none ∧ cx.rawShape = x.rawShape ∧ cx.ndims = x.ndims ∧ cx.MinimalRanks ∧ cx.Nonzero ∧
      ∀ f, cx.TangentVector f ↔ x.TangentVector f := by
  obtain ⟨u, eu, wu, ru, bu, ku, nu, vu⟩ := multiplyScalar_spec h c
  obtain rfl : u = cx := Except.ok.inj (eu.symm.trans e)
  have b1 : (scaleFirst c x).batch = none := hb
  have b2 : u.batch = none := bu.trans hb
  have w1 : (scaleFirst c x).WF := scaleFirst_wf h
  have hde : u.dense ≃ₜ (scaleFirst c x).dense := by
    refine ⟨?_, fun i _ => ?_⟩
    · rw [dense_shape_single b1, dense_shape_single b2, ru]; rfl
    · rw [dense_single b1, dense_single b2, vu, scaleFirst_entry h, ru]; rfl
  have m1 : (scaleFirst c x).MinimalRanks := scaleFirst_minimal h hb hc hmin
  have n1 : (scaleFirst c x).Nonzero := by
    obtain ⟨i, hi, hv⟩ := hne
    refine ⟨i, hi, ?_⟩
    rw [dense_single hb] at hv
    rw [dense_single b1, scaleFirst_entry h]
    exact mul_ne_zero hc hv
  have m2 : u.MinimalRanks := MinimalRanks.transfer m1 ru (nu.trans scaleFirst_ndims.symm) hde fun k _ => le_of_eq (by unfold TT.rank; rw [ku]; rfl)
  refine ⟨wu, b2, ru, nu, m2, Nonzero.transfer n1 hde, fun f => ?_⟩
  rw [← scaleFirst_tangent h hc f]
  exact ⟨tangent_of_minimal wu w1 b2 b1 ru.symm hde.symm m2 (Nonzero.transfer n1 hde), tangent_of_minimal w1 wu b1 b2 ru hde m1 n1⟩

/-- **C90.** The tangent space at `c * x` is the tangent space at `x`, for all `c` except zero. -/
theorem C90_tangent_scale {x : TT ℝ} {c : ℝ} (hc : c ≠ 0) (h : x.WF) (hb : x.batch = none) (hmin : x.MinimalRanks) (hne : x.Nonzero) :
    ∃ cx, multiplyScalar x c = Except.ok cx ∧ ∀ f, cx.TangentVector f ↔ x.TangentVector f := by
  obtain ⟨u, eu, -⟩ := multiplyScalar_spec h c
  obtain ⟨-, -, -, -, -, -, k⟩ := scale_point hc h hb hmin hne eu
  exact ⟨u, eu, k⟩

/-- **C90.** `project(what, c * where)` represents the same tensors as `project(what, where)`, for all `c` except zero. -/
theorem C90_project_scale (hqr : qr.Correct) (hqr' : qr'.Correct) {x z : TT ℝ} {c : ℝ} (hc : c ≠ 0) (h : x.WF) (hb : x.batch = none) (hm : x.ModesPos)
    (hd : 2 ≤ x.ndims) (hmin : x.MinimalRanks) (hne : x.Nonzero) (hz : z.WF) (hr : z.rawShape = x.rawShape) :
    ∃ cx y y', multiplyScalar x c = Except.ok cx ∧ project qr z x = Except.ok y ∧ project qr' z cx = Except.ok y' ∧ SameTensors y y' := by
  obtain ⟨u, eu, -⟩ := multiplyScalar_spec h c
  obtain ⟨wu, bu, ru, nu, mu, neu, k⟩ := scale_point hc h hb hmin hne eu
  obtain ⟨T, _, hT, hP⟩ := project_space hqr h hb hm hd
  obtain ⟨T', _, hT', hP'⟩ := project_space hqr' wu bu (modesPos_of_raw hm ru) (by omega)
  obtain ⟨y, Y, Z, e, w, rs, bt, -, eY, eZ, sh, sZ, hv⟩ := hP z hz hr
  obtain ⟨y', Y', Z', e', w', rs', bt', -, eY', eZ', sh', sZ', hv'⟩ := hP' z hz (hr.trans ru.symm)
  obtain rfl : Z = Z' := Except.ok.inj (eZ.symm.trans eZ')
  have hTT : T' = T := Submodule.ext fun f => (hT' mu neu f).trans ((k f).trans (hT hmin hne f).symm)
  subst hTT
  rw [ru] at hv'
  refine ⟨u, y, y', eu, e, e', by rw [rs, rs', ru], bt'.trans bt.symm, Y, Y', eY, eY', by rw [sh, sh'], fun i hi => ?_⟩
  rw [sh', sZ] at hi
  obtain ⟨p, i, rfl, hp, hi⟩ := valid_append_iff.1 hi
  exact proj_unique (z := fun i => Z.get (p ++ i)) (hv' p hp).1 (hv p hp).1 (hv' p hp).2 (hv p hp).2 i hi

/-- What transposing the point does to the tangent space. -/
theorem transpose_point {x xt : TT ℝ} {I J : List ℕ} (h : x.WF) (hb : x.batch = none) (hr : x.rawShape = [I, J]) (hmin : x.MinimalRanks)
    (hne : x.Nonzero) (e : ttTranspose x = Except.ok xt) : xt.WF ∧ xt.batch = none ∧ xt.rawShape = [J, I] ∧ xt.ndims = x.ndims ∧ xt.MinimalRanks ∧
      xt.Nonzero ∧ ∀ f, xt.TangentVector f ↔ x.TangentVector fun i => f i.reverse := by
  obtain ⟨u, eu, wu, ru, bu, nu, ku, vu⟩ := ttTranspose_spec h hr
  obtain rfl : u = xt := Except.ok.inj (eu.symm.trans e)
  have b1 : (swapTT x).batch = none := hb
  have b2 : u.batch = none := bu.trans hb
  have w1 : (swapTT x).WF := swapTT_wf h hb hr
  have r1 : (swapTT x).rawShape = [J, I] := swapTT_raw hr
  have hde : u.dense ≃ₜ (swapTT x).dense := by
    refine ⟨?_, fun i hi => ?_⟩
    · rw [dense_shape_single b1, dense_shape_single b2, ru, r1]
    · rw [dense_shape_single b2, ru] at hi
      obtain ⟨r, c, rfl, hr', hc⟩ := swap_valid hi
      rw [dense_single b1, dense_single b2, swapTT_entry hr, ru, hr]
      exact vu [] _ _ (by simp [TT.bpre, hb])
  have m1 : (swapTT x).MinimalRanks := swapTT_minimal hb hr hmin
  have n1 : (swapTT x).Nonzero := by
    obtain ⟨i, hi, hv⟩ := hne
    rw [dense_shape_single hb, hr] at hi
    obtain ⟨c, r, rfl, hc, hr'⟩ := swap_valid hi
    refine ⟨[c, r], by rw [dense_shape_single b1, r1]; exact ⟨hc, hr', trivial⟩, ?_⟩
    rw [dense_single hb] at hv
    rwa [dense_single b1, swapTT_entry hr]
  have m2 : u.MinimalRanks := MinimalRanks.transfer m1 (ru.trans r1.symm) (nu.trans swapTT_ndims.symm) hde fun k _ => le_of_eq (by unfold TT.rank; rw [ku]; rfl)
  refine ⟨wu, b2, ru, nu, m2, Nonzero.transfer n1 hde, fun f => ?_⟩
  rw [← swapTT_tangent hb hr f]
  exact ⟨tangent_of_minimal wu w1 b2 b1 (r1.trans ru.symm) hde.symm m2 (Nonzero.transfer n1 hde), tangent_of_minimal w1 wu b1 b2 (ru.trans r1.symm) hde m1 n1⟩

/-- **C90.** `project(transpose(what), transpose(where))` represents the same matrices as `transpose(project(what, where))`. -/
theorem C90_project_transpose (hqr : qr.Correct) (hqr' : qr'.Correct) {x z : TT ℝ} (h : x.WF) (hb : x.batch = none) (hm : x.ModesPos)
    (hmat : x.isMatrix) (hd : 2 ≤ x.ndims) (hmin : x.MinimalRanks) (hne : x.Nonzero) (hz : z.WF) (hr : z.rawShape = x.rawShape) :
    ∃ xt zt y yt y', ttTranspose x = Except.ok xt ∧ ttTranspose z = Except.ok zt ∧ project qr z x = Except.ok y ∧ ttTranspose y = Except.ok yt ∧
      project qr' zt xt = Except.ok y' ∧ SameTensors yt y' := by
  obtain ⟨I, J, hx, -, -⟩ := h.rawShape_matrix hmat
  obtain ⟨xt, ext, -⟩ := ttTranspose_spec h hx
  obtain ⟨wx, bx, rx, nx, mx, nex, kx⟩ := transpose_point h hb hx hmin hne ext
  obtain ⟨zt, Z0, Zt, ezt, wzt, rzt, bzt, -, eZ0, eZt, sZ0, sZt, vZt⟩ := C14_transpose z hz I J (hr.trans hx)
  have hmt : xt.ModesPos := by
    unfold TT.ModesPos at hm ⊢
    rw [hx] at hm
    rw [rx]
    intro row hrow
    exact hm row (by simp at hrow ⊢; tauto)
  obtain ⟨T, _, hT, hP⟩ := project_space hqr h hb hm hd
  obtain ⟨T', _, hT', hP'⟩ := project_space hqr' wx bx hmt (by omega)
  obtain ⟨y, Y, Z, e, w, rs, bt, -, eY, eZ, sh, sZ, hv⟩ := hP z hz hr
  obtain ⟨y', Y', Z', e', w', rs', bt', -, eY', eZ', sh', sZ', hv'⟩ := hP' zt wzt (rzt.trans rx.symm)
  obtain rfl : Z = Z0 := Except.ok.inj (eZ.symm.trans eZ0)
  obtain rfl : Z' = Zt := Except.ok.inj (eZ'.symm.trans eZt)
  obtain ⟨yt, Y0, Yt, eyt, wyt, ryt, byt, -, eY0, eYt, sY0, sYt, vYt⟩ := C14_transpose y w I J (rs.trans hx)
  obtain rfl : Y0 = Y := Except.ok.inj (eY0.symm.trans eY)
  have pz : zt.bpre = z.bpre := by simp [TT.bpre, bzt]
  have py : y.bpre = z.bpre := by simp [TT.bpre, bt]
  rw [pz, rx] at hv'
  rw [py] at vYt sYt
  rw [hx] at hv
  refine ⟨xt, zt, y, yt, y', ext, ezt, e, eyt, e', by rw [rs', rx, ryt], by rw [bt', bzt, byt, bt], Yt, Y', eYt, eY', by rw [sh', sZt, sYt], fun i hi => ?_⟩
  rw [sh', sZt] at hi
  obtain ⟨p, i, rfl, hp, hi⟩ := valid_append_iff.1 hi
  have hu : (fun i => Y0.get (p ++ i.reverse)) ∈ T' := by
    rw [hT' mx nex, kx]
    simp only [List.reverse_reverse]
    exact (hT hmin hne _).1 (hv p hp).1
  have ho : ∀ f ∈ T', dot (restShape [J, I]) (fun i => Z'.get (p ++ i) - Y0.get (p ++ i.reverse)) f = 0 := by
    intro f hf
    have hf' := (hv p hp).2 (fun i => f i.reverse) ((hT hmin hne _).2 ((kx f).1 ((hT' mx nex f).1 hf)))
    rw [← dot_swap] at hf'
    simp only [List.reverse_reverse] at hf'
    rw [← hf']
    refine dot_congr (fun i hi => ?_) (fun _ _ => rfl)
    obtain ⟨r, c, rfl, hr', hc⟩ := swap_valid hi
    rw [vZt p r c hp hr' hc]
    rfl
  refine (proj_unique (z := fun i => Z'.get (p ++ i)) (hv' p hp).1 hu (hv' p hp).2 ho i hi).trans ?_
  obtain ⟨r, c, rfl, hr', hc⟩ := swap_valid hi
  exact (vYt p r c hp hr' hc).symm

/-! ## Examples -/

/-- `exDiagTT` is rounded from TT-rank two to TT-rank one. -/
example : (∃ qr : QRRoutine, qr.Correct) ∧ (∃ svd : SVDRoutine, svd.Correct) ∧ exDiagTT.toReal.WF ∧ exDiagTT.toReal.ModesPos ∧
    (MaxRank.num 1).Bounds exDiagTT.toReal.ndims (fun _ => 1) ∧ (exDiagTT.toReal.isBatch → (MaxRank.num 1).Single) ∧
    ∃ T, full exDiagTT.toReal = Except.ok T ∧ T.shape = exDiagTT.toReal.bpre ++ [2, 2] ∧ ∀ p, Valid exDiagTT.toReal.bpre p →
      NoTies exDiagTT.toReal.rawShape [2, 2] (fun _ => 1) (List.range' 1 (exDiagTT.toReal.ndims - 1)).reverse fun i => T.get (p ++ i) := by
  have hw : exDiagTT.toReal.WF := TT.WF.toReal (by decide)
  obtain ⟨T, eT, sT, -⟩ := full_ok hw
  exact ⟨qrRoutine_exists, svdRoutine_exists, hw, by simp [TT.ModesPos, TT.toReal, exDiagTT], Or.inl ⟨1, by omega, Or.inl rfl, fun _ => rfl⟩,
    fun _ l hl => by simp at hl, T, eT, sT, fun p hp => (exDiagTT_gaps eT p hp).noTies (by simp) fun _ _ _ => one_pos⟩

example : exDiagMat.toReal.WF ∧ exDiagMat.toReal.ModesPos ∧ exDiagMat.toReal.isMatrix ∧ (MaxRank.num 2).Bounds exDiagMat.toReal.ndims (fun _ => 2) ∧
    (exDiagMat.toReal.isBatch → (MaxRank.num 2).Single) ∧
    ∃ T, full exDiagMat.toReal = Except.ok T ∧ T.shape = exDiagMat.toReal.bpre ++ [4, 4] ∧ ∀ p, Valid exDiagMat.toReal.bpre p →
      NoTies exDiagMat.toReal.rawShape [4, 4] (fun _ => 2) (List.range' 1 (exDiagMat.toReal.ndims - 1)).reverse fun i => T.get (p ++ i) := by
  have hw : exDiagMat.toReal.WF := TT.WF.toReal (by decide)
  obtain ⟨T, eT, sT, vT⟩ := full_single hw rfl
  refine ⟨hw, by simp [TT.ModesPos, TT.toReal, exDiagMat], rfl, Or.inl ⟨2, by omega, Or.inl rfl, fun _ => rfl⟩, fun _ l hl => by simp at hl, T, eT, sT,
    fun p hp => ?_⟩
  obtain rfl : p = [] := by
    have := hp.length_eq
    simpa [TT.bpre, TT.toReal, exDiagMat] using this
  exact noTies_congr (rows := [[2, 2], [2, 2]]) (fun i hi => (vT i hi).symm) (noTies_of_hasTT (hasTT_iff.2 ⟨exDiagMat.toReal, hw, rfl, rfl,
    fun k _ hk => (show ∀ k ≤ exDiagMat.ndims, exDiagMat.rank k ≤ 2 by decide) k hk.le, fun _ _ => rfl⟩))

example : exEyeMat.toReal.WF ∧ exEyeMat.toReal.batch = none ∧ exEyeMat.toReal.ModesPos ∧ exEyeMat.toReal.isMatrix ∧ 2 ≤ exEyeMat.toReal.ndims ∧
    exEyeMat.toReal.MinimalRanks ∧ exEyeMat.toReal.Nonzero ∧ exEyeBatch.toReal.WF ∧ exEyeBatch.toReal.rawShape = exEyeMat.toReal.rawShape ∧ (-3 : ℝ) ≠ 0 :=
  ⟨exEyeMat_wf, rfl, by simp [TT.ModesPos, TT.toReal, exEyeMat], rfl, by decide, exEyeMat_minimal, exEyeMat_nonzero, TT.WF.toReal (by decide), rfl, by norm_num⟩

end T3f
