import Verif.Proofs.Retraction
import Verif.Props.C37Project
import Mathlib.Analysis.Calculus.Deriv.Basic

/-!
# C93: rounding is a retraction

`round(x + s * v, max_tt_rank)` for a tangent vector `v` at `x` follows the straight line `x + s v` up to `O(s²)`. This is what the
Riemannian optimization of the documentation relies on; the last theorem shows the consequence for the tutorial (C56).
-/

namespace T3f

/-- **C93.** Let `v` be an object that represents a tangent vector at `x`, and let the TT-ranks of `x` be within the bounds. There is a constant
such that for all step sizes `s` between -1 and 1 and all QR and SVD routines, `round(x + s * v, max_tt_rank)` succeeds, has ranks within the
bounds, and no element differs from `x + s v` by more than the constant times `s²`. -/
theorem C93_retraction {x v : TT ℝ} (h : x.WF) (hb : x.batch = none) (hm : x.ModesPos) (hd : 2 ≤ x.ndims) (hv : v.WF) (hvb : v.batch = none)
    (hr : v.rawShape = x.rawShape) {X V : Tensor ℝ} (eX : full x = Except.ok X) (eV : full v = Except.ok V) (htan : x.TangentVector V.get)
    {m : MaxRank} {b : ℕ → ℕ} (hbd : m.Bounds x.ndims b) (hrk : ∀ k, 0 < k → k < x.ndims → x.rank k ≤ b k) :
    ∃ C : ℝ, ∀ (qr : QRRoutine) (svd : SVDRoutine), qr.Correct → svd.Correct → ∀ s : ℝ, |s| ≤ 1 →
      ∃ w y z Z, multiplyScalar v s = Except.ok w ∧ add x w = Except.ok y ∧ ttRound qr svd y m none = Except.ok z ∧
        z.WF ∧ z.rawShape = x.rawShape ∧ z.batch = none ∧ (∀ k, 0 < k → k < x.ndims → z.rank k ≤ b k) ∧
        full z = Except.ok Z ∧ Z.shape = X.shape ∧ ∀ i, Valid X.shape i → |Z.get i - (X.get i + s * V.get i)| ≤ C * s ^ 2 := by
  obtain ⟨C, hC, hcurve⟩ := tangent_curve_dist h hb htan eX
  obtain ⟨X', eX', sX, vX⟩ := full_single h hb
  obtain rfl : X' = X := Except.ok.inj (eX'.symm.trans eX)
  obtain ⟨V', eV', sV, vV⟩ := full_single hv hvb
  obtain rfl : V' = V := Except.ok.inj (eV'.symm.trans eV)
  refine ⟨√((x.ndims - 1 : ℕ) : ℝ) * C, fun qr svd hqr hsvd s hs => ?_⟩
  obtain ⟨w, y, ew, ey, wy, ry, hyb, ny, vy⟩ := add_scaled h hv hd hr hb hvb s
  obtain ⟨Y, eY, sY, -⟩ := full_single wy hyb
  rw [ry] at sY
  have hY : ∀ i, Valid X'.shape i → Y.get i = X'.get i + s * V'.get i := fun i hi => vy X' V' Y eX eV eY i (by rw [← sX]; exact hi)
  obtain ⟨S, F, wS, rS, bS, kS, eF, hF⟩ := hcurve s hs
  have hmy : y.ModesPos := by rw [TT.ModesPos, ry]; exact hm
  have hnb : y.isBatch → m.Single := fun h => by rw [TT.isBatch, hyb] at h; simp at h
  have hby : m.Bounds y.ndims b := by rw [ny]; exact hbd
  obtain ⟨z, Y', Z, F', sh, ez, eY', eZ, eF', sY', sZ, sF', hq⟩ := C32_quasi_optimal hqr hsvd wy hmy hby hnb (eps := none) (by simp) wS
    (rS.trans ry.symm) (bS.trans hyb.symm) (fun k h0 hk => by
      rw [TT.rank, kS]; exact hrk k h0 (by rw [← ny]; exact hk))
  obtain rfl : Y' = Y := Except.ok.inj (eY'.symm.trans eY)
  obtain rfl : F' = F := Except.ok.inj (eF'.symm.trans eF)
  obtain ⟨z', ez', wz, rz, bz, kz, -⟩ := C31_ranks hqr hsvd wy hmy hby hnb (eps := none) (by simp)
  obtain rfl : z' = z := Except.ok.inj (ez'.symm.trans ez)
  have hp : y.bpre = [] := by simp [TT.bpre, hyb]
  rw [hp, List.nil_append] at sY' sZ
  have hsh : sh = X'.shape := by rw [← sY', sY, sX]
  subst hsh
  refine ⟨w, y, z', Z, ew, ey, ez, wz, rz.trans ry, bz.trans hyb, fun k h0 hk => (kz k h0 (by rw [ny]; exact hk)), eZ, sZ, fun i hi => ?_⟩
  have h1 := hq [] (by rw [hp]; trivial)
  have h2 := h1.trans (mul_le_mul_of_nonneg_left (hF Y' hY) (by positivity))
  have h3 : (Y'.get i - Z.get i) ^ 2 ≤ Y'.distSq Z [] X'.shape := by
    rw [Tensor.distSq]
    have := Finset.single_le_sum (f := fun n => (Y'.get ([] ++ unravel X'.shape n) - Z.get ([] ++ unravel X'.shape n)) ^ 2)
      (fun n _ => sq_nonneg _) (Finset.mem_range.2 (ravel_lt hi))
    simpa only [List.nil_append, unravel_ravel hi] using this
  have h4 : (Y'.get i - Z.get i) ^ 2 ≤ (√((x.ndims - 1 : ℕ) : ℝ) * C * s ^ 2) ^ 2 := by
    refine (h3.trans h2).trans (le_of_eq ?_)
    rw [mul_assoc, mul_pow (√_), Real.sq_sqrt (by positivity), ny]
  rw [← hY i hi, abs_sub_comm]
  exact abs_le_of_sq_le_sq h4 (by positivity)

/-- **C93.** Hence the curve starts at `x` with the velocity `v`: if `Z s` is the dense tensor of `round(x + s * v, max_tt_rank)`, computed with any
routines, then `Z 0` is the tensor of `x`, and the derivative of `Z` at 0 is the tensor of `v`. -/
theorem C93_velocity {x v : TT ℝ} (h : x.WF) (hb : x.batch = none) (hm : x.ModesPos) (hd : 2 ≤ x.ndims) (hv : v.WF) (hvb : v.batch = none)
    (hr : v.rawShape = x.rawShape) {X V : Tensor ℝ} (eX : full x = Except.ok X) (eV : full v = Except.ok V) (htan : x.TangentVector V.get)
    {m : MaxRank} {b : ℕ → ℕ} (hbd : m.Bounds x.ndims b) (hrk : ∀ k, 0 < k → k < x.ndims → x.rank k ≤ b k)
    {qr : ℝ → QRRoutine} {svd : ℝ → SVDRoutine} (hqr : ∀ s, (qr s).Correct) (hsvd : ∀ s, (svd s).Correct) {Z : ℝ → Tensor ℝ}
    (hZ : ∀ s w y z, multiplyScalar v s = Except.ok w → add x w = Except.ok y → ttRound (qr s) (svd s) y m none = Except.ok z →
      full z = Except.ok (Z s)) {i : List ℕ} (hi : Valid X.shape i) :
    (Z 0).get i = X.get i ∧ HasDerivAt (fun s => (Z s).get i) (V.get i) 0 := by
  obtain ⟨C, hC⟩ := C93_retraction h hb hm hd hv hvb hr eX eV htan hbd hrk
  have key : ∀ s : ℝ, |s| ≤ 1 → |(Z s).get i - (X.get i + s * V.get i)| ≤ C * s ^ 2 := fun s hs => by
    obtain ⟨w, y, z, Z', ew, ey, ez, -, -, -, -, eZ, -, hz⟩ := hC (qr s) (svd s) (hqr s) (hsvd s) s hs
    have := hZ s w y z ew ey ez
    rw [eZ] at this
    obtain rfl := Except.ok.inj this
    exact hz i hi
  have h0 : (Z 0).get i = X.get i := by
    have := key 0 (by simp)
    simp only [zero_mul, add_zero, ne_eq, OfNat.ofNat_ne_zero, not_false_eq_true, zero_pow, mul_zero, abs_nonpos_iff] at this
    linarith
  refine ⟨h0, ?_⟩
  rw [hasDerivAt_iff_isLittleO_nhds_zero]
  have hbig : (fun s : ℝ => (Z (0 + s)).get i - (Z 0).get i - s • V.get i) =O[nhds 0] fun s : ℝ => s ^ 2 := by
    refine Asymptotics.IsBigO.of_bound C ?_
    filter_upwards [Metric.closedBall_mem_nhds (0 : ℝ) one_pos] with s hs
    rw [mem_closedBall_zero_iff, Real.norm_eq_abs] at hs
    rw [zero_add, h0, Real.norm_eq_abs, Real.norm_eq_abs, abs_of_nonneg (sq_nonneg s), sub_sub, smul_eq_mul]
    exact key s hs
  exact hbig.trans_isLittleO (Asymptotics.isLittleO_pow_id one_lt_two)

/-- **C93.** Consequence for the tutorial: unless the Riemannian gradient `P` (the projection of `X - A`) is zero, every sufficiently small
step of `X <- round(X - alpha * P)` makes the distance to `A` strictly smaller. -/
theorem C93_descent {qr : QRRoutine} (hqr : qr.Correct) {x a : TT ℝ} (h : x.WF) (hb : x.batch = none) (hm : x.ModesPos) (hd : 2 ≤ x.ndims)
    (hmin : x.MinimalRanks) (hne : x.Nonzero) (ha : a.WF) (hab : a.batch = none) (har : a.rawShape = x.rawShape)
    {m : MaxRank} {b : ℕ → ℕ} (hbd : m.Bounds x.ndims b) (hrk : ∀ k, 0 < k → k < x.ndims → x.rank k ≤ b k)
    {g p : TT ℝ} {X A P : Tensor ℝ} (eg : sub x a = Except.ok g) (ep : project qr g x = Except.ok p)
    (eX : full x = Except.ok X) (eA : full a = Except.ok A) (eP : full p = Except.ok P) (hP : ∃ i, Valid X.shape i ∧ P.get i ≠ 0) :
    ∃ α₀ > 0, ∀ svd : SVDRoutine, svd.Correct → ∀ α : ℝ, 0 < α → α ≤ α₀ →
      ∃ z Z, descentUpdate qr svd α m x a = Except.ok z ∧ full z = Except.ok Z ∧ Z.distSq A [] X.shape < X.distSq A [] X.shape := by
  obtain ⟨g', eg', wg, rg, bg, -⟩ := sub_single h ha hd har hb hab
  obtain rfl : g' = g := Except.ok.inj (eg'.symm.trans eg)
  obtain ⟨p', P', G, ep', -, -, -, -, eP', -, -, hT⟩ := C37_project hqr h hb hm hd hmin hne wg rg
  obtain rfl : p' = p := Except.ok.inj (ep'.symm.trans ep)
  obtain rfl : P' = P := Except.ok.inj (eP'.symm.trans eP)
  have hpt : x.TangentVector P'.get := by
    have := (hT [] (by rw [TT.bpre, bg]; trivial)).1
    simpa only [List.nil_append] using this
  obtain ⟨C, hC, hcurve⟩ := tangent_curve_dist h hb hpt eX
  set K := √((x.ndims - 1 : ℕ) : ℝ) * C with hK
  have hK0 : 0 ≤ K := by positivity
  have hp0 : 0 < P'.normSq [] X.shape := by
    obtain ⟨i, hi, hne⟩ := hP
    have := Finset.single_le_sum (f := fun n => P'.get ([] ++ unravel X.shape n) ^ 2)
      (fun n _ => sq_nonneg _) (Finset.mem_range.2 (ravel_lt hi))
    simp only [List.nil_append, unravel_ravel hi] at this
    have h2 : 0 < P'.get i ^ 2 := by positivity
    simp only [Tensor.normSq, List.nil_append]
    linarith
  set q := P'.normSq [] X.shape
  set D := X.distSq A [] X.shape
  have hstep : ∀ svd : SVDRoutine, svd.Correct → ∀ α : ℝ, 0 < α → α ≤ 1 → ∃ z Z, descentUpdate qr svd α m x a = Except.ok z ∧
      full z = Except.ok Z ∧ √(Z.distSq A [] X.shape) ≤ K * α ^ 2 + √(D - α * (2 - α) * q) ∧ 0 ≤ D - α * (2 - α) * q := by
    intro svd hsvd α h0 h1
    obtain ⟨g₂, p₂, z, X₂, A₂, P₂, Z, eg₂, ep₂, ez, -, -, -, -, eX₂, eA₂, eP₂, eZ, -, -, -, e1, e2⟩ :=
      C56_update hqr hsvd h hb hm hd ha hab har hbd α
    rw [eg] at eg₂; cases eg₂
    rw [ep] at ep₂; cases ep₂
    rw [eX] at eX₂; cases eX₂
    rw [eA] at eA₂; cases eA₂
    rw [eP] at eP₂; cases eP₂
    obtain ⟨S, F, wS, rS, bS, kS, eF, hF⟩ := hcurve (-α) (by rw [abs_neg, abs_of_pos h0]; exact h1)
    have h3 := e2 S F wS rS bS (fun k h0 hk => by rw [TT.rank, kS]; exact hrk k h0 hk) eF
    have h4 := h3.trans (mul_le_mul_of_nonneg_left (hF (X.move P' α) fun i _ => by simp [Tensor.move, sub_eq_add_neg]) (by positivity))
    refine ⟨z, Z, ez, eZ, ?_, by rw [← e1]; exact distSq_nonneg _ _ _ _⟩
    rw [← e1]
    refine (dist_triangle Z (X.move P' α) A [] X.shape).trans (add_le_add ?_ le_rfl)
    rw [distSq_comm]
    refine Real.sqrt_le_iff.2 ⟨by positivity, h4.trans (le_of_eq ?_)⟩
    rw [hK, neg_sq, mul_assoc, mul_pow (√_), Real.sq_sqrt (by positivity)]
  have hD : 0 < D := by
    obtain ⟨svd₁, hsvd⟩ := svdRoutine_exists
    obtain ⟨z, Z, -, -, -, h5⟩ := hstep svd₁ hsvd 1 one_pos le_rfl
    nlinarith
  have hs : 0 < √D := Real.sqrt_pos.2 hD
  refine ⟨min 1 (q / (4 * √D * (K + 1))), by positivity, fun svd hsvd α h0 h1 => ?_⟩
  have hα1 : α ≤ 1 := h1.trans (min_le_left _ _)
  have hα2 : α ≤ q / (4 * √D * (K + 1)) := h1.trans (min_le_right _ _)
  obtain ⟨z, Z, ez, eZ, h5, h6⟩ := hstep svd hsvd α h0 hα1
  refine ⟨z, Z, ez, eZ, ?_⟩
  have h7 : α * (4 * √D * (K + 1)) ≤ q := by rwa [le_div_iff₀ (by positivity)] at hα2
  have hsq : √D ^ 2 = D := Real.sq_sqrt hD.le
  have h8 : √(D - α * (2 - α) * q) ≤ √D - α * q / (2 * √D) := by
    refine Real.sqrt_le_iff.2 ⟨?_, ?_⟩
    · rw [sub_nonneg, div_le_iff₀ (by positivity)]
      have : α * (2 - α) * q ≤ D := by linarith
      nlinarith [mul_nonneg (mul_nonneg h0.le (sub_nonneg.2 hα1)) hp0.le]
    · have e : (√D - α * q / (2 * √D)) ^ 2 = D - α * q + (α * q / (2 * √D)) ^ 2 := by
        field_simp
        rw [hsq]
        ring
      rw [e]
      nlinarith [sq_nonneg (α * q / (2 * √D)), mul_nonneg (mul_nonneg h0.le (sub_nonneg.2 hα1)) hp0.le]
  have h9 : K * α ^ 2 < α * q / (2 * √D) := by
    rw [lt_div_iff₀ (by positivity)]
    nlinarith [mul_pos h0 hs, mul_pos (mul_pos h0 h0) hs, mul_nonneg (mul_nonneg (mul_nonneg h0.le h0.le) hs.le) hK0, mul_le_mul_of_nonneg_left h7 h0.le]
  exact (Real.sqrt_lt_sqrt_iff (distSq_nonneg _ _ _ _)).1 (by linarith)

/-- A point is its own tangent vector. -/
theorem tangent_self {x : TT ℝ} (h : x.WF) (hb : x.batch = none) (hm : x.ModesPos) (hd : 2 ≤ x.ndims) (hmin : x.MinimalRanks) (hne : x.Nonzero)
    {X : Tensor ℝ} (eX : full x = Except.ok X) : x.TangentVector X.get := by
  obtain ⟨qr, hqr⟩ := qrRoutine_exists
  obtain ⟨y, X', Y, ey, -, eX', eY, hY⟩ := C37_self hqr h hb hm hd
  obtain rfl : X' = X := Except.ok.inj (eX'.symm.trans eX)
  obtain ⟨y', Y', _, ey', -, -, -, -, eY', -, -, hT⟩ := C37_project hqr h hb hm hd hmin hne h rfl
  rw [ey] at ey'; cases ey'
  rw [eY] at eY'; cases eY'
  obtain ⟨D, hD⟩ := (hT [] (by rw [TT.bpre, hb]; trivial)).1
  refine ⟨D, fun i hi => ?_⟩
  rw [← hD i hi]
  obtain ⟨X₂, eX₂, sX, -⟩ := full_single h hb
  obtain rfl : X₂ = X' := Except.ok.inj (eX₂.symm.trans eX)
  rw [dense_shape_single hb] at hi
  exact (hY.2 i (by rw [hY.1, sX]; exact hi)).symm

theorem exEye2_rank : ∀ k, 0 < k → k < exEye2.toReal.ndims → exEye2.toReal.rank k ≤ 2 := by
  intro k h0 hk
  have hk : k < 2 := hk
  obtain rfl : k = 1 := by omega
  exact le_rfl

theorem exEye2_modes : exEye2.toReal.ModesPos := by simp [TT.ModesPos, TT.toReal, exEye2]

/-- The identity matrix of size two, moved in its own direction. -/
example : ∃ X V : Tensor ℝ, full exEye2.toReal = Except.ok X ∧ full exEye2.toReal = Except.ok V ∧ exEye2.toReal.TangentVector V.get ∧
    (MaxRank.num 2).Bounds exEye2.toReal.ndims (fun _ => 2) ∧ ∀ k, 0 < k → k < exEye2.toReal.ndims → exEye2.toReal.rank k ≤ 2 := by
  obtain ⟨X, eX, -⟩ := full_single exEye2_wf rfl
  exact ⟨X, X, eX, eX, tangent_self exEye2_wf rfl exEye2_modes le_rfl exEye2_minimal exEye2_nonzero eX,
    Or.inl ⟨2, by omega, Or.inl rfl, fun _ => rfl⟩, exEye2_rank⟩

/-- The gradient at the identity matrix for the target `((20, 20), (20, -2000))` is not zero: sufficiently small steps approach the target. -/
example {qr : QRRoutine} (hqr : qr.Correct) : ∃ X A, full exEye2.toReal = Except.ok X ∧ full exFar.toReal = Except.ok A ∧
    ∃ α₀ > 0, ∀ svd : SVDRoutine, svd.Correct → ∀ α : ℝ, 0 < α → α ≤ α₀ → ∃ z Z,
      descentUpdate qr svd α (MaxRank.num 2) exEye2.toReal exFar.toReal = Except.ok z ∧ full z = Except.ok Z ∧
        Z.distSq A [] X.shape < X.distSq A [] X.shape := by
  obtain ⟨X, eX, sX, vX⟩ := full_single exEye2_wf rfl
  obtain ⟨A, eA, sA, vA⟩ := full_single exFar_wf rfl
  obtain ⟨g, eg, wg, rg, bg, ng, -, vg⟩ := sub_single exEye2_wf exFar_wf le_rfl rfl rfl rfl
  obtain ⟨p, P, G, ep, -, -, -, -, eP, eG, -, hT⟩ := C37_project hqr exEye2_wf rfl exEye2_modes le_rfl exEye2_minimal exEye2_nonzero wg rg
  refine ⟨X, A, eX, eA, C93_descent hqr exEye2_wf rfl exEye2_modes le_rfl exEye2_minimal exEye2_nonzero exFar_wf rfl rfl
    (Or.inl ⟨2, by omega, Or.inl rfl, fun _ => rfl⟩) exEye2_rank eg ep eX eA eP ?_⟩
  by_contra hcon
  push Not at hcon
  have h1 := (hT [] (by rw [TT.bpre, bg]; trivial)).2 X.get
    (tangent_self exEye2_wf rfl exEye2_modes le_rfl exEye2_minimal exEye2_nonzero eX)
  have sX' : X.shape = [2, 2] := sX
  have hX : ∀ i < 2, ∀ j < 2, X.get [i, j] = if i = j then 1 else 0 := fun i hi j hj => by
    rw [← exEye2_entry i j hi hj, dense_single rfl]
    exact vX _ (by rw [← sX, sX']; simp [Valid, hi, hj])
  have hA : ∀ i < 2, ∀ j < 2, A.get [i, j] = if i = 1 ∧ j = 1 then -2000 else 20 := fun i hi j hj => by
    rw [← exFar_entry i j hi hj, dense_single rfl]
    exact vA _ (by change Valid [2, 2] _; simp [Valid, hi, hj])
  rw [dense_shape_single rfl, ← sX, dot_congr (f' := fun i => X.get i - A.get i) (g' := X.get) (fun i hi => by
    rw [List.nil_append, hcon i hi, vg X A G eX eA eG i (by rw [← sX]; exact hi), sub_zero]) (fun _ _ => rfl), sX', dot_matrix] at h1
  simp [Finset.sum_range_succ, hX, hA] at h1
  norm_num at h1

end T3f
