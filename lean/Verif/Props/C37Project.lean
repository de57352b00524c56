import Verif.Proofs.ProjectProps
import Verif.Spec.Kron

/-!
# C37: projection on the tangent space

`qr` is any routine that returns correct QR factorizations. A tangent vector at `x` is a sum of tensors, each represented by `x` with
one core replaced (`TT.TangentVector`). This is the tangent space of the set of tensors with the ranks of `x` when `x` has minimal
ranks (`TT.MinimalRanks`) and is not zero.
-/

namespace T3f

/-- C37: `project(z, x)` is the orthogonal projection of `z` (of every batch item of `z`) on the tangent space at `x`: the result is a
tangent vector and the difference is orthogonal to every tangent vector. The ranks of the result are twice the ranks of `x`. -/
theorem C37_project {qr : QRRoutine} (hqr : qr.Correct) {x z : TT ℝ} (h : x.WF) (hb : x.batch = none) (hm : x.ModesPos) (hd : 2 ≤ x.ndims)
    (hmin : x.MinimalRanks) (hne : x.Nonzero) (hz : z.WF) (hr : z.rawShape = x.rawShape) :
    ∃ y Y Z, project qr z x = Except.ok y ∧ y.WF ∧ y.rawShape = x.rawShape ∧ y.batch = z.batch ∧
      (∀ k, 0 < k → k < x.ndims → y.rank k = 2 * x.rank k) ∧ full y = Except.ok Y ∧ full z = Except.ok Z ∧ Y.shape = Z.shape ∧
      ∀ p, Valid z.bpre p → x.TangentVector (fun i => Y.get (p ++ i)) ∧
        ∀ f, x.TangentVector f → dot x.dense.shape (fun i => Z.get (p ++ i) - Y.get (p ++ i)) f = 0 := by
  obtain ⟨T, _, hT, hP⟩ := project_space hqr h hb hm hd
  obtain ⟨y, Y, Z, e, w, rs, b, rk, eY, eZ, sh, _, hv⟩ := hP z hz hr
  refine ⟨y, Y, Z, e, w, rs, b, fun k h1 h2 => (rk k h1 h2).2 hmin, eY, eZ, sh, fun p hp => ⟨(hT hmin hne _).1 (hv p hp).1, fun f hf => ?_⟩⟩
  rw [dense_shape_single hb]
  exact (hv p hp).2 f ((hT hmin hne f).2 hf)

/-- The identity matrix of size two, as a tensor with two modes and rank two. -/
def exEye2 : TT ℤ where
  cores := [.ofList [1, 2, 2] [1, 0, 0, 1], .ofList [2, 2, 1] [1, 0, 0, 1]]
  rawShape := [[2, 2]]
  ttRanks := [1, 2, 1]
  batch := none

/-- A batch of two tensors of shape `2 × 2`, of rank one. -/
def exPair2 : TT ℤ where
  cores := [.ofList [2, 1, 2, 1] [1, 2, 3, 4], .ofList [2, 1, 2, 1] [5, 6, 7, 8]]
  rawShape := [[2, 2]]
  ttRanks := [1, 1, 1]
  batch := some 2

theorem exEye2_wf : exEye2.toReal.WF := TT.WF.toReal (by decide)
theorem exPair2_wf : exPair2.toReal.WF := TT.WF.toReal (by decide)

theorem exEye2_entry (i j : ℕ) (hi : i < 2) (hj : j < 2) : exEye2.toReal.dense.get [i, j] = if i = j then 1 else 0 := by
  interval_cases i <;> interval_cases j <;>
    simp [TT.dense, TT.decode, TT.entry, TT.toReal, exEye2, TT.isMatrix, TT.bpre, TT.ndims, lprod, TT.slice, TT.core, TT.rank, tIdx, Tensor.map,
      Tensor.ofList, ravel, Finset.sum_range_succ]

theorem exEye2_nonzero : exEye2.toReal.Nonzero :=
  ⟨[0, 0], by simp [TT.dense, TT.denseShape, TT.toReal, exEye2, TT.isMatrix, TT.bpre, Valid], by rw [exEye2_entry 0 0 (by omega) (by omega)]; simp⟩

theorem exEye2_minimal : exEye2.toReal.MinimalRanks := by
  intro s hs hb hr he k hk
  have hk : k ≤ 2 := hk
  have hr' : s.rawShape = [[2, 2]] := hr
  have hn : s.ndims = 2 := ndims_of_rows hs exEye2_wf hr
  have hpos := hs.rank_pos k (by omega)
  interval_cases k
  · exact hpos
  · by_contra hlt
    have h1 : s.rank 1 = 1 := by
      have : exEye2.toReal.rank 1 = 2 := rfl
      omega
    have hent : ∀ i < 2, ∀ j < 2, s.entry [] (tIdx [i, j]) = if i = j then 1 else 0 := by
      intro i hi j hj
      rw [← exEye2_entry i j hi hj, ← he.2 [i, j] (by rw [he.1]; simp [TT.dense, TT.denseShape, TT.toReal, exEye2, TT.isMatrix, TT.bpre, Valid, hi, hj])]
      have := dense_get s [] [i, j] (by simp [TT.bpre, hb])
      rw [List.nil_append] at this
      rw [this, restModes, if_neg (by simp [hr'])]
    have hprod : ∀ i j, s.entry [] (tIdx [i, j]) = (s.core 0).get [0, i, 0] * (s.core 1).get [0, j, 0] := by
      intro i j
      simp [TT.entry, hn, lprod, h1, hs.rank_first, TT.slice, tIdx]
    have e00 := hent 0 (by omega) 0 (by omega)
    have e01 := hent 0 (by omega) 1 (by omega)
    have e11 := hent 1 (by omega) 1 (by omega)
    rw [hprod] at e00 e01 e11
    simp only [if_true, if_neg (show ¬ (0 : ℕ) = 1 by omega)] at e00 e01 e11
    rcases mul_eq_zero.1 e01 with h | h
    · rw [h, zero_mul] at e00; exact one_ne_zero e00.symm
    · rw [h, mul_zero] at e11; exact one_ne_zero e11.symm
  · exact hpos

example : exEye2.toReal.WF ∧ exEye2.toReal.batch = none ∧ exEye2.toReal.ModesPos ∧ 2 ≤ exEye2.toReal.ndims ∧ exEye2.toReal.MinimalRanks ∧
    exEye2.toReal.Nonzero ∧ exPair2.toReal.WF ∧ exPair2.toReal.rawShape = exEye2.toReal.rawShape ∧ ∃ qr : QRRoutine, qr.Correct :=
  ⟨exEye2_wf, rfl, by simp [TT.ModesPos, TT.toReal, exEye2], le_rfl, exEye2_minimal, exEye2_nonzero, exPair2_wf, rfl, qrRoutine_exists⟩

/-- C37: without minimality, `project(·, x)` is still the orthogonal projection on a space that depends on `x` only and contains `x`; the ranks
of the result are at most twice the ranks of `x`. -/
theorem C37_project_any {qr : QRRoutine} (hqr : qr.Correct) {x : TT ℝ} (h : x.WF) (hb : x.batch = none) (hm : x.ModesPos) (hd : 2 ≤ x.ndims) :
    ∃ T : Submodule ℝ (List ℕ → ℝ), (∀ X, full x = Except.ok X → ∃ f ∈ T, ∀ i, Valid X.shape i → f i = X.get i) ∧
      ∀ z : TT ℝ, z.WF → z.rawShape = x.rawShape → ∃ y Y Z, project qr z x = Except.ok y ∧ y.WF ∧ y.rawShape = x.rawShape ∧ y.batch = z.batch ∧
        (∀ k, 0 < k → k < x.ndims → y.rank k ≤ 2 * x.rank k) ∧ full y = Except.ok Y ∧ full z = Except.ok Z ∧ Y.shape = Z.shape ∧
        ∀ p, Valid z.bpre p → (fun i => Y.get (p ++ i)) ∈ T ∧
          ∀ f ∈ T, dot x.dense.shape (fun i => Z.get (p ++ i) - Y.get (p ++ i)) f = 0 := by
  obtain ⟨T, hx, hT, hP⟩ := project_space hqr h hb hm hd
  refine ⟨T, fun X eX => ⟨_, hx, fun i hi => ?_⟩, fun z hz hr => ?_⟩
  · obtain ⟨X', eX', sX, vX⟩ := full_single h hb
    obtain rfl : X' = X := Except.ok.inj (eX'.symm.trans eX)
    rw [sX] at hi
    exact (vX i hi).symm
  · obtain ⟨y, Y, Z, e, w, rs, b, rk, eY, eZ, sh, _, hv⟩ := hP z hz hr
    rw [dense_shape_single hb]
    exact ⟨y, Y, Z, e, w, rs, b, fun k h1 h2 => (rk k h1 h2).1, eY, eZ, sh, hv⟩

example : exTensor3.toReal.WF ∧ exTensor3.toReal.batch = none ∧ exTensor3.toReal.ModesPos ∧ 2 ≤ exTensor3.toReal.ndims :=
  ⟨TT.WF.toReal (by decide), rfl, by simp [TT.ModesPos, TT.toReal, exTensor3], by decide⟩

/-- C37: the projection of `x` on its own tangent space is `x`. -/
theorem C37_self {qr : QRRoutine} (hqr : qr.Correct) {x : TT ℝ} (h : x.WF) (hb : x.batch = none) (hm : x.ModesPos) (hd : 2 ≤ x.ndims) :
    ∃ y X Y, project qr x x = Except.ok y ∧ y.WF ∧ full x = Except.ok X ∧ full y = Except.ok Y ∧ Y ≃ₜ X := by
  obtain ⟨T, hx, hT, hP⟩ := project_space hqr h hb hm hd
  obtain ⟨y, Y, X, e, w, rs, b, rk, eY, eX, sh, sX, hv⟩ := hP x h rfl
  obtain ⟨X', eX', _, vX⟩ := full_single h hb
  obtain rfl : X' = X := Except.ok.inj (eX'.symm.trans eX)
  have hp : x.bpre = [] := by simp [TT.bpre, hb]
  rw [hp, List.nil_append] at sX
  obtain ⟨h1, h2⟩ := hv [] (by rw [hp]; trivial)
  refine ⟨y, X', Y, e, w, eX, eY, sh, fun i hi => ?_⟩
  rw [sh, sX] at hi
  refine (proj_unique h1 hx h2 (fun f _ => ?_) i hi).trans (vX i hi).symm
  rw [dot_congr (f' := fun _ => 0) (g' := f) (fun i hi => by simp only [List.nil_append]; rw [vX i hi, sub_self]) (fun _ _ => rfl)]
  simp [dot]

example : exMatrix.toReal.WF ∧ exMatrix.toReal.batch = none ∧ exMatrix.toReal.ModesPos ∧ 2 ≤ exMatrix.toReal.ndims :=
  ⟨TT.WF.toReal (by decide), rfl, by simp [TT.ModesPos, TT.toReal, exMatrix], by decide⟩

/-- C37: projecting twice is the same as projecting once. -/
theorem C37_idempotent {qr : QRRoutine} (hqr : qr.Correct) {x z : TT ℝ} (h : x.WF) (hb : x.batch = none) (hm : x.ModesPos) (hd : 2 ≤ x.ndims)
    (hz : z.WF) (hr : z.rawShape = x.rawShape) :
    ∃ y y' Y Y', project qr z x = Except.ok y ∧ project qr y x = Except.ok y' ∧ full y = Except.ok Y ∧ full y' = Except.ok Y' ∧ Y' ≃ₜ Y := by
  obtain ⟨T, hx, hT, hP⟩ := project_space hqr h hb hm hd
  obtain ⟨y, Y, Z, e, w, rs, b, rk, eY, eZ, sh, sZ, hv⟩ := hP z hz hr
  obtain ⟨y', Y', Y₂, e', w', rs', b', rk', eY', eY₂, sh', sY, hv'⟩ := hP y w rs
  obtain rfl : Y = Y₂ := Except.ok.inj (eY.symm.trans eY₂)
  refine ⟨y, y', Y, Y', e, e', eY, eY', sh', fun i hi => ?_⟩
  rw [sh', sY] at hi
  obtain ⟨p, i, rfl, hp, hi⟩ := valid_append_iff.1 hi
  obtain ⟨h1, h2⟩ := hv' p hp
  have hp' : Valid z.bpre p := by rw [TT.bpre, b] at hp; exact hp
  refine proj_unique h1 (hv p hp').1 h2 (fun f _ => ?_) i hi
  rw [dot_congr (f' := fun _ => 0) (g' := f) (fun i _ => sub_self _) (fun _ _ => rfl)]
  simp [dot]

example : exEye2.toReal.WF ∧ exEye2.toReal.ModesPos ∧ 2 ≤ exEye2.toReal.ndims ∧ exPair2.toReal.WF ∧ exPair2.toReal.rawShape = exEye2.toReal.rawShape :=
  ⟨exEye2_wf, by simp [TT.ModesPos, TT.toReal, exEye2], le_rfl, exPair2_wf, rfl⟩

/-- C37: the projection is self-adjoint: `⟨P u, v⟩ = ⟨u, P v⟩` for all pairs of batch items. -/
theorem C37_self_adjoint {qr : QRRoutine} (hqr : qr.Correct) {x u v : TT ℝ} (h : x.WF) (hb : x.batch = none) (hm : x.ModesPos) (hd : 2 ≤ x.ndims)
    (hu : u.WF) (hru : u.rawShape = x.rawShape) (hv : v.WF) (hrv : v.rawShape = x.rawShape) :
    ∃ y z U V Y Z, project qr u x = Except.ok y ∧ project qr v x = Except.ok z ∧ full u = Except.ok U ∧ full v = Except.ok V ∧
      full y = Except.ok Y ∧ full z = Except.ok Z ∧ ∀ p q, Valid u.bpre p → Valid v.bpre q →
        dot x.dense.shape (fun i => Y.get (p ++ i)) (fun i => V.get (q ++ i)) = dot x.dense.shape (fun i => U.get (p ++ i)) (fun i => Z.get (q ++ i)) := by
  obtain ⟨T, hx, hT, hP⟩ := project_space hqr h hb hm hd
  obtain ⟨y, Y, U, e, _, _, _, _, eY, eU, _, _, h1⟩ := hP u hu hru
  obtain ⟨z, Z, V, e', _, _, _, _, eZ, eV, _, _, h2⟩ := hP v hv hrv
  refine ⟨y, z, U, V, Y, Z, e, e', eU, eV, eY, eZ, fun p q hp hq => ?_⟩
  rw [dense_shape_single hb]
  obtain ⟨a1, a2⟩ := h1 p hp
  obtain ⟨b1, b2⟩ := h2 q hq
  have c1 := a2 _ b1
  have c2 := b2 _ a1
  rw [dot_sub, sub_eq_zero] at c1 c2
  rw [c1, dot_comm, c2, dot_comm]

example : exEye2.toReal.WF ∧ exEye2.toReal.ModesPos ∧ 2 ≤ exEye2.toReal.ndims ∧ exPair2.toReal.WF ∧ exPair2.toReal.rawShape = exEye2.toReal.rawShape :=
  ⟨exEye2_wf, by simp [TT.ModesPos, TT.toReal, exEye2], le_rfl, exPair2_wf, rfl⟩

/-- C37: `project(z, x)` is the nearest tangent vector to `z`. -/
theorem C37_nearest {qr : QRRoutine} (hqr : qr.Correct) {x z : TT ℝ} (h : x.WF) (hb : x.batch = none) (hm : x.ModesPos) (hd : 2 ≤ x.ndims)
    (hmin : x.MinimalRanks) (hne : x.Nonzero) (hz : z.WF) (hr : z.rawShape = x.rawShape) :
    ∃ y Y Z, project qr z x = Except.ok y ∧ full y = Except.ok Y ∧ full z = Except.ok Z ∧
      ∀ p, Valid z.bpre p → ∀ f, x.TangentVector f →
        dot x.dense.shape (fun i => Z.get (p ++ i) - Y.get (p ++ i)) (fun i => Z.get (p ++ i) - Y.get (p ++ i)) ≤
          dot x.dense.shape (fun i => Z.get (p ++ i) - f i) (fun i => Z.get (p ++ i) - f i) := by
  obtain ⟨T, hx, hT, hP⟩ := project_space hqr h hb hm hd
  obtain ⟨y, Y, Z, e, _, _, _, _, eY, eZ, _, _, h1⟩ := hP z hz hr
  refine ⟨y, Y, Z, e, eY, eZ, fun p hp f hf => ?_⟩
  rw [dense_shape_single hb]
  obtain ⟨a1, a2⟩ := h1 p hp
  have c := a2 _ (T.sub_mem a1 ((hT hmin hne f).2 hf))
  have key : dot (restShape x.rawShape) (fun i => Z.get (p ++ i) - f i) (fun i => Z.get (p ++ i) - f i) =
      dot (restShape x.rawShape) (fun i => Z.get (p ++ i) - Y.get (p ++ i)) (fun i => Z.get (p ++ i) - Y.get (p ++ i)) +
      2 * dot (restShape x.rawShape) (fun i => Z.get (p ++ i) - Y.get (p ++ i)) ((fun i => Y.get (p ++ i)) - f) +
      dot (restShape x.rawShape) ((fun i => Y.get (p ++ i)) - f) ((fun i => Y.get (p ++ i)) - f) := by
    unfold dot
    rw [Finset.mul_sum, ← Finset.sum_add_distrib, ← Finset.sum_add_distrib]
    refine Finset.sum_congr rfl fun n _ => ?_
    simp only [Pi.sub_apply]
    ring
  rw [key, c]
  have := dot_self_nonneg (s := restShape x.rawShape) ((fun i => Y.get (p ++ i)) - f)
  linarith

example : exEye2.toReal.WF ∧ exEye2.toReal.ModesPos ∧ exEye2.toReal.MinimalRanks ∧ exEye2.toReal.Nonzero ∧ exPair2.toReal.WF :=
  ⟨exEye2_wf, by simp [TT.ModesPos, TT.toReal, exEye2], exEye2_minimal, exEye2_nonzero, exPair2_wf⟩

/-- C37: the projection is linear: if `w = a u + b v` as tensors (or item by item as batches), then `P w = a P u + b P v`. -/
theorem C37_linear {qr : QRRoutine} (hqr : qr.Correct) {x u v w : TT ℝ} (h : x.WF) (hb : x.batch = none) (hm : x.ModesPos) (hd : 2 ≤ x.ndims)
    (hu : u.WF) (hru : u.rawShape = x.rawShape) (hv : v.WF) (hrv : v.rawShape = x.rawShape) (hw : w.WF) (hrw : w.rawShape = x.rawShape)
    (hbu : u.batch = w.batch) (hbv : v.batch = w.batch) {U V W : Tensor ℝ} (eU : full u = Except.ok U) (eV : full v = Except.ok V)
    (eW : full w = Except.ok W) {a b : ℝ} (hl : ∀ i, Valid W.shape i → W.get i = a * U.get i + b * V.get i) :
    ∃ pu pv pw PU PV PW, project qr u x = Except.ok pu ∧ project qr v x = Except.ok pv ∧ project qr w x = Except.ok pw ∧
      full pu = Except.ok PU ∧ full pv = Except.ok PV ∧ full pw = Except.ok PW ∧ PW.shape = W.shape ∧
      ∀ i, Valid W.shape i → PW.get i = a * PU.get i + b * PV.get i := by
  obtain ⟨T, hx, hT, hP⟩ := project_space hqr h hb hm hd
  obtain ⟨pu, PU, U', e1, _, _, _, _, ePU, eU', _, _, h1⟩ := hP u hu hru
  obtain ⟨pv, PV, V', e2, _, _, _, _, ePV, eV', _, _, h2⟩ := hP v hv hrv
  obtain ⟨pw, PW, W', e3, _, _, _, _, ePW, eW', sh, sW, h3⟩ := hP w hw hrw
  obtain rfl : U' = U := Except.ok.inj (eU'.symm.trans eU)
  obtain rfl : V' = V := Except.ok.inj (eV'.symm.trans eV)
  obtain rfl : W' = W := Except.ok.inj (eW'.symm.trans eW)
  refine ⟨pu, pv, pw, PU, PV, PW, e1, e2, e3, ePU, ePV, ePW, sh, fun i hi => ?_⟩
  rw [sW] at hi
  obtain ⟨p, i, rfl, hp, hi⟩ := valid_append_iff.1 hi
  obtain ⟨a1, a2⟩ := h1 p (by rw [TT.bpre, hbu]; exact hp)
  obtain ⟨b1, b2⟩ := h2 p (by rw [TT.bpre, hbv]; exact hp)
  obtain ⟨c1, c2⟩ := h3 p hp
  refine proj_unique c1 (T.add_mem (T.smul_mem a a1) (T.smul_mem b b1)) c2 (fun f hf => ?_) i hi
  have d1 := a2 f hf
  have d2 := b2 f hf
  have key : dot (restShape x.rawShape) (fun i => W'.get (p ++ i) - ((a • fun i => PU.get (p ++ i)) + b • fun i => PV.get (p ++ i)) i) f =
      a * dot (restShape x.rawShape) (fun i => U'.get (p ++ i) - PU.get (p ++ i)) f + b * dot (restShape x.rawShape) (fun i => V'.get (p ++ i) - PV.get (p ++ i)) f := by
    rw [dot_congr (f' := fun i => a * (U'.get (p ++ i) - PU.get (p ++ i)) + b * (V'.get (p ++ i) - PV.get (p ++ i))) (g' := f) (fun i hi => ?_) (fun _ _ => rfl)]
    · unfold dot
      rw [Finset.mul_sum, Finset.mul_sum, ← Finset.sum_add_distrib]
      exact Finset.sum_congr rfl fun n _ => by ring
    · rw [hl (p ++ i) (by rw [sW]; exact valid_append hp hi)]
      simp only [Pi.add_apply, Pi.smul_apply, smul_eq_mul]
      ring
  rw [key, d1, d2]; ring

example : ∃ U, full exPair2.toReal = Except.ok U ∧ ∀ i, Valid U.shape i → U.get i = 3 * U.get i + (-2) * U.get i := by
  obtain ⟨U, e, _⟩ := full_ok exPair2_wf
  exact ⟨U, e, fun i _ => by ring⟩

/-- C37: a batch as `where`, different shapes, and objects with one core are errors. -/
theorem C37_errors {qr : QRRoutine} (hqr : qr.Correct) {x z : TT ℝ} (h : x.WF) (hm : x.ModesPos) (hz : z.WF)
    (he : x.isBatch ∨ z.rawShape ≠ x.rawShape ∨ x.ndims = 1) : project qr z x = Except.error Err.value := by
  by_cases hb : x.batch = none
  swap
  · unfold project projectChecks
    rw [require_neg hb]; rfl
  by_cases hr : z.rawShape = x.rawShape
  swap
  · unfold project projectChecks
    rw [require_pos hb, require_neg (fun e => hr e.symm)]; rfl
  rcases he with he | he | he
  · simp [TT.isBatch, hb] at he
  · exact absurd hr he
  · exact project_one_dim hqr h hm he hz

/-- A vector with one mode. -/
def exVector : TT ℤ where
  cores := [.ofList [1, 3, 1] [1, -2, 3]]
  rawShape := [[3]]
  ttRanks := [1, 1]
  batch := none

example : exVector.toReal.WF ∧ exVector.toReal.ModesPos ∧ exVector.toReal.ndims = 1 ∧ exPair2.toReal.isBatch ∧
    exTensor3.toReal.rawShape ≠ exEye2.toReal.rawShape :=
  ⟨TT.WF.toReal (by decide), by simp [TT.ModesPos, TT.toReal, exVector], rfl, by simp [TT.isBatch, TT.toReal, exPair2],
    by simp [TT.toReal, exTensor3, exEye2]⟩

end T3f
