import Verif.Proofs.Complex
import Verif.Props.C11Inner
import Verif.Model.Gather
import Verif.Spec.Kron

/-!
# C73: TT objects with complex cores

`qr` is any routine for the QR decomposition of complex matrices, `A = Q R` with `Qᴴ Q = 1` (`Cx.QRRoutine.Correct`).
-/

namespace T3f

/-- **C73.** A program of any depth over TT objects with complex cores raises exactly if its type says so; otherwise its result is well-formed and its dense form is
the dense computation with complex numbers. Factors may be complex numbers. -/
theorem C73_programs {qr : Cx.QRRoutine} (hqr : qr.Correct) (e : CxExpr) (h : e.Ok) :
    match e.ty with
    | none => ∃ err, e.run qr = Except.error err
    | some τ => ∃ t F, e.run qr = Except.ok t ∧ t.WF ∧ t.rawShape = τ.raw ∧ t.batch = τ.batch ∧
        full t = Except.ok F ∧ F.shape = τ.batch.toList ++ τ.shape ∧
        ∀ o i, τ.HasItem o → Valid τ.shape i → F.get (bsel τ.batch o ++ i) = e.value o i := by
  have := CxExpr.rep hqr e h
  revert this
  cases hτ : e.ty with
  | none => exact id
  | some τ =>
      rintro ⟨t, et, hR⟩
      obtain ⟨F, eF, sF, vF⟩ := full_ok hR.wf
      refine ⟨t, F, et, hR.wf, hR.raw, hR.batch, eF, by rw [sF, TT.bpre, hR.batch, hR.raw]; rfl, fun o i ho hi => ?_⟩
      rw [vF _ i (hR.valid ho) (by rw [hR.raw]; exact hi), hR.raw, hR.val o i ho hi]

/-- **C73.** The left-to-right sweep does not change the tensor; the cores except the last have left unfoldings with orthonormal columns, with respect to the
Hermitian inner product. -/
theorem C73_left_to_right {qr : Cx.QRRoutine} (hqr : qr.Correct) {t : TT ℂ} (h : t.WF) (hm : t.ModesPos) :
    ∃ o T O, Cx.orthogonalize qr t true = Except.ok o ∧ o.WF ∧ o.rawShape = t.rawShape ∧ o.batch = t.batch ∧
      (∀ k ≤ t.ndims, o.rank k ≤ t.rank k) ∧
      (∀ p, Valid t.bpre p → ∀ k, k + 1 < t.ndims → o.LeftUnitary p k) ∧
      full t = Except.ok T ∧ full o = Except.ok O ∧ O ≃ₜ T := by
  obtain ⟨o, e, w, rs, b, _, rk, orth, ent⟩ := Cx.orthoLR_ok hqr h hm
  obtain ⟨T, O, eT, eO, he⟩ := Cx.full_eqv h w rs b ent
  exact ⟨o, T, O, e, w, rs, b, fun k hk => by rw [rk k hk]; exact lrRank_le _ _ h.rank_first k, orth, eT, eO, he⟩

/-- **C73.** The right-to-left sweep does not change the tensor; the cores except the first have right unfoldings with orthonormal rows, with respect to the
Hermitian inner product, although the code transposes without conjugation. -/
theorem C73_right_to_left {qr : Cx.QRRoutine} (hqr : qr.Correct) {t : TT ℂ} (h : t.WF) (hm : t.ModesPos) (hb : ¬ t.isBatch) :
    ∃ o T O, Cx.orthogonalize qr t false = Except.ok o ∧ o.WF ∧ o.rawShape = t.rawShape ∧ o.batch = none ∧
      (∀ k ≤ t.ndims, o.rank k ≤ t.rank k) ∧
      (∀ k, 0 < k → k < t.ndims → o.RightUnitary [] k) ∧
      full t = Except.ok T ∧ full o = Except.ok O ∧ O ≃ₜ T := by
  have hn : t.batch = none := by
    cases hb' : t.batch with
    | none => rfl
    | some n => exact absurd (by simp [TT.isBatch, hb']) hb
  obtain ⟨o, e, w, rs, b, _, rk, orth, ent⟩ := Cx.orthoRL_ok hqr h hn hm
  have hpre : t.bpre = [] := by simp [TT.bpre, hn]
  obtain ⟨T, O, eT, eO, he⟩ := Cx.full_eqv h w rs (by rw [b, hn]) (fun p hp g hg => by
    rw [hpre] at hp
    obtain rfl := (valid_nil_iff p).1 hp
    exact ent g hg)
  refine ⟨o, T, O, ?_, w, rs, b, fun k hk => by rw [rk k hk]; exact rlRank_le _ _ h.rank_last hk, orth, eT, eO, he⟩
  unfold Cx.orthogonalize
  rw [if_neg (by simp), if_neg hb]
  exact e

/-- **C73.** `frobenius_norm_squared` of a TT object with complex cores is the sum of the squared absolute values of the elements, for each item of a batch; but with
`differentiable=True` it is the sum of the squares. -/
theorem C73_norm_squared {qr : Cx.QRRoutine} (hqr : qr.Correct) {t : TT ℂ} (h : t.WF) (hm : t.ModesPos) :
    ∃ F G A s, Cx.frobeniusNormSquared qr t false = Except.ok F ∧ Cx.frobeniusNormSquared qr t true = Except.ok G ∧ full t = Except.ok A ∧
      A.shape = t.batch.toList ++ s ∧ F.shape = t.batch.toList ∧ G.shape = t.batch.toList ∧
      ∀ p, Valid t.batch.toList p → F.get p = ((∑ n ∈ Finset.range s.prod, ‖A.get (p ++ unravel s n)‖ ^ 2 : ℝ) : ℂ) ∧
        G.get p = ∑ n ∈ Finset.range s.prod, A.get (p ++ unravel s n) ^ 2 := by
  obtain ⟨F, e, sF, vF⟩ := Cx.frobeniusQR_ok hqr h hm
  obtain ⟨G, A, s, eG, eA, sA, sG, vG⟩ := C13_frobenius_norm_squared_diff t h
  obtain ⟨A', eA', sA', vA⟩ := full_ok h
  obtain rfl : A' = A := Except.ok.inj (eA'.symm.trans eA)
  have hs : s = restShape t.rawShape := by
    have := sA.symm.trans sA'
    exact List.append_cancel_left this
  refine ⟨F, G, A', s, e, eG, eA, sA, sF, sG, fun p hp => ⟨?_, vG p hp⟩⟩
  rw [vF p hp, Cx.absSum, ← hs, Complex.ofReal_sum]
  refine Finset.sum_congr rfl fun n hn => ?_
  rw [vA p _ hp (by rw [← hs]; exact unravel_valid (Finset.mem_range.1 hn)), Complex.ofReal_pow, ← Complex.conj_mul']

theorem sq_re_le (z : ℂ) : (z ^ 2).re ≤ ‖z‖ ^ 2 := by
  rw [← Complex.normSq_eq_norm_sq, Complex.normSq_apply, sq, Complex.mul_re]
  nlinarith [sq_nonneg z.im]

/-- **C73.** The two settings of `differentiable` agree exactly if all elements of the tensor are real. -/
theorem C73_flags_agree_iff {qr : Cx.QRRoutine} (hqr : qr.Correct) {t : TT ℂ} (h : t.WF) (hm : t.ModesPos) :
    ∃ F G A s, Cx.frobeniusNormSquared qr t false = Except.ok F ∧ Cx.frobeniusNormSquared qr t true = Except.ok G ∧ full t = Except.ok A ∧
      A.shape = t.batch.toList ++ s ∧
      ∀ p, Valid t.batch.toList p → (F.get p = G.get p ↔ ∀ i, Valid s i → (A.get (p ++ i)).im = 0) := by
  obtain ⟨F, G, A, s, eF, eG, eA, sA, -, -, v⟩ := C73_norm_squared hqr h hm
  refine ⟨F, G, A, s, eF, eG, eA, sA, fun p hp => ?_⟩
  obtain ⟨v1, v2⟩ := v p hp
  rw [v1, v2]
  constructor
  · intro he i hi
    have hre := congrArg Complex.re he
    rw [Complex.ofReal_re, Complex.re_sum] at hre
    have := (Finset.sum_eq_sum_iff_of_le fun n _ => sq_re_le (A.get (p ++ unravel s n))).1 hre.symm (ravel s i) (Finset.mem_range.2 (ravel_lt hi))
    rw [unravel_ravel hi, ← Complex.normSq_eq_norm_sq, Complex.normSq_apply, sq, Complex.mul_re] at this
    nlinarith [this]
  · intro hi
    rw [Complex.ofReal_sum]
    refine Finset.sum_congr rfl fun n hn => ?_
    have := hi _ (unravel_valid (Finset.mem_range.1 hn))
    rw [Complex.ofReal_pow, ← Complex.conj_mul', Complex.conj_eq_iff_im.2 this, sq]

/-- **C73.** `frobenius_norm` squared is the sum of the squared absolute values plus `epsilon`, and has a nonnegative real part; with `differentiable=True` its square
is the sum of the squares plus `epsilon`. -/
theorem C73_norm {qr : Cx.QRRoutine} (hqr : qr.Correct) {t : TT ℂ} (h : t.WF) (hm : t.ModesPos) (eps : ℝ) :
    ∃ F G A s, Cx.frobeniusNorm qr t eps false = Except.ok F ∧ Cx.frobeniusNorm qr t eps true = Except.ok G ∧ full t = Except.ok A ∧
      A.shape = t.batch.toList ++ s ∧ F.shape = t.batch.toList ∧ G.shape = t.batch.toList ∧
      ∀ p, Valid t.batch.toList p →
        (0 ≤ eps → F.get p = ((Real.sqrt (∑ n ∈ Finset.range s.prod, ‖A.get (p ++ unravel s n)‖ ^ 2 + eps) : ℝ) : ℂ)) ∧
        G.get p ^ 2 = ∑ n ∈ Finset.range s.prod, A.get (p ++ unravel s n) ^ 2 + eps := by
  obtain ⟨F, G, A, s, eF, eG, eA, sA, sF, sG, v⟩ := C73_norm_squared hqr h hm
  refine ⟨F.map fun x => (x + eps) ^ (1 / 2 : ℂ), G.map fun x => (x + eps) ^ (1 / 2 : ℂ), A, s, by unfold Cx.frobeniusNorm; rw [eF]; rfl, by unfold Cx.frobeniusNorm; rw [eG]; rfl, eA, sA, sF, sG, fun p hp => ?_⟩
  obtain ⟨v1, v2⟩ := v p hp
  constructor
  · intro he
    show (F.get p + eps) ^ (1 / 2 : ℂ) = _
    have h0 : 0 ≤ ∑ n ∈ Finset.range s.prod, ‖A.get (p ++ unravel s n)‖ ^ 2 + eps :=
      add_nonneg (Finset.sum_nonneg fun _ _ => sq_nonneg _) he
    rw [v1, Real.sqrt_eq_rpow, Complex.ofReal_cpow h0]
    push_cast
    rfl
  · show ((G.get p + eps) ^ (1 / 2 : ℂ)) ^ 2 = _
    rw [Cx.sqrt_sq, v2]

/-- **C73, finding.** A TT object with real cores times a complex number is the product with the real part of the number: the imaginary part is lost. -/
theorem C73_real_times_complex {a : TT ℝ} (ha : a.WF) (c : ℂ) :
    ∃ t A T, Cx.multiplyReal a c = Except.ok t ∧ t.WF ∧ t.rawShape = a.rawShape ∧ t.batch = a.batch ∧ full a = Except.ok A ∧ full t = Except.ok T ∧
      T.shape = A.shape ∧ ∀ i, Valid A.shape i → T.get i = c.re * A.get i := by
  obtain ⟨t, e, w, rs, b, -, nd, ent⟩ := Cx.multiplyReal_spec ha c
  obtain ⟨A, eA, sA, vA⟩ := full_ok ha
  obtain ⟨T, eT, sT, vT⟩ := full_ok w
  have hbp : t.bpre = a.bpre := by simp [TT.bpre, b]
  refine ⟨t, A, T, e, w, rs, b, eA, eT, by rw [sT, sA, hbp, rs], fun i hi => ?_⟩
  rw [sA] at hi
  obtain ⟨p, j, rfl, h1, h2⟩ := valid_append_iff.1 hi
  rw [vT p j (by rw [hbp]; exact h1) (by rw [rs]; exact h2), vA p j h1 h2, rs, ent]

theorem round_with_error (qr : Cx.QRRoutine) (svd : Cx.SVDRoutine) (t : TT ℂ) (hd : 2 ≤ t.ndims) (bounds : List ℕ) :
    ∃ e, Cx.roundWith qr svd t bounds = Except.error e := by
  unfold Cx.roundWith
  refine Cx.bind_error _ _ fun o => ?_
  obtain ⟨n, hn⟩ : ∃ n, t.ndims - 1 = n + 1 := ⟨t.ndims - 2, by omega⟩
  rw [hn]
  obtain ⟨e, he⟩ := Cx.roundStep_error svd t bounds (n + 1 - 0) (o.cores, List.replicate (t.ndims + 1) 1)
  exact ⟨e, by rw [forRange]; simp only [he]; rfl⟩

/-- **C73, finding.** `round` raises for every TT object or batch with complex cores and at least two dimensions, whatever the arguments. -/
theorem C73_round (qr : Cx.QRRoutine) (svd : Cx.SVDRoutine) (t : TT ℂ) (hd : 2 ≤ t.ndims) (maxRank : MaxRank) (eps : Option ℝ) :
    ∃ e, Cx.ttRound qr svd t maxRank eps = Except.error e := by
  have key : ∀ bounds, ∃ e, Cx.roundWith qr svd t bounds = Except.error e := round_with_error qr svd t hd
  unfold Cx.ttRound
  by_cases hb : t.isBatch
  · simp only [hb, if_true]
    exact Cx.bind_error _ _ key
  · simp only [hb]
    exact Cx.bind_error _ _ key

/-- **C73, finding.** `to_tt_tensor` raises for every complex tensor with at least two axes, whatever the arguments. -/
theorem C73_to_tt_tensor (svd : Cx.SVDRoutine) (x : Tensor ℂ) (hd : 2 ≤ x.shape.length) (maxRank : MaxRank) (eps : Option ℝ) :
    ∃ e, Cx.toTTTensor svd x maxRank eps = Except.error e := by
  unfold Cx.toTTTensor
  refine Cx.bind_error _ _ fun bounds => ?_
  obtain ⟨n, hn⟩ : ∃ n, x.shape.length - 1 = n + 1 := ⟨x.shape.length - 2, by omega⟩
  rw [hn]
  obtain ⟨e, he⟩ := Cx.toTTStep_error svd x.shape bounds 0 (x, List.replicate (x.shape.length + 1) 1, [])
  exact ⟨e, by rw [forRange]; simp only [he]; rfl⟩

/-- **C73, finding.** `renormalize_tt_cores` raises for every TT object or batch with complex cores. -/
theorem C73_renormalize {t : TT ℂ} (h : t.WF) (eps : ℝ) : Cx.renormalize t eps = Except.error Err.tf := Cx.renormalize_error h eps

/-- The `2 × 1` tensor with elements `1` and `i`. -/
noncomputable def exIsotropic : TT ℂ where
  cores := [.ofList [1, 2, 1] [1, Complex.I], .ofList [1, 1, 1] [1]]
  rawShape := [[2, 1]]
  ttRanks := [1, 1, 1]
  batch := none

theorem exIsotropic_wf : exIsotropic.WF := by decide

theorem exIsotropic_pos : exIsotropic.ModesPos := by simp [TT.ModesPos, exIsotropic]

theorem exIsotropic_full {A : Tensor ℂ} (hA : full exIsotropic = Except.ok A) : A.get [0, 0] = 1 ∧ A.get [1, 0] = Complex.I := by
  obtain ⟨A', eA, sA, vA⟩ := full_ok exIsotropic_wf
  obtain rfl : A' = A := Except.ok.inj (eA.symm.trans hA)
  have h0 := vA [] [0, 0] trivial (by decide)
  have h1 := vA [] [1, 0] trivial (by decide)
  rw [List.nil_append] at h0 h1
  rw [h0, h1]
  constructor
  · simp [TT.entry, lprod, TT.ndims, exIsotropic, TT.rank, TT.slice, TT.core, restModes, Tensor.ofList, ravel, tIdx]
  · simp [TT.entry, lprod, TT.ndims, exIsotropic, TT.rank, TT.slice, TT.core, restModes, Tensor.ofList, ravel, tIdx]

/-- **C73, finding.** With `differentiable=True` the squared norm of a nonzero tensor can be zero. -/
theorem C73_norm_zero {qr : Cx.QRRoutine} (hqr : qr.Correct) :
    ∃ (t : TT ℂ) (A F G : Tensor ℂ), t.WF ∧ full t = Except.ok A ∧ A.shape = [2, 1] ∧ A.get [0, 0] = 1 ∧ A.get [1, 0] = Complex.I ∧
      Cx.frobeniusNormSquared qr t false = Except.ok F ∧ F.get [] = 2 ∧ Cx.frobeniusNormSquared qr t true = Except.ok G ∧ G.get [] = 0 := by
  obtain ⟨F, G, A, s, eF, eG, eA, sA, -, -, v⟩ := C73_norm_squared hqr exIsotropic_wf exIsotropic_pos
  obtain ⟨v0, v1⟩ := exIsotropic_full eA
  have hA : A.shape = [2, 1] := by
    obtain ⟨A', eA', sA', -⟩ := full_ok exIsotropic_wf
    obtain rfl : A' = A := Except.ok.inj (eA'.symm.trans eA)
    rw [sA']; rfl
  obtain rfl : s = [2, 1] := by
    rw [hA] at sA
    exact sA.symm
  obtain ⟨f, g⟩ := v [] trivial
  refine ⟨exIsotropic, A, F, G, exIsotropic_wf, eA, hA, v0, v1, eF, ?_, eG, ?_⟩
  · rw [f]
    simp [Finset.sum_range_succ, unravel, v0, v1]
    norm_num
  · rw [g]
    simp [Finset.sum_range_succ, unravel, v0, v1]

/-- The `1 × 1` tensor with element `i * i = -1`. -/
noncomputable def exImag : TT ℂ where
  cores := [.ofList [1, 1, 1] [Complex.I], .ofList [1, 1, 1] [Complex.I]]
  rawShape := [[1, 1]]
  ttRanks := [1, 1, 1]
  batch := none

theorem exImag_wf : exImag.WF := by decide

/-- **C73, finding.** `cast` to a real data type takes the real parts of the cores, and this is not the real part of the tensor, even if the tensor is real. -/
theorem C73_cast_to_real : ∃ (t : TT ℂ) (A : Tensor ℂ) (c : TT ℝ) (C : Tensor ℝ), t.WF ∧ full t = Except.ok A ∧ A.get [0, 0] = -1 ∧
    ttCast Complex.re t = Except.ok c ∧ full c = Except.ok C ∧ C.get [0, 0] = 0 := by
  obtain ⟨A, eA, -, vA⟩ := full_ok exImag_wf
  let c : TT ℝ := ⟨exImag.cores.map (·.map Complex.re), [[1, 1]], [1, 1, 1], none⟩
  have hc : c.WF := by decide
  obtain ⟨C, eC, -, vC⟩ := full_ok hc
  refine ⟨exImag, A, c, C, exImag_wf, eA, ?_, rfl, eC, ?_⟩
  · rw [show A.get [0, 0] = A.get ([] ++ [0, 0]) from rfl, vA [] [0, 0] trivial (by decide)]
    simp [TT.entry, lprod, TT.ndims, exImag, TT.rank, TT.slice, TT.core, restModes, Tensor.ofList, ravel, tIdx]
  · rw [show C.get [0, 0] = C.get ([] ++ [0, 0]) from rfl, vC [] [0, 0] trivial (by decide)]
    simp [c, TT.entry, lprod, TT.ndims, exImag, TT.rank, TT.slice, TT.core, restModes, Tensor.ofList, ravel, tIdx, Tensor.map]

/-- **C73, finding.** `flat_inner` does not conjugate: the inner product of a nonzero tensor with itself can be zero. -/
theorem C73_flat_inner_zero : ∃ (t : TT ℂ) (A F : Tensor ℂ), t.WF ∧ full t = Except.ok A ∧ A.get [0, 0] = 1 ∧ flatInner t t = Except.ok F ∧ F.get [] = 0 := by
  obtain ⟨F, A, B, s, eF, eA, eB, sA, -, -, v⟩ := C11_flat_inner exIsotropic exIsotropic exIsotropic_wf exIsotropic_wf rfl trivial
  obtain rfl : A = B := Except.ok.inj (eA.symm.trans eB)
  obtain ⟨v0, v1⟩ := exIsotropic_full eA
  obtain rfl : s = [2, 1] := by
    obtain ⟨A', eA', sA', -⟩ := full_ok exIsotropic_wf
    obtain rfl : A' = A := Except.ok.inj (eA'.symm.trans eA)
    exact (sA'.symm.trans sA).symm
  refine ⟨exIsotropic, A, F, exIsotropic_wf, eA, v0, eF, ?_⟩
  rw [show F.get [] = F.get (bsel (squeezed (bcast exIsotropic.batch exIsotropic.batch)) 0) from rfl, v 0 (by decide)]
  simp [Finset.sum_range_succ, unravel, v0, v1, exIsotropic, bsel]

/-! ## The hypotheses are met -/

example : (∃ qr : Cx.QRRoutine, qr.Correct) ∧ exIsotropic.WF ∧ exIsotropic.ModesPos ∧ ¬ exIsotropic.isBatch ∧ 2 ≤ exIsotropic.ndims :=
  ⟨Cx.qrRoutine_exists, exIsotropic_wf, exIsotropic_pos, by simp [TT.isBatch, exIsotropic], by decide⟩

/-- `(2 + i) * x - x * x` is a program whose type is that of `x`. -/
example : (CxExpr.sub (.smul (2 + Complex.I) (.obj exIsotropic)) (.mul (.obj exIsotropic) (.obj exIsotropic))).Ok ∧
    (CxExpr.sub (.smul (2 + Complex.I) (.obj exIsotropic)) (.mul (.obj exIsotropic) (.obj exIsotropic))).ty = some ⟨[[2, 1]], none⟩ := by
  refine ⟨⟨⟨exIsotropic_wf, exIsotropic_pos⟩, ⟨exIsotropic_wf, exIsotropic_pos⟩, exIsotropic_wf, exIsotropic_pos⟩, ?_⟩
  simp [CxExpr.ty, exIsotropic, mulTy, addTy, Ty.ndims, BCompat, bcast, AddBatches]

/-- An imaginary number times a nonzero real tensor is zero. -/
example : exTensor3.toReal.WF ∧ Complex.I.re = 0 := ⟨TT.WF.toReal (by decide), Complex.I_re⟩

end T3f
