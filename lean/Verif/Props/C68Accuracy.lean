import Verif.Proofs.RoundForms
import Verif.Proofs.RoundNaive
import Verif.Proofs.RoundPaths
import Verif.Proofs.CostForms
import Verif.Props.C11Inner

/-!
# C68: floating point accuracy
-/

namespace T3f

/-! ## The same program on absolute values -/

theorem TT.abs_wf {t : TT ℝ} (h : t.WF) : t.abs.WF := (TTri.absolute t (fun _ => 0) (le_refl (0 : ℝ))).wf₃ h

theorem Expr.absolute_ty (e : Expr) : e.absolute.ty = e.ty := by
  induction e with
  | obj t => rfl
  | add a b iha ihb => simp only [Expr.absolute, Expr.ty, iha, ihb]
  | sub a b iha ihb => simp only [Expr.absolute, Expr.ty, iha, ihb]
  | neg a iha => simp only [Expr.absolute, Expr.ty, iha]
  | mul a b iha ihb => simp only [Expr.absolute, Expr.ty, iha, ihb]
  | smul c a iha => simp only [Expr.absolute, Expr.ty, iha]
  | matmul a b iha ihb => simp only [Expr.absolute, Expr.ty, iha, ihb]
  | transpose a iha => simp only [Expr.absolute, Expr.ty, iha]
  | orthogonalize lr a iha => simp only [Expr.absolute, Expr.ty, iha]
  | renormalize eps a iha => simp only [Expr.absolute, Expr.ty, iha]
  | expand a iha => simp only [Expr.absolute, Expr.ty, iha]
  | squeeze a iha => simp only [Expr.absolute, Expr.ty, iha]
  | pick k a iha => simp only [Expr.absolute, Expr.ty, iha]

theorem Expr.absolute_ok {e : Expr} (h : e.Ok) : e.absolute.Ok := by
  induction e with
  | obj t => exact ⟨TT.abs_wf h.1, h.2⟩
  | add a b iha ihb => exact ⟨iha h.1, ihb h.2⟩
  | sub a b iha ihb => exact ⟨iha h.1, ihb h.2⟩
  | neg a iha => exact iha h
  | mul a b iha ihb => exact ⟨iha h.1, ihb h.2⟩
  | smul c a iha => exact iha h
  | matmul a b iha ihb => exact ⟨iha h.1, ihb h.2⟩
  | transpose a iha => exact iha h
  | orthogonalize lr a iha => exact iha h
  | renormalize eps a iha => exact ⟨h.1, iha h.2⟩
  | expand a iha => exact iha h
  | squeeze a iha => exact iha h
  | pick k a iha => exact iha h

theorem Expr.run_wf {qr : QRRoutine} (hqr : qr.Correct) {e : Expr} (he : e.Ok) {t : TT ℝ} (h : e.run qr = Except.ok t) : t.WF := by
  have := Expr.rep hqr e he
  cases hty : e.ty with
  | none => rw [hty] at this; obtain ⟨err, h'⟩ := this; rw [h'] at h; exact absurd h (by simp)
  | some τ =>
    rw [hty] at this
    obtain ⟨t', h1, h2⟩ := this
    exact Except.ok.inj (h1.symm.trans h) ▸ h2.wf

theorem fullRounds_eq (m r : ℕ → ℕ) {d : ℕ} (hd : 0 < d) : fullRounds m r (1 + (d - 1)) = ∑ k ∈ Finset.range d, m k + ∑ k ∈ Finset.Ico 1 d, r k := by
  rw [show 1 + (d - 1) = d by omega]
  rfl

/-! ## The theorems -/

/-- With routines that do not round, the functions are those of the other modules. -/
theorem C68_exact_routines : fullF exactRoutines = full ∧ multiplyF exactRoutines = multiply ∧ multiplyScalarF exactRoutines = multiplyScalar ∧ ttTTMatmulF exactRoutines = ttTTMatmul ∧
    flatInnerF exactRoutines = flatInner ∧ frobeniusNormSquaredDiffF exactRoutines = frobeniusNormSquaredDiff := ⟨rfl, rfl, rfl, rfl, rfl, rfl⟩

/-- **C68.** For every arithmetic there are routines that follow it: those that add the products one after the other. -/
theorem C68_routines_exist (A : Arith) : ∃ F : FloatRoutines, F.Follows A := ⟨naiveRoutines A, naive_follows A⟩

/-- **C68.** `tf.einsum` contracts two operands at a time, in the order some strategy chooses. If each of these contractions (and `tf.matmul`) is a circuit of
additions, multiplications and fused multiply-adds, in any order, then the theorems below apply, whatever the strategy. -/
theorem C68_contraction_orders {F : FloatRoutines} {A : Arith} (hF : F.Kernels A) {S : Strategy} (hS : S.Valid) : (F.along S).Follows A :=
  along_follows hF hS

/-- With the default strategy and routines that add the products one after the other. -/
example (A : Arith) : ((naiveRoutines A).along greedy).Follows A := C68_contraction_orders (naive_kernels A) greedy_valid

/-- **C68.** `full` computes every element with an error of at most `(1 + u) ^ N - 1` times that element for the absolute values of the cores, where `N` is
the sum of the inner ranks. -/
theorem C68_full {F : FloatRoutines} {A : Arith} (hF : F.Follows A) {t : TT ℝ} (h : t.WF) :
    ∃ D, fullF F t = Except.ok D ∧ D.shape = t.dense.shape ∧ ∀ i, Valid D.shape i →
      |D.get i - t.dense.get i| ≤ ((1 + A.u) ^ (∑ k ∈ Finset.Ico 1 t.ndims, t.rank k) - 1) * t.abs.dense.get i := by
  have := sync_full hF (TTri.absolute t (fun _ => 0) A.nonneg)
  rw [fullRounds_eq _ _ h.pos] at this
  obtain ⟨E, eE, sE, vE⟩ := full_dense h
  obtain ⟨B, eB, sB, vB⟩ := full_dense (TT.abs_wf h)
  rw [eE, eB] at this
  rcases this with ⟨D, E', B', hD, e1, e2, hT⟩ | ⟨e, -, e1, -⟩
  · obtain rfl := Except.ok.inj e1
    obtain rfl := Except.ok.inj e2
    refine ⟨D, hD, by rw [← hT.shape₂, sE], fun i hi => ?_⟩
    have := (hT.item i hi).err
    rw [vE i (hT.shape₂.symm ▸ hi), vB i (hT.shape₃.symm ▸ hi)] at this
    simpa using this
  · exact absurd e1 (by simp)

/-- **C68.** A program of sums, differences, elementwise and matrix products, products with numbers, transposes and operations on the batch axis, of any depth, raises in floating
point arithmetic exactly if it does in exact arithmetic, and with the same error. Otherwise the result has the same shape, batch size and TT-ranks, and
every element of its dense form, computed in floating point arithmetic, has an error of at most `(1 + u) ^ N - 1` times the same element for the program on
absolute values. `N` adds up the roundings of the cores and the inner ranks of the result. -/
theorem C68_programs {F : FloatRoutines} {A : Arith} (hF : F.Follows A) {qr : QRRoutine} (hqr : qr.Correct) (e : Expr) (he : e.Ok) (hp : e.Plain) :
    match e.ty with
    | none => ∃ err, e.run qr = Except.error err ∧ e.runF F = Except.error err
    | some τ => ∃ t t' D, e.run qr = Except.ok t ∧ e.runF F = Except.ok t' ∧ t'.rawShape = t.rawShape ∧ t'.ttRanks = t.ttRanks ∧ t'.batch = t.batch ∧
        fullF F t' = Except.ok D ∧ D.shape = τ.batch.toList ++ τ.shape ∧ ∀ o i, τ.HasItem o → Valid τ.shape i →
          |D.get (bsel τ.batch o ++ i) - e.value o i| ≤
            ((1 + A.u) ^ (∑ k ∈ Finset.range t.ndims, e.rounds F.rootRounds k + ∑ k ∈ Finset.Ico 1 t.ndims, t.rank k) - 1) * e.absolute.value o i := by
  have hs := sync_expr hqr hF e he hp
  have h1 := C51_closure hqr e he
  have h2 := C51_closure hqr e.absolute (Expr.absolute_ok he)
  rw [Expr.absolute_ty] at h2
  cases hty : e.ty with
  | none =>
    rw [hty] at h1
    obtain ⟨err, h1⟩ := h1
    refine ⟨err, h1, ?_⟩
    rcases hs with ⟨_, _, _, _, hs, _⟩ | ⟨err', h3, h4, -⟩
    · rw [h1] at hs; exact absurd hs (by simp)
    · rw [h1] at h4
      rw [h3, ← Except.error.inj h4]
  | some τ =>
    rw [hty] at h1 h2
    obtain ⟨t, E, et, wt, rt, bt, eE, sE, vE⟩ := h1
    obtain ⟨s, B, es, ws, rs, bs, eB, sB, vB⟩ := h2
    rcases hs with ⟨t', t1, s1, h3, h4, h5, hT⟩ | ⟨_, _, h4, -⟩
    · obtain rfl := Except.ok.inj (et.symm.trans h4)
      obtain rfl := Except.ok.inj (es.symm.trans h5)
      have hfull := sync_full hF hT
      have hrank : t'.rank = t.rank := by unfold TT.rank; rw [hT.ranks₂]
      rw [fullRounds_eq _ _ (hT.wf₁ wt).pos, ← hT.ndims.1, hrank, eE, eB] at hfull
      rcases hfull with ⟨D, E', B', hD, e1, e2, hD'⟩ | ⟨_, _, e1, -⟩
      · obtain rfl := Except.ok.inj e1
        obtain rfl := Except.ok.inj e2
        refine ⟨t, t', D, et, h3, hT.raw₂.symm, hT.ranks₂.symm, hT.batch₂.symm, hD, hD'.shape₂.symm.trans sE, fun o i ho hi => ?_⟩
        have hv : Valid D.shape (bsel τ.batch o ++ i) := by
          rw [hD'.shape₂.symm.trans sE]
          exact valid_append (hasItem_valid ho (bt ▸ wt.batch_pos)) hi
        have := (hD'.item _ hv).err
        rwa [vE o i ho hi, vB o i ho hi] at this
      · exact absurd e1 (by simp)
    · rw [et] at h4
      exact absurd h4 (by simp)

/-- **C68.** `flat_inner` of two objects of equal shape with compatible batch sizes: the error is at most `(1 + u) ^ N - 1` times the inner product of the
objects with absolute values, where `N` adds up `rank * rank * mode size` over the cores, and one for each core but the first. -/
theorem C68_flat_inner {F : FloatRoutines} {A : Arith} (hF : F.Follows A) {a b : TT ℝ} (ha : a.WF) (hb : b.WF) (hr : a.rawShape = b.rawShape)
    (hbatch : BCompat a.batch b.batch) :
    ∃ C D E, flatInnerF F a b = Except.ok C ∧ flatInner a b = Except.ok D ∧ flatInner a.abs b.abs = Except.ok E ∧ C.shape = D.shape ∧ E.shape = D.shape ∧
      ∀ i, Valid D.shape i → |C.get i - D.get i| ≤
        ((1 + A.u) ^ (∑ k ∈ Finset.range a.ndims, a.rank k * b.rank k * a.modeSize k + (a.ndims - 1)) - 1) * E.get i := by
  have := sync_flatInner hF (TTri.absolute a (fun _ => 0) A.nonneg) (TTri.absolute b (fun _ => 0) A.nonneg) ha hb
  obtain ⟨D, _, _, _, eD, -⟩ := C11_flat_inner a b ha hb hr hbatch
  obtain ⟨E, _, _, _, eE, -⟩ := C11_flat_inner a.abs b.abs (TT.abs_wf ha) (TT.abs_wf hb) hr hbatch
  rcases this with ⟨C, D', E', hC, hD, hE, hT⟩ | ⟨e, -, e1, -⟩
  · refine ⟨C, D', E', hC, hD, hE, hT.shape₂.symm, hT.shape₃.trans hT.shape₂.symm, fun i hi => ?_⟩
    have := (hT.item i (hT.shape₂ ▸ hi)).err
    simpa [innerRounds] using this
  · rw [eD] at e1; exact absurd e1 (by simp)

/-- **C68.** `flat_inner` of the results of two programs. -/
theorem C68_flat_inner_programs {F : FloatRoutines} {A : Arith} (hF : F.Follows A) {qr : QRRoutine} (hqr : qr.Correct) (e f : Expr) (he : e.Ok) (hf : f.Ok)
    (pe : e.Plain) (pf : f.Plain) {s t s' t' : TT ℝ} (hs : e.run qr = Except.ok s) (ht : f.run qr = Except.ok t) (hs' : e.runF F = Except.ok s')
    (ht' : f.runF F = Except.ok t') (hr : s.rawShape = t.rawShape) (hbatch : BCompat s.batch t.batch) :
    ∃ s₁ t₁ C D E, e.absolute.run qr = Except.ok s₁ ∧ f.absolute.run qr = Except.ok t₁ ∧ flatInnerF F s' t' = Except.ok C ∧ flatInner s t = Except.ok D ∧
      flatInner s₁ t₁ = Except.ok E ∧ C.shape = D.shape ∧ E.shape = D.shape ∧ ∀ i, Valid D.shape i → |C.get i - D.get i| ≤
        ((1 + A.u) ^ (∑ k ∈ Finset.range s.ndims, (e.rounds F.rootRounds k + f.rounds F.rootRounds k + s.rank k * t.rank k * s.modeSize k) + (s.ndims - 1)) - 1) * E.get i := by
  have ws := (Expr.run_wf hqr he hs)
  have wt := (Expr.run_wf hqr hf ht)
  have h1 := sync_expr hqr hF e he pe
  have h2 := sync_expr hqr hF f hf pf
  rcases h1 with ⟨x, y, s₁, hx, hy, es, hT⟩ | ⟨_, _, h4, -⟩
  swap
  · rw [hs] at h4; exact absurd h4 (by simp)
  rcases h2 with ⟨x', y', t₁, hx', hy', et, hT'⟩ | ⟨_, _, h4, -⟩
  swap
  · rw [ht] at h4; exact absurd h4 (by simp)
  obtain rfl := Except.ok.inj (hs.symm.trans hy)
  obtain rfl := Except.ok.inj (ht.symm.trans hy')
  obtain rfl := Except.ok.inj (hs'.symm.trans hx)
  obtain rfl := Except.ok.inj (ht'.symm.trans hx')
  obtain ⟨D, _, _, _, eD, -⟩ := C11_flat_inner s t ws wt hr hbatch
  rcases sync_flatInner hF hT hT' (hT.wf₁ ws) (hT'.wf₁ wt) with ⟨C, D', E', hC, hD, hE, hI⟩ | ⟨e, -, e1, -⟩
  · refine ⟨s₁, t₁, C, D', E', es, et, hC, hD, hE, hI.shape₂.symm, hI.shape₃.trans hI.shape₂.symm, fun i hi => ?_⟩
    have := (hI.item i (hI.shape₂ ▸ hi)).err
    have e1 : s'.rank = s.rank := by unfold TT.rank; rw [hT.ranks₂]
    have e2 : t'.rank = t.rank := by unfold TT.rank; rw [hT'.ranks₂]
    have e3 : s'.modeSize = s.modeSize := by unfold TT.modeSize TT.modes; rw [hT.raw₂]
    rw [e1, e2, e3, ← hT.ndims.1] at this
    simpa only [innerRounds, Finset.sum_add_distrib] using this
  · rw [eD] at e1; exact absurd e1 (by simp)

/-- **C68.** `frobenius_norm_squared(tt, differentiable=True)`. -/
theorem C68_norm_squared {F : FloatRoutines} {A : Arith} (hF : F.Follows A) {t : TT ℝ} (h : t.WF) :
    ∃ C D E, frobeniusNormSquaredDiffF F t = Except.ok C ∧ frobeniusNormSquaredDiff t = Except.ok D ∧ frobeniusNormSquaredDiff t.abs = Except.ok E ∧
      C.shape = D.shape ∧ E.shape = D.shape ∧ ∀ i, Valid D.shape i → |C.get i - D.get i| ≤
        ((1 + A.u) ^ (∑ k ∈ Finset.range t.ndims, t.rank k ^ 2 * t.modeSize k + (t.ndims - 1)) - 1) * E.get i := by
  have := sync_normSquared hF (TTri.absolute t (fun _ => 0) A.nonneg) h
  obtain ⟨D, _, _, eD, -⟩ := C13_frobenius_norm_squared_diff t h
  rcases this with ⟨C, D', E', hC, hD, hE, hT⟩ | ⟨e, -, e1, -⟩
  · refine ⟨C, D', E', hC, hD, hE, hT.shape₂.symm, hT.shape₃.trans hT.shape₂.symm, fun i hi => ?_⟩
    have := (hT.item i (hT.shape₂ ▸ hi)).err
    simpa [innerRounds, sq] using this
  · rw [eD] at e1; exact absurd e1 (by simp)

theorem Expr.Nonneg.plain {e : Expr} (h : e.Nonneg) : e.Plain := by
  induction e with
  | obj t => trivial
  | add a b iha ihb => exact ⟨iha h.1, ihb h.2⟩
  | sub a b iha ihb => exact h.elim
  | neg a iha => exact h.elim
  | mul a b iha ihb => exact ⟨iha h.1, ihb h.2⟩
  | smul c a iha => exact iha h.2
  | matmul a b iha ihb => exact ⟨iha h.1, ihb h.2⟩
  | transpose a iha => exact iha h
  | orthogonalize lr a iha => exact h.elim
  | renormalize eps a iha => exact h.elim
  | expand a iha => exact iha h
  | squeeze a iha => exact iha h
  | pick k a iha => exact iha h

/-- Exact arithmetic. -/
def exactArith : Arith where
  u := 0
  add x y := x + y
  mul x y := x * y
  fma x y z := x * y + z
  nonneg := le_rfl
  add_err := by simp
  mul_err := by simp
  fma_err := by simp

/-- The program on absolute values has larger elements. -/
theorem Expr.maj_value {qr : QRRoutine} (hqr : qr.Correct) {e g : Expr} (he : e.Ok) (hg : g.Ok) (hm : e.Maj g) {τ : Ty} (te : e.ty = some τ)
    (tg : g.ty = some τ) {o : ℕ} {i : List ℕ} (ho : τ.HasItem o) (hi : Valid τ.shape i) : |e.value o i| ≤ g.value o i := by
  obtain ⟨F, hF⟩ := C68_routines_exist exactArith
  have hs := sync_maj hqr hF e he g hm
  have h1 := C51_closure hqr e he
  have h2 := C51_closure hqr g hg
  rw [te] at h1
  rw [tg] at h2
  obtain ⟨t, E, et, wt, rt, bt, eE, sE, vE⟩ := h1
  obtain ⟨s, B, es, ws, rs, bs, eB, sB, vB⟩ := h2
  rcases hs with ⟨t', t1, s1, h3, h4, h5, hT⟩ | ⟨_, _, h4, -⟩
  · obtain rfl := Except.ok.inj (et.symm.trans h4)
    obtain rfl := Except.ok.inj (es.symm.trans h5)
    have hfull := sync_full hF hT
    rw [eE, eB] at hfull
    rcases hfull with ⟨D, E', B', hD, e1, e2, hD'⟩ | ⟨_, _, e1, -⟩
    · obtain rfl := Except.ok.inj e1
      obtain rfl := Except.ok.inj e2
      have hv : Valid D.shape (bsel τ.batch o ++ i) := by
        rw [hD'.shape₂.symm.trans sE]
        exact valid_append (hasItem_valid ho (bt ▸ wt.batch_pos)) hi
      have := (hD'.item _ hv).bound
      rwa [vE o i ho hi, vB o i ho hi] at this
    · exact absurd e1 (by simp)
  · rw [et] at h4
    exact absurd h4 (by simp)

/-- **C68.** Without differences and negative numbers there is no cancellation: every element has a small relative error. -/
theorem C68_relative {F : FloatRoutines} {A : Arith} (hF : F.Follows A) {qr : QRRoutine} (hqr : qr.Correct) (e : Expr) (he : e.Ok) (hp : e.Nonneg)
    {τ : Ty} (hτ : e.ty = some τ) :
    ∃ t t' D, e.run qr = Except.ok t ∧ e.runF F = Except.ok t' ∧ fullF F t' = Except.ok D ∧ D.shape = τ.batch.toList ++ τ.shape ∧
      ∀ o i, τ.HasItem o → Valid τ.shape i → |D.get (bsel τ.batch o ++ i) - e.value o i| ≤
        ((1 + A.u) ^ (∑ k ∈ Finset.range t.ndims, e.rounds F.rootRounds k + ∑ k ∈ Finset.Ico 1 t.ndims, t.rank k) - 1) * e.value o i := by
  have := C68_programs hF hqr e he hp.plain
  rw [hτ] at this
  obtain ⟨t, t', D, h1, h2, -, -, -, h3, h4, h5⟩ := this
  refine ⟨t, t', D, h1, h2, h3, h4, fun o i ho hi => (h5 o i ho hi).trans ?_⟩
  have hle := (le_abs_self _).trans (Expr.maj_value hqr (Expr.absolute_ok he) he (e.maj_nonneg hp) ((Expr.absolute_ty e).trans hτ) hτ ho hi)
  exact mul_le_mul_of_nonneg_left hle (sub_nonneg.2 (Approx.one_le A.nonneg _))

/-- The usual form of the bound: `(1 + u) ^ N - 1 ≤ N u / (1 - N u)`. -/
theorem C68_gamma {u : ℝ} (hu : 0 ≤ u) {N : ℕ} (hN : N * u < 1) : (1 + u) ^ N - 1 ≤ N * u / (1 - N * u) := by
  rcases Nat.eq_zero_or_pos N with rfl | h0
  · simp
  have hu1 : u < 1 := by
    have : (1 : ℝ) ≤ N := by exact_mod_cast h0
    nlinarith
  have h1 : 1 - N * u ≤ (1 - u) ^ N := by
    have := one_add_mul_le_pow (show (-2 : ℝ) ≤ -u by linarith) N
    rw [show 1 - u = 1 + -u by ring]
    linarith
  have h2 : (1 + u) ^ N * (1 - u) ^ N ≤ 1 := by
    rw [← mul_pow]
    exact pow_le_one₀ (by nlinarith) (by nlinarith)
  have h3 : (1 + u) ^ N * (1 - N * u) ≤ 1 := (mul_le_mul_of_nonneg_left h1 (by positivity)).trans h2
  rw [le_div_iff₀ (by linarith)]
  nlinarith

/-! ## Examples -/

/-- An arithmetic with the unit roundoff of `float32` that always rounds away from zero. -/
noncomputable def awayArith : Arith where
  u := 2⁻¹ ^ 24
  add x y := (x + y) * (1 + 2⁻¹ ^ 24)
  mul x y := x * y * (1 + 2⁻¹ ^ 24)
  fma x y z := (x * y + z) * (1 + 2⁻¹ ^ 24)
  nonneg := by positivity
  add_err x y := by rw [show (x + y) * (1 + 2⁻¹ ^ 24) - (x + y) = 2⁻¹ ^ 24 * (x + y) by ring, abs_mul, abs_of_nonneg (by positivity)]
  mul_err x y := by rw [show x * y * (1 + 2⁻¹ ^ 24) - x * y = 2⁻¹ ^ 24 * (x * y) by ring, abs_mul, abs_of_nonneg (by positivity)]
  fma_err x y z := by
    rw [show (x * y + z) * (1 + 2⁻¹ ^ 24) - (x * y + z) = 2⁻¹ ^ 24 * (x * y + z) by ring, abs_mul, abs_of_nonneg (by positivity)]

/-- `(A - 3 * (A * A)) Aᵀ` for a TT-matrix. -/
noncomputable def exPlain : Expr :=
  .matmul (.sub (.obj exMatrix.toReal) (.smul 3 (.mul (.obj exMatrix.toReal) (.obj exMatrix.toReal)))) (.transpose (.obj exMatrix.toReal))

example : exPlain.Ok ∧ exPlain.Plain := by
  have h : exMatrix.toReal.WF := TT.WF.toReal (by decide)
  have hp : exMatrix.toReal.ModesPos := by
    intro row hrow n hn
    simp [TT.toReal, exMatrix] at hrow
    rcases hrow with rfl | rfl <;> simp at hn <;> omega
  exact ⟨⟨⟨⟨h, hp⟩, ⟨h, hp⟩, h, hp⟩, h, hp⟩, ⟨⟨trivial, trivial, trivial⟩, trivial⟩⟩

example : exPlain.ty = some ⟨[[2, 2], [2, 2]], none⟩ := by
  simp [exPlain, Expr.ty, addTy, mulTy, matmulTy, transposeTy, Ty.ndims, TT.toReal, exMatrix, AddBatches, BCompat, bcast, squeezed]

/-- The roundings of its cores, if the root has an error of one rounding: one for the product, two for the product with the number, and one or two for the matrix
product. -/
example : exPlain.rounds 1 0 = 4 ∧ exPlain.rounds 1 1 = 5 := by
  simp [exPlain, Expr.rounds, Expr.ty, addTy, mulTy, Ty.ndims, TT.toReal, exMatrix, AddBatches, BCompat, bcast]

/-- The inner rank of the result is 12, so `N = 21` for this program in single precision. -/
example (qr : QRRoutine) (hqr : qr.Correct) : ∃ t t' D, exPlain.run qr = Except.ok t ∧ exPlain.runF (naiveRoutines awayArith) = Except.ok t' ∧
    fullF (naiveRoutines awayArith) t' = Except.ok D := by
  have h : exMatrix.toReal.WF := TT.WF.toReal (by decide)
  have hp : exMatrix.toReal.ModesPos := by
    intro row hrow n hn
    simp [TT.toReal, exMatrix] at hrow
    rcases hrow with rfl | rfl <;> simp at hn <;> omega
  have := C68_programs (naive_follows awayArith) hqr exPlain ⟨⟨⟨h, hp⟩, ⟨h, hp⟩, h, hp⟩, h, hp⟩ ⟨⟨trivial, trivial, trivial⟩, trivial⟩
  rw [show exPlain.ty = some ⟨[[2, 2], [2, 2]], none⟩ by
    simp [exPlain, Expr.ty, addTy, mulTy, matmulTy, transposeTy, Ty.ndims, TT.toReal, exMatrix, AddBatches, BCompat, bcast, squeezed]] at this
  obtain ⟨t, t', D, h1, h2, -, -, -, h3, -⟩ := this
  exact ⟨t, t', D, h1, h2, h3⟩

/-- A program without cancellation. -/
example : (Expr.add (.obj exTensor.toReal.abs) (.obj exTensor.toReal.abs)).Nonneg := by
  have : ∀ c ∈ exTensor.toReal.abs.cores, ∀ i, Valid c.shape i → 0 ≤ c.get i := by
    intro c hc i _
    obtain ⟨c', -, rfl⟩ := List.mem_map.1 hc
    exact abs_nonneg _
  exact ⟨this, this⟩

end T3f
