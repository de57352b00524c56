import Verif.Proofs.ShapeRelWeak
import Verif.Props.C27Kronecker

/-!
# C75: exceptions and metadata do not depend on the data

A program is a list of calls of the library (`PyCall`); every call takes its arguments by position from the values computed so far. Two runs start with values that
differ in the elements of tensors and cores and in the values of numbers only (`PyVal.SameMeta`). They may also use different QR and SVD routines and different random numbers.
-/

namespace T3f

/-- C75: two runs of a program without `inv` and `cholesky` raise the same exception or both return, and then every value that was computed has in the second run the same
shape, TT-ranks, batch size, shapes of the cores and base point as in the first. -/
theorem C75_independent (qr qr' : QRRoutine) (svd svd' : SVDRoutine) (z z' : ℕ → ℕ → List ℕ → ℝ) (p : List PyCall) (hp : ∀ c ∈ p, ¬ c.factors) {env env' : List PyVal}
    (h : List.Forall₂ PyVal.SameMeta env env') :
    (∀ e, runCalls qr svd z p env = Except.error e ↔ runCalls qr' svd' z' p env' = Except.error e) ∧
    ∀ out, runCalls qr svd z p env = Except.ok out → ∃ out', runCalls qr' svd' z' p env' = Except.ok out' ∧ List.Forall₂ PyVal.SameMeta out out' := by
  have k := RR.calls qr qr' svd svd' z z' p hp h
  generalize runCalls qr svd z p env = x at k
  generalize runCalls qr' svd' z' p env' = y at k
  match x, y, k with
  | .ok a, .ok b, k => exact ⟨fun e => ⟨nofun, nofun⟩, fun out ho => ⟨b, rfl, Except.ok.inj ho ▸ k⟩⟩
  | .error e, .error f, k =>
    obtain rfl : e = f := k
    exact ⟨fun e' => Iff.of_eq (by simp), nofun⟩

/-- C75: if `inv` and `cholesky` are used, two runs that both return have the same metadata; if they differ in the exception then one of them raises InvalidArgumentError. -/
theorem C75_factors (qr qr' : QRRoutine) (svd svd' : SVDRoutine) (z z' : ℕ → ℕ → List ℕ → ℝ) (p : List PyCall) {env env' : List PyVal}
    (h : List.Forall₂ PyVal.SameMeta env env') :
    (∀ out out', runCalls qr svd z p env = Except.ok out → runCalls qr' svd' z' p env' = Except.ok out' → List.Forall₂ PyVal.SameMeta out out') ∧
    ∀ e, runCalls qr svd z p env = Except.error e → e ≠ Err.tf →
      runCalls qr' svd' z' p env' = Except.error e ∨ runCalls qr' svd' z' p env' = Except.error Err.tf := by
  have k := WR.calls qr qr' svd svd' z z' p h
  generalize runCalls qr svd z p env = x at k
  generalize runCalls qr' svd' z' p env' = y at k
  match x, y, k with
  | .ok a, .ok b, k => exact ⟨fun out out' h1 h2 => Except.ok.inj h1 ▸ Except.ok.inj h2 ▸ k, nofun⟩
  | .ok a, .error f, k => exact ⟨nofun, nofun⟩
  | .error e, .ok b, k => exact ⟨nofun, fun e' he hn => absurd ((Except.error.inj he).symm.trans k) hn⟩
  | .error e, .error f, k =>
    refine ⟨nofun, fun e' he hn => ?_⟩
    obtain rfl := Except.error.inj he
    rcases k with rfl | k | rfl
    · exact Or.inl rfl
    · exact absurd k hn
    · exact Or.inr rfl

/-- The same shapes as the example `exKron`, all elements zero. -/
def exKronZero : TT ℤ where
  cores := [.ofList [1, 2, 2, 1] [0, 0, 0, 0], .ofList [1, 2, 2, 1] [0, 0, 0, 0]]
  rawShape := [[2, 2], [2, 2]]
  ttRanks := [1, 1, 1]
  batch := none

theorem exKronZero_isKronecker : IsKronecker exKronZero.toReal [2, 2] :=
  ⟨TT.WF.toReal (by decide), rfl, by simp [TT.toReal, exKronZero], by simp⟩

theorem exKronZero_factor : exKronZero.toReal.factor [] 0 2 = 0 := by
  ext i j
  fin_cases i <;> fin_cases j <;> norm_num [TT.factor, TT.core, TT.toReal, exKronZero, Tensor.map, Tensor.ofList, ravel]

/-- The programs of the two theorems: sum, rounding, projection, inner product and norm of two objects of which only the shapes are known; the inverse. -/
example : List.Forall₂ PyVal.SameMeta [.tt exKron.toReal none, .num 3] [.tt exKronZero.toReal none, .num 0] ∧
    ∀ c ∈ [PyCall.add 0 0, .round 2 (.num 1) none, .project 3 2, .flatInner 4 0, .norm 3 0 false, .multiplyNumber 3 1], ¬ c.factors :=
  ⟨.cons ⟨rfl, rfl, rfl, rfl, rfl⟩ (.cons trivial .nil), by simp [PyCall.factors]⟩

/-- C75: the exception for `inv` is necessary: the same call on two matrices of the same shapes returns for the one and raises for the other. -/
theorem C75_inv (qr : QRRoutine) (svd : SVDRoutine) (z : ℕ → ℕ → List ℕ → ℝ) :
    ∃ t u : TT ℝ, t.WF ∧ u.WF ∧ PyVal.SameMeta (.tt t none) (.tt u none) ∧ (∃ out, runCalls qr svd z [.inv 0] [.tt t none] = Except.ok out) ∧
      runCalls qr svd z [.inv 0] [.tt u none] = Except.error Err.tf := by
  refine ⟨exKron.toReal, exKronZero.toReal, exKron_isKronecker.wf, exKronZero_isKronecker.wf, ⟨rfl, rfl, rfl, rfl, rfl⟩, ?_, ?_⟩
  · obtain ⟨u, e, -⟩ := kronInv_ok exKron_isKronecker fun p hp =>
      (det_kmat_ne_zero exKron_isKronecker.pos _).2 fun k hk => (exKron_posDef k hk p hp).det_pos.ne'
    refine ⟨[.tt exKron.toReal none, .tt u none], ?_⟩
    simp only [runCalls, PyCall.run, getTT, List.getElem?_cons_zero, retTT]
    rw [R.ok_bind, e]
    rfl
  · have e : kronInv exKronZero.toReal = Except.error Err.tf := by
      refine kronMap_error exKronZero_isKronecker matrixwise_inv fun hq => ?_
      refine hq 0 (show 0 < 2 by decide) [] trivial ?_
      change (exKronZero.toReal.factor [] 0 2).det = 0
      rw [exKronZero_factor]
      simp
    simp only [runCalls, PyCall.run, getTT, List.getElem?_cons_zero, retTT]
    rw [R.ok_bind, e]
    rfl

/-- C75: so is the exception for `cholesky`. -/
theorem C75_cholesky (qr : QRRoutine) (svd : SVDRoutine) (z : ℕ → ℕ → List ℕ → ℝ) :
    ∃ t u : TT ℝ, t.WF ∧ u.WF ∧ PyVal.SameMeta (.tt t none) (.tt u none) ∧ (∃ out, runCalls qr svd z [.cholesky 0] [.tt t none] = Except.ok out) ∧
      runCalls qr svd z [.cholesky 0] [.tt u none] = Except.error Err.tf := by
  refine ⟨exKron.toReal, exKronZero.toReal, exKron_isKronecker.wf, exKronZero_isKronecker.wf, ⟨rfl, rfl, rfl, rfl, rfl⟩, ?_, ?_⟩
  · obtain ⟨u, e, -⟩ := kronCholesky_ok exKron_isKronecker exKron_posDef
    refine ⟨[.tt exKron.toReal none, .tt u none], ?_⟩
    simp only [runCalls, PyCall.run, getTT, List.getElem?_cons_zero, retTT]
    rw [R.ok_bind, e]
    rfl
  · have e : kronCholesky exKronZero.toReal = Except.error Err.tf := by
      refine kronMap_error exKronZero_isKronecker matrixwise_cholesky fun hq => ?_
      obtain ⟨L, hL⟩ : ∃ L, CholeskyOf (exKronZero.toReal.factor [] 0 2) L := hq 0 (show 0 < 2 by decide) [] trivial
      have h0 := hL.2.2 (0 : Fin 2) (0 : Fin 2) le_rfl
      have h1 := hL.2.1 (0 : Fin 2)
      have h2 := hL.1 (0 : Fin 2) (1 : Fin 2) (by decide)
      rw [exKronZero_factor, Matrix.mul_apply, Matrix.zero_apply] at h0
      rw [Fin.sum_univ_two, Matrix.transpose_apply, Matrix.transpose_apply, h2] at h0
      nlinarith
    simp only [runCalls, PyCall.run, getTT, List.getElem?_cons_zero, retTT]
    rw [R.ok_bind, e]
    rfl

end T3f
