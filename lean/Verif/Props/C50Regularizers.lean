import Verif.Model.Regularizers
import Verif.Props.C13Norm
import Verif.Proofs.Kronecker

/-!
# C50: regularizers

`TfApi.v1` and `TfApi.v2` are the APIs of TensorFlow 1 and 2.
-/

namespace T3f

/-- C50: under the API of TensorFlow 1, for a positive real scale (or a scale that is a tensor), `l2_regularizer` returns the function that maps a
TT-object to the scale times the sum of the squares of its elements (for each batch item). -/
theorem C50_l2 {qr : QRRoutine} (hqr : qr.Correct) {scale : ScaleArg} {c : ℝ} (hs : (scale = .real c ∧ 0 < c) ∨ scale = .tensor c) :
    ∃ f, l2Regularizer qr .v1 scale = Except.ok f ∧ ∀ t : TT ℝ, t.WF → t.ModesPos → ∃ P A s, f t = Except.ok (some P) ∧ full t = Except.ok A ∧
      A.shape = t.batch.toList ++ s ∧ P.shape = t.batch.toList ∧
      ∀ p, Valid t.batch.toList p → P.get p = c * ∑ n ∈ Finset.range s.prod, A.get (p ++ unravel s n) ^ 2 := by
  refine ⟨l2Penalty qr .v1 c, ?_, fun t h hm => ?_⟩
  · rcases hs with ⟨rfl, hc⟩ | rfl
    · rw [l2Regularizer, withScale, if_neg (by linarith), if_neg hc.ne']; rfl
    · rfl
  · obtain ⟨F, A, s, e, eA, sA, sF, vF⟩ := C13_frobenius_norm_squared hqr h hm false
    obtain ⟨P, eP, sP, vP⟩ := binop_scalar_or_same (· * ·) (scalar c) F (Or.inl rfl) sF
    refine ⟨P, A, s, ?_, eA, sA, sP, fun p hp => ?_⟩
    · rw [l2Penalty, show tfNameScope2 .v1 = Except.ok () from rfl, R.ok_bind, e, R.ok_bind, eP]; rfl
    · rw [vP p hp, vF p hp]; rfl

/-- C50: integers (also zero) and negative numbers are rejected by both regularizers, under both APIs. -/
theorem C50_scale_error (qr : QRRoutine) (api : TfApi) (reg : Tensor ℝ → R (Tensor ℝ)) {scale : ScaleArg}
    (hs : (∃ n, scale = .integer n) ∨ ∃ c < 0, scale = .real c) :
    l2Regularizer qr api scale = Except.error Err.value ∧ coresRegularizer api reg scale = Except.error Err.value := by
  rcases hs with ⟨n, rfl⟩ | ⟨c, hc, rfl⟩
  · exact ⟨rfl, rfl⟩
  · rw [l2Regularizer, coresRegularizer, withScale, withScale, if_pos hc, if_pos hc]
    exact ⟨rfl, rfl⟩

/-- C50: scale zero disables both regularizers under the API of TensorFlow 1: they return `None`. -/
theorem C50_zero (qr : QRRoutine) (reg : Tensor ℝ → R (Tensor ℝ)) :
    (∃ f, l2Regularizer qr .v1 (.real 0) = Except.ok f ∧ ∀ t, f t = Except.ok none) ∧
    ∃ f, coresRegularizer .v1 reg (.real 0) = Except.ok f ∧ ∀ t, f t = Except.ok none := by
  constructor <;> refine ⟨fun _ => pure none, ?_, fun t => rfl⟩
  · rw [l2Regularizer, withScale, if_neg (lt_irrefl _), if_pos rfl]; rfl
  · rw [coresRegularizer, withScale, if_neg (lt_irrefl _), if_pos rfl]; rfl

/-- C50: under the API of TensorFlow 1, `cores_regularizer` returns the function that maps a TT-object to the scale times the sum of the penalties of its
cores (for penalties of the same shape). -/
theorem C50_cores {reg : Tensor ℝ → R (Tensor ℝ)} {scale : ScaleArg} {c : ℝ} (hs : (scale = .real c ∧ 0 < c) ∨ scale = .tensor c) :
    ∃ f, coresRegularizer .v1 reg scale = Except.ok f ∧ ∀ (t : TT ℝ) (s : List ℕ) (pen : ℕ → Tensor ℝ), 0 < t.ndims →
      (∀ k < t.ndims, reg (t.core k) = Except.ok (pen k) ∧ (pen k).shape = s) →
      ∃ P, f t = Except.ok (some P) ∧ P.shape = s ∧ ∀ p, Valid s p → P.get p = c * ∑ k ∈ Finset.range t.ndims, (pen k).get p := by
  refine ⟨coresPenalty .v1 reg c, ?_, fun t s pen hpos hpen => ?_⟩
  · rcases hs with ⟨rfl, hc⟩ | rfl
    · rw [coresRegularizer, withScale, if_neg (by linarith), if_neg hc.ne']; rfl
    · rfl
  · have key : ∀ n ≤ t.ndims, ∃ S, (List.range n).foldlM (fun penalty i => do
        let c ← pyGet t.cores i
        let p ← reg c
        binop (· + ·) penalty p) (scalar 0) = Except.ok S ∧ (n = 0 ∧ S = scalar 0 ∨ S.shape = s) ∧
        ∀ p, Valid s p → S.get (bproj S.shape p) = ∑ k ∈ Finset.range n, (pen k).get p := by
      intro n
      induction n with
      | zero => exact fun _ => ⟨scalar 0, rfl, Or.inl ⟨rfl, rfl⟩, fun p _ => rfl⟩
      | succ n ih =>
        intro hn
        obtain ⟨S, e, hS, vS⟩ := ih (by omega)
        obtain ⟨e1, s1⟩ := hpen n (by omega)
        obtain ⟨P, eP, sP, vP⟩ := binop_scalar_or_same (· + ·) S (pen n) (pre := s) (by
          rcases hS with ⟨_, rfl⟩ | h
          exacts [Or.inl rfl, Or.inr h]) s1
        refine ⟨P, ?_, Or.inr sP, fun p hp => ?_⟩
        · rw [List.range_succ, List.foldlM_append, e, R.ok_bind]
          simp only [List.foldlM_cons, List.foldlM_nil]
          rw [pyGet_of_lt t.cores n default (show n < t.cores.length from hn), R.ok_bind, show t.cores.getD n default = t.core n from rfl, e1, R.ok_bind, eP]
          rfl
        · rw [sP, bproj_valid hp, vP p hp, vS p hp, Finset.sum_range_succ]
    obtain ⟨S, e, hS, vS⟩ := key t.ndims le_rfl
    have hS : S.shape = s := hS.resolve_left fun h => by omega
    obtain ⟨P, eP, sP, vP⟩ := binop_scalar_or_same (· * ·) (scalar c) S (Or.inl rfl) hS
    refine ⟨P, ?_, sP, fun p hp => ?_⟩
    · rw [coresPenalty, show tfNameScope2 .v1 = Except.ok () from rfl, R.ok_bind, corePenalties, e, R.ok_bind, eP]; rfl
    · have := vS p hp
      rw [hS, bproj_valid hp] at this
      rw [vP p hp, this]; rfl

/-- C50: under the API of TensorFlow 2 no regularizer works: scale zero raises AttributeError, and all functions returned for other scales raise TypeError for
every TT-object. -/
theorem C50_api2 (qr : QRRoutine) (reg : Tensor ℝ → R (Tensor ℝ)) :
    l2Regularizer qr .v2 (.real 0) = Except.error Err.attr ∧ coresRegularizer .v2 reg (.real 0) = Except.error Err.attr ∧
    ∀ (scale : ScaleArg) (f : Regularizer), l2Regularizer qr .v2 scale = Except.ok f ∨ coresRegularizer .v2 reg scale = Except.ok f →
      ∀ t, f t = Except.error Err.type := by
  refine ⟨?_, ?_, fun scale f hf t => ?_⟩
  · rw [l2Regularizer, withScale, if_neg (lt_irrefl _), if_pos rfl]; rfl
  · rw [coresRegularizer, withScale, if_neg (lt_irrefl _), if_pos rfl]; rfl
  · have key : ∀ pen : ℝ → Regularizer, (∀ x, pen x t = Except.error Err.type) → withScale .v2 pen scale = Except.ok f → f t = Except.error Err.type := by
      intro pen hpen h
      cases scale with
      | integer n => cases h
      | tensor x => cases h; exact hpen x
      | real x =>
        rw [withScale] at h
        split_ifs at h with h1 h2
        · cases h
        · cases h; exact hpen x
    rcases hf with h | h
    · exact key _ (fun x => rfl) h
    · exact key _ (fun x => rfl) h

example : exTensor3.toReal.WF ∧ exTensor3.toReal.ModesPos ∧ ∃ qr : QRRoutine, qr.Correct :=
  ⟨TT.WF.toReal (by decide), by simp [TT.ModesPos, TT.toReal, exTensor3], qrRoutine_exists⟩

/-- The hypotheses of `C50_cores`: the sum of the squares of a core as its penalty. -/
example : 0 < exTensor3.toReal.ndims ∧ ∀ k < exTensor3.toReal.ndims, (fun c : Tensor ℝ => (pure (scalar (reduceSum (c.map (· ^ 2)))) : R (Tensor ℝ)))
    (exTensor3.toReal.core k) = Except.ok (scalar (reduceSum ((exTensor3.toReal.core k).map (· ^ 2)))) ∧
    (scalar (reduceSum ((exTensor3.toReal.core k).map (· ^ 2)))).shape = [] := ⟨by decide, fun _ _ => ⟨rfl, rfl⟩⟩

end T3f
