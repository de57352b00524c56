import Verif.Proofs.RoundProps
import Verif.Spec.Kron

/-!
# C30: orthogonalization of the cores

`qr` is any routine that returns for every matrix `A` a factorization `A = Q R` with orthonormal columns of `Q`
(`QRRoutine.Correct`). Batches are included in the left-to-right direction.
-/

namespace T3f

/-- C30: the result of the left-to-right sweep represents the same tensor, in every batch item; the cores except the last have
left unfoldings with orthonormal columns; ranks do not grow. -/
theorem C30_left_to_right {qr : QRRoutine} (hqr : qr.Correct) {t : TT ℝ} (h : t.WF) (hm : t.ModesPos) :
    ∃ o T O, orthogonalize qr t true = Except.ok o ∧ o.WF ∧ o.rawShape = t.rawShape ∧ o.batch = t.batch ∧
      (∀ k ≤ t.ndims, o.rank k ≤ t.rank k) ∧
      (∀ p, Valid t.bpre p → ∀ k, k + 1 < t.ndims → o.LeftOrthonormal p k) ∧
      full t = Except.ok T ∧ full o = Except.ok O ∧ O ≃ₜ T := by
  obtain ⟨o, e, w, rs, b, _, rk, orth, ent⟩ := orthoLR_ok hqr h hm
  obtain ⟨T, O, eT, eO, he⟩ := full_eqv h w rs b ent
  exact ⟨o, T, O, e, w, rs, b, fun k hk => by rw [rk k hk]; exact lrRank_le _ _ h.rank_first k, orth, eT, eO, he⟩

example : (∃ qr : QRRoutine, qr.Correct) ∧ exTensor3.toReal.WF ∧ exTensor3.toReal.ModesPos ∧ exBatchMatrix.toReal.WF ∧
    exBatchMatrix.toReal.ModesPos :=
  ⟨qrRoutine_exists, TT.WF.toReal (by decide), by simp [TT.ModesPos, TT.toReal, exTensor3], TT.WF.toReal (by decide),
    by simp [TT.ModesPos, TT.toReal, exBatchMatrix]⟩

/-- C30: the result of the right-to-left sweep represents the same tensor; the cores except the first have right unfoldings with
orthonormal rows; ranks do not grow. -/
theorem C30_right_to_left {qr : QRRoutine} (hqr : qr.Correct) {t : TT ℝ} (h : t.WF) (hm : t.ModesPos) (hb : ¬ t.isBatch) :
    ∃ o T O, orthogonalize qr t false = Except.ok o ∧ o.WF ∧ o.rawShape = t.rawShape ∧ o.batch = none ∧
      (∀ k ≤ t.ndims, o.rank k ≤ t.rank k) ∧
      (∀ k, 0 < k → k < t.ndims → o.RightOrthonormal [] k) ∧
      full t = Except.ok T ∧ full o = Except.ok O ∧ O ≃ₜ T := by
  have hn : t.batch = none := by
    cases hb' : t.batch with
    | none => rfl
    | some n => exact absurd (by simp [TT.isBatch, hb']) hb
  obtain ⟨o, e, w, rs, b, _, rk, orth, ent⟩ := orthoRL_ok hqr h hn hm
  have hpre : t.bpre = [] := by simp [TT.bpre, hn]
  obtain ⟨T, O, eT, eO, he⟩ := full_eqv h w rs (by rw [b, hn]) (fun p hp g hg => by
    rw [hpre] at hp
    obtain rfl := (valid_nil_iff p).1 hp
    exact ent g hg)
  refine ⟨o, T, O, ?_, w, rs, b, fun k hk => by rw [rk k hk]; exact rlRank_le _ _ h.rank_last hk, orth, eT, eO, he⟩
  unfold orthogonalize
  rw [if_neg (by simp), if_neg hb]
  exact e

example : exTensor3.toReal.WF ∧ exTensor3.toReal.ModesPos ∧ ¬ exTensor3.toReal.isBatch ∧ exMatrix.toReal.WF ∧ exMatrix.toReal.ModesPos ∧
    ¬ exMatrix.toReal.isBatch :=
  ⟨TT.WF.toReal (by decide), by simp [TT.ModesPos, TT.toReal, exTensor3], by simp [TT.isBatch, TT.toReal, exTensor3],
    TT.WF.toReal (by decide), by simp [TT.ModesPos, TT.toReal, exMatrix], by simp [TT.isBatch, TT.toReal, exMatrix]⟩

/-- C30: batches are not supported from right to left. -/
theorem C30_batch_error (qr : QRRoutine) {t : TT ℝ} (hb : t.isBatch) : orthogonalize qr t false = Except.error Err.notImpl := by
  unfold orthogonalize
  rw [if_neg (by simp), if_pos hb]

example : exBatch.toReal.isBatch := by simp [TT.isBatch, TT.toReal, exBatch]

end T3f
