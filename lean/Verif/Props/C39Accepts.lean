import Verif.Proofs.ProjectMatmulIff
import Verif.Props.C39ProjectMatmul

/-! # C39: exactly which calls of `project_matmul` succeed -/

namespace T3f

/-- C39: `project_matmul(z, x, A)` with a TT-matrix `A` succeeds exactly if `x` is a single TT-matrix with at least two cores, `z` is a batch of the
raw shape of `x`, `A` is not a batch, has at least as many cores as `x`, its leading sizes are the row sizes of `x` on both sides, and its rank behind
these cores is one. So TT-tensors, which the documentation allows, always raise. -/
theorem C39_iff {qr : QRRoutine} (hqr : qr.Correct) {x z A : TT ℝ} {I' J' : List ℕ} (h : x.WF) (hm : x.ModesPos) (hz : z.WF) (hA : A.WF)
    (rA : A.rawShape = [I', J']) :
    (∃ y, projectMatmul qr z x A = Except.ok y) ↔ ∃ I L n, x.batch = none ∧ x.rawShape = [I, L] ∧ 2 ≤ x.ndims ∧ z.batch = some n ∧
      z.rawShape = [I, L] ∧ A.batch = none ∧ A.rank x.ndims = 1 ∧ I'.take x.ndims = I ∧ J'.take x.ndims = I :=
  projectMatmul_iff hqr h hm hz hA rA

/-- `exMatSquare` with a further core. -/
def exMatLong : TT ℤ where
  cores := exMatSquare.cores ++ [.ofList [1, 3, 2, 1] [1, 2, 3, 4, 5, 6]]
  rawShape := [[2, 2, 3], [2, 2, 2]]
  ttRanks := [1, 2, 1, 1]
  batch := none

/-- C39, finding: further cores of the matrix are ignored, while the product of that matrix with `what` raises ValueError. -/
theorem C39_ignored_cores {qr : QRRoutine} (hqr : qr.Correct) : ∃ x z A B : TT ℝ, x.WF ∧ z.WF ∧ A.WF ∧ B.WF ∧ A.ndims = 3 ∧ B.ndims = 2 ∧
    (∃ y, projectMatmul qr z x A = Except.ok y ∧ projectMatmul qr z x B = Except.ok y) ∧ ttTTMatmul A z = Except.error Err.value := by
  refine ⟨exMatrix.toReal, exMatBatch.toReal, exMatLong.toReal, exMatSquare.toReal, TT.WF.toReal (by decide), TT.WF.toReal (by decide),
    TT.WF.toReal (by decide), TT.WF.toReal (by decide), rfl, rfl, ?_, ?_⟩
  · obtain ⟨y, e⟩ := (C39_iff hqr (x := exMatrix.toReal) (z := exMatBatch.toReal) (A := exMatLong.toReal) (TT.WF.toReal (by decide))
      (by simp [TT.ModesPos, TT.toReal, exMatrix]) (TT.WF.toReal (by decide)) (TT.WF.toReal (by decide)) rfl).2
      ⟨[2, 2], [1, 2], 2, rfl, rfl, by decide, rfl, rfl, rfl, rfl, rfl, rfl⟩
    refine ⟨y, e, ?_⟩
    rw [← projectMatmul_prefix] at e
    exact e
  · unfold ttTTMatmul
    rw [require_pos (show exMatLong.toReal.isMatrix ∧ exMatBatch.toReal.isMatrix from ⟨rfl, rfl⟩), require_pos (by rfl),
      require_neg (show ¬ exMatBatch.toReal.ndims = exMatLong.toReal.ndims by decide)]
    rfl

example : ∃ x z A : TT ℝ, x.WF ∧ x.ModesPos ∧ z.WF ∧ A.WF ∧ A.rawShape = [[2, 2, 3], [2, 2, 2]] ∧ x.rawShape = [[2, 2], [1, 2]] ∧ z.batch = some 2 :=
  ⟨exMatrix.toReal, exMatBatch.toReal, exMatLong.toReal, TT.WF.toReal (by decide), by simp [TT.ModesPos, TT.toReal, exMatrix],
    TT.WF.toReal (by decide), TT.WF.toReal (by decide), rfl, rfl, rfl⟩

end T3f
