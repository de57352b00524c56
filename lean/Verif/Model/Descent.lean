import Verif.Model.Norm
import Verif.Model.Multiply
import Verif.Model.Variables
import Verif.Model.Riemannian
import Verif.Model.Decompositions

/-!
# Riemannian gradient descent

Models the program of `/repo/docs/tutorials/riemannian.ipynb` (the cell that defines `step` and the cell with the loop): minimize the squared distance to `A` over
tensors of bounded TT-rank.
-/

namespace T3f

/-- A TT-object whose cores are tensors, as returned by the functions of the library. -/
def VObj.ofTT {K : Type} (t : TT K) : VObj K := ⟨t.cores.map .tensor, t.rawShape, t.ttRanks, t.batch⟩

/-- `t3f.round(X - alpha * t3f.riemannian.project(X - A, X), max_tt_rank=m)`. -/
noncomputable def descentUpdate (qr : QRRoutine) (svd : SVDRoutine) (alpha : ℝ) (m : MaxRank) (x a : TT ℝ) : R (TT ℝ) := do
  let gradF ← sub x a
  let riemannianGrad ← project qr gradF x
  let s ← multiplyScalar riemannianGrad alpha
  let y ← sub x s
  ttRound qr svd y m none

/-- The function `step`: `t3f.assign(X, ...)` and the value `0.5 * t3f.frobenius_norm_squared(X - A)`. The new store and the result. -/
noncomputable def descentStep (qr : QRRoutine) (svd : SVDRoutine) (alpha : ℝ) (m : MaxRank) (X A : VObj ℝ) (σ : Store ℝ) : Store ℝ × R (Tensor ℝ) :=
  match descentUpdate qr svd alpha m (X.tt σ) (A.tt σ) with
  | .error e => (σ, .error e)
  | .ok z =>
    match assign σ X (VObj.ofTT z) with
    | (σ', .error e) => (σ', .error e)
    | (σ', .ok _) =>
      (σ', do
        let g ← sub (X.tt σ') (A.tt σ')
        let F ← frobeniusNormSquared qr g false
        pure (F.map (0.5 * ·)))

/-- The loop `for i in range(n): log.append(step())`: the store after it, and `log`. -/
noncomputable def descentLoop (qr : QRRoutine) (svd : SVDRoutine) (alpha : ℝ) (m : MaxRank) (X A : VObj ℝ) (σ : Store ℝ) : ℕ → Store ℝ × R (List (Tensor ℝ))
  | 0 => (σ, .ok [])
  | n + 1 =>
    match descentLoop qr svd alpha m X A σ n with
    | (σ', .error e) => (σ', .error e)
    | (σ', .ok log) =>
      match descentStep qr svd alpha m X A σ' with
      | (σ'', .error e) => (σ'', .error e)
      | (σ'', .ok F) => (σ'', .ok (log ++ [F]))

end T3f
