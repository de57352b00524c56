import Verif.Model.Tangent
import Verif.Spec.Tangent

/-! # The objects that the functions for tangent spaces work on -/

namespace T3f

/-- The weights that `project_sum` accepts for `n` objects, with the coefficient of item `s` in the output item `p`. -/
inductive ProjWeights (n : ℕ) : Option (Tensor ℝ) → Option ℕ → (List ℕ → ℕ → ℝ) → Prop
  /-- no weights -/
  | ones : ProjWeights n none none (fun _ _ => 1)
  /-- a vector: one output -/
  | vector (wt : Tensor ℝ) : wt.shape = [n] → ProjWeights n (some wt) none (fun _ s => wt.get [s])
  /-- a matrix: a batch, one item for each column -/
  | matrix (wt : Tensor ℝ) (o : ℕ) : wt.shape = [n, o] → 1 < o → ProjWeights n (some wt) (some o) (fun p s => wt.get (s :: p))

/-- The coefficients that `add_n_projected` accepts for `n` objects (with the batch size `out`), with the coefficient of the object `i` for the batch
index `p`. -/
inductive AddCoef (n : ℕ) (out : Option ℕ) : Option (Tensor ℝ) → (List ℕ → ℕ → ℝ) → Prop
  /-- no coefficients -/
  | ones : AddCoef n out none (fun _ _ => 1)
  /-- one coefficient for each object -/
  | vector (wt : Tensor ℝ) : wt.shape = [n] → AddCoef n out (some wt) (fun _ i => wt.get [i])
  /-- one coefficient for each object and batch item -/
  | matrix (wt : Tensor ℝ) (m : ℕ) : out = some m → wt.shape = [n, m] → AddCoef n out (some wt) (fun p i => wt.get (i :: p))

/-- The batch index of item `s` of an object: `[s]` for a batch, `[]` otherwise. -/
def itemIdx (y : TT ℝ) (s : ℕ) : List ℕ := y.bpre.map fun _ => s

/-- `y` was returned by a projection on the tangent space at `x`, or by `add_n_projected` for such objects. -/
inductive ProjectedOn (qr : QRRoutine) (x : TT ℝ) : TT ℝ → Prop
  /-- `project(z, x)` -/
  | project {z y : TT ℝ} : z.WF → project qr z x = Except.ok y → ProjectedOn qr x y
  /-- `project_sum(z, x, weights)` -/
  | projectSum {z y : TT ℝ} {weights : Option (Tensor ℝ)} {out : Option ℕ} {c : List ℕ → ℕ → ℝ} : z.WF →
      ProjWeights (z.batch.getD 1) weights out c → projectSum qr z x weights = Except.ok y → ProjectedOn qr x y
  /-- `project_matmul(z, x, A)` -/
  | projectMatmul {z y A : TT ℝ} {n : ℕ} {I L : List ℕ} : z.WF → z.batch = some n → z.rawShape = [I, L] → A.WF → A.batch = none →
      A.rawShape = [I, I] → projectMatmul qr z x A = Except.ok y → ProjectedOn qr x y
  /-- `add_n_projected(ys, coef)` -/
  | addN {ys : List (TT ℝ)} {y : TT ℝ} {o : ℕ} {out : Option ℕ} {coef : Option (Tensor ℝ)} {c : List ℕ → ℕ → ℝ} : ys ≠ [] →
      (∀ t ∈ ys, ProjectedOn qr x t) → (∀ t ∈ ys, t.batch = out) → AddCoef ys.length out coef c →
      addNProjected (ys.map (⟨·, some o⟩)) coef = Except.ok ⟨y, some o⟩ → ProjectedOn qr x y

/-- The tensor with the cores `left 0 … left (k-1), delta k, right (k+1) … right (d-1)`, for the batch index `p` of the deltas. -/
def deltaTerm (left right : TT ℝ) (deltas : List (Tensor ℝ)) (p : List ℕ) (k : ℕ) : TT ℝ where
  cores := left.cores.take k ++ ⟨(deltas.getD k default).shape.drop p.length, fun i => (deltas.getD k default).get (p ++ i)⟩ :: right.cores.drop (k + 1)
  rawShape := left.rawShape
  ttRanks := left.ttRanks.take (k + 1) ++ right.ttRanks.drop (k + 1)
  batch := none

end T3f
