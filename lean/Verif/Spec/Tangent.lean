import Verif.Spec.Orth
import Mathlib.LinearAlgebra.Span.Basic

/-! # Minimal ranks and tangent spaces -/

namespace T3f

/-- No tensor train with the same elements has a smaller rank anywhere. -/
def TT.MinimalRanks (t : TT ℝ) : Prop :=
  ∀ s : TT ℝ, s.WF → s.batch = none → s.rawShape = t.rawShape → s.dense ≃ₜ t.dense → ∀ k ≤ t.ndims, t.rank k ≤ s.rank k

/-- The represented tensor is not zero. -/
def TT.Nonzero (t : TT ℝ) : Prop := ∃ i, Valid t.dense.shape i ∧ t.dense.get i ≠ 0

/-- The tensor represented by `x` with core `k` replaced by `D` (a matrix for each value of the mode indices), at the position `i`. -/
def TT.replaceCore (x : TT ℝ) (k : ℕ) (D : List ℕ → ℕ → ℕ → ℝ) (i : List ℕ) : ℝ :=
  let m := (x.decode i).2
  lprod x.rank (fun j => if j = k then D (m k) else x.slice [] m j) x.ndims 0

/-- `f` is a tangent vector at `x`: a sum of tensors represented by `x` with one core replaced. -/
def TT.TangentVector (x : TT ℝ) (f : List ℕ → ℝ) : Prop :=
  ∃ D : ℕ → List ℕ → ℕ → ℕ → ℝ, ∀ i, Valid x.dense.shape i → f i = ∑ k ∈ Finset.range x.ndims, x.replaceCore k (D k) i

/-- Inner product of two tensors of shape `s`. -/
noncomputable def dot (s : List ℕ) (f g : List ℕ → ℝ) : ℝ := ∑ n ∈ Finset.range s.prod, f (unravel s n) * g (unravel s n)

end T3f
