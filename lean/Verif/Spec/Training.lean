import Verif.Spec.Entry
import Verif.Model.Full
import Mathlib.Analysis.Calculus.Deriv.Basic

/-! # Changing one core of a TT-object -/

namespace T3f

/-- The TT-object with core `k` replaced. -/
def TT.withCore {K : Type} (t : TT K) (k : ℕ) (C : Tensor K) : TT K := { t with cores := t.cores.set k C }

/-- `G + s * D`. -/
def Tensor.addScaled (G : Tensor ℝ) (s : ℝ) (D : Tensor ℝ) : Tensor ℝ := ⟨G.shape, fun i => G.get i + s * D.get i⟩

/-- The tensor of the given shape that is one at `j` and zero elsewhere. -/
def unitAt (s j : List ℕ) : Tensor ℝ := ⟨s, fun i => if i = j then 1 else 0⟩

/-- Sum of the products of the elements. -/
noncomputable def Tensor.inner (G D : Tensor ℝ) : ℝ := ∑ n ∈ Finset.range G.shape.prod, G.get (unravel G.shape n) * D.get (unravel G.shape n)

/-- `g` is the gradient of `loss` with respect to core `k` of `t` (what `tape.gradient(loss, t.tt_cores)[k]` stands for): it has the shape of the core, and the
derivative of the loss when the core moves in direction `D` is the inner product of `g` and `D`. -/
def IsCoreGradient (loss : TT ℝ → R ℝ) (t : TT ℝ) (k : ℕ) (g : Tensor ℝ) : Prop :=
  g.shape = (t.core k).shape ∧ ∀ D : Tensor ℝ, D.shape = (t.core k).shape →
    ∃ ψ : ℝ → ℝ, (∀ s, loss (t.withCore k ((t.core k).addScaled s D)) = Except.ok (ψ s)) ∧ HasDerivAt ψ (g.inner D) 0

/-- `loss` is the mean squared error of the elements at the cells `cell o`, `o ∈ S`, for TT-objects with the shape of `x`. -/
structure IsMSE (x : TT ℝ) (loss : TT ℝ → R ℝ) (S : Finset ℕ) (cell : ℕ → List ℕ) (y : ℕ → ℝ) : Prop where
  nonempty : S.Nonempty
  valid : ∀ o ∈ S, Valid x.denseShape (cell o)
  value : ∀ (t : TT ℝ) (F : Tensor ℝ), t.WF → t.batch = x.batch → t.rawShape = x.rawShape → full t = Except.ok F →
    loss t = Except.ok ((∑ o ∈ S, (F.get (cell o) - y o) ^ 2) / S.card)

/-- A single TT-tensor. -/
structure TT.Single (t : TT ℝ) : Prop where
  wf : t.WF
  batch : t.batch = none
  tensor : ¬ t.isMatrix

/-- The gradient with respect to core `k`: the errors at the cells times what the elements at these cells would be with a unit tensor in place of core `k`. -/
noncomputable def mseGradient (t : TT ℝ) (S : Finset ℕ) (cell : ℕ → List ℕ) (y : ℕ → ℝ) (k : ℕ) : Tensor ℝ :=
  ⟨(t.core k).shape, fun j => 2 / S.card * ∑ o ∈ S, (t.entry [] (tIdx (cell o)) - y o) * (t.withCore k (unitAt (t.core k).shape j)).entry [] (tIdx (cell o))⟩

end T3f
