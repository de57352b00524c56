import Verif.Model.Nn
import Verif.Spec.Variables
import Verif.Spec.Entry

/-! # Layers that can be used -/

namespace T3f

/-- The layer multiplies with a TT-matrix of shape `I × J` with the variables `as` as cores; the bias, if any, is another variable with one element per column. -/
structure KerasDense.Ready (σ : Store ℝ) (layer : KerasDense) (as I J : List ℕ) : Prop where
  isVariable : layer.matrix.IsVariable σ as
  wf : (layer.matrix.tt σ).WF
  raw : layer.matrix.rawShape = [I, J]
  batch : layer.matrix.batch = none
  pos : ∀ n ∈ I ++ J, 0 < n
  bias : if layer.useBias then ∃ a, layer.b = some a ∧ a ∉ as ∧ a < σ.length ∧ (σ.getD a default).shape = [J.prod] else layer.b = none

end T3f
