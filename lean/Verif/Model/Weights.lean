import Verif.Model.Nn

/-!
# Weights of the Keras layer

`/repo/docs/tutorials/tensor_nets.ipynb` replaces a dense layer by a `KerasDense` layer with `set_weights(list(Wtt.tt_cores) + [bias])`. The functions of the base class
`tensorflow.keras.layers.Layer` used there are modelled after TensorFlow 2.4; conversion of values to NumPy arrays and back is the identity.
-/

namespace T3f

/-- The address of a variable. -/
def VCore.address {K : Type} : VCore K → Option ℕ
  | .var a => some a
  | .tensor _ => none

/-- nn.py:61-65: `layer.weights`, the variables that are attributes of the layer in the order of the assignments: `self._tt_cores = self.matrix.tt_cores`, `self.b`. -/
def KerasDense.weights (layer : KerasDense) : List ℕ := layer.matrix.cores.filterMap VCore.address ++ layer.b.toList

/-- Keras `get_weights`: the values of the weights. -/
noncomputable def getWeights (σ : Store ℝ) (as : List ℕ) : List (Tensor ℝ) := as.map fun a => σ.getD a default

/-- Keras `set_weights`: the number of values and their shapes are checked before anything is assigned (ValueError). The new store and the result. -/
noncomputable def setWeights (σ : Store ℝ) (as : List ℕ) (values : List (Tensor ℝ)) : Store ℝ × R Unit :=
  if as.length = values.length ∧ ∀ p ∈ as.zip values, p.2.shape = (σ.getD p.1 default).shape then
    ((as.zip values).foldl (fun σ p => σ.set p.1 p.2) σ, pure ())
  else (σ, throw Err.value)

/-- Keras `count_params`: the total number of elements of the weights. -/
noncomputable def countParams (σ : Store ℝ) (as : List ℕ) : ℕ := (as.map fun a => (σ.getD a default).shape.prod).sum

end T3f
