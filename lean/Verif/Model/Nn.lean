import Verif.Model.Trace
import Verif.Model.Dispatch
import Verif.Model.Initializers
import Verif.Model.Variables

/-!
# The Keras layer

Models `/repo/t3f/nn.py`. What the base class `Layer` does (names, tracking of weights, building) is not modelled. `z` are the random numbers drawn, `act` is the
table of the known activation functions (`Activation` raises ValueError for an unknown name).
-/

namespace T3f

/-- nn.py:39-46, 61-65: the attributes of a `KerasDense` object. `b` is the address of the variable `self.b`. -/
structure KerasDense where
  matrix : VObj ℝ
  b : Option ℕ
  activation : Option String
  useBias : Bool
  /-- nn.py:40; the overflow of `np.prod` for `2 ^ 63` or more columns is not modelled. -/
  outputDim : ℤ

/-- nn.py:48-60: the initializer of the matrix. -/
noncomputable def kernelInit (z : ℕ → List ℕ → ℝ) (kernel : String) (input output : List ℤ) (rank : RankArg) : R (TT ℝ) :=
  if kernel = "glorot" then glorotInitializer z (some input) (some output) rank
  else if kernel = "he" then heInitializer z (some input) (some output) rank
  else if kernel = "lecun" then lecunInitializer z (some input) (some output) rank
  else throw Err.value

/-- nn.py:63-65: the bias variable, created if `use_bias`. -/
noncomputable def biasInit (σ : Store ℝ) (useBias : Bool) (bias : ℝ) (dim : ℤ) : Store ℝ × Option ℕ :=
  if useBias then (σ ++ [(ones [dim.toNat]).map (bias * ·)], some σ.length) else (σ, none)

/-- nn.py:14-66 `KerasDense.__init__`. The new store and the object. -/
noncomputable def kerasDense (z : ℕ → List ℕ → ℝ) (σ : Store ℝ) (input output : List ℤ) (rank : RankArg) (activation : Option String) (useBias : Bool)
    (kernel : String) (bias : ℝ) : Store ℝ × R KerasDense :=
  match kernelInit z kernel input output rank with
  | .error e => (σ, .error e)
  | .ok t =>
    match getVariable σ (some ⟨t.cores.map .tensor, t.rawShape, t.ttRanks, t.batch⟩) none with
    | (σ', .error e) => (σ', .error e)
    | (σ', .ok matrix) =>
      let (σ'', b) := biasInit σ' useBias bias output.prod
      (σ'', .ok ⟨matrix, b, activation, useBias, output.prod⟩)

/-- nn.py:69: `t3f.matmul` of a dense tensor and a TT-matrix is a dense tensor. -/
def toDense : Arg ℝ → R (Tensor ℝ)
  | .dense T => pure T
  | _ => throw Err.type

/-- nn.py:70-71: add the bias (`None` cannot be added). -/
noncomputable def addBias (σ : Store ℝ) (layer : KerasDense) (res : Tensor ℝ) : R (Tensor ℝ) :=
  if layer.useBias then
    match layer.b with
    | none => throw Err.value
    | some a => binop (· + ·) res (σ.getD a default)
  else pure res

/-- nn.py:72-73: apply the activation. -/
def applyActivation (act : String → Option (Tensor ℝ → Tensor ℝ)) (layer : KerasDense) (res : Tensor ℝ) : R (Tensor ℝ) :=
  match layer.activation with
  | none => pure res
  | some name =>
    match act name with
    | none => throw Err.value
    | some f => pure (f res)

/-- nn.py:68-74 `KerasDense.call`. -/
noncomputable def KerasDense.call (act : String → Option (Tensor ℝ → Tensor ℝ)) (σ : Store ℝ) (layer : KerasDense) (x : Tensor ℝ) : R (Tensor ℝ) := do
  let res ← matmulAny (.dense x) (.tt (layer.matrix.tt σ))
  let res ← toDense res
  let res ← addBias σ layer res
  applyActivation act layer res

/-- nn.py:76-77 `compute_output_shape`. -/
def KerasDense.computeOutputShape (layer : KerasDense) (inputShape : List ℕ) : R (List ℤ) := do
  let n ← pyGet inputShape 0
  pure [(n : ℤ), layer.outputDim]

/-- nn.py:68-74 `KerasDense.call` inside a traced function, for an input of the static shape `static`. -/
noncomputable def KerasDense.callTraced (act : String → Option (Tensor ℝ → Tensor ℝ)) (σ : Store ℝ) (layer : KerasDense) (static : Option (List (Option ℕ)))
    (x : Tensor ℝ) : R (Tensor ℝ) := do
  let res ← if (layer.matrix.tt σ).isBatch then throw Err.value else denseTTMatmulTraced static x (layer.matrix.tt σ)
  let res ← addBias σ layer res
  applyActivation act layer res

end T3f
