import Verif.Model.TensorTrain

/-!
# Variables

Models `/repo/t3f/variables.py` in eager mode with TensorFlow 2. A `tf.Variable` is an address in a store. Names, scopes, devices, collections, data types and
`trainable` are not modelled.
-/

namespace T3f

variable {K : Type} [Zero K]

/-- The values of all variables. -/
abbrev Store (K : Type) := List (Tensor K)

/-- A TT-core is a tensor or a variable (given by its address). -/
inductive VCore (K : Type) where
  | tensor (T : Tensor K)
  | var (a : ℕ)

/-- The value of a core: a variable is read. -/
def VCore.value (σ : Store K) : VCore K → Tensor K
  | .tensor T => T
  | .var a => σ.getD a default

/-- A TT-object whose cores may be variables: the stored attributes, as in `TT`. -/
structure VObj (K : Type) where
  cores : List (VCore K)
  rawShape : List (List ℕ)
  ttRanks : List ℕ
  batch : Option ℕ

/-- What functions of the library see of the object at a given time. -/
def VObj.tt (σ : Store K) (o : VObj K) : TT K := ⟨o.cores.map (·.value σ), o.rawShape, o.ttRanks, o.batch⟩

/-- variables.py:92-99, 124-131: the constructors with `convert_to_tensors=False` keep the cores. -/
def mkVObj (σ : Store K) (batch : Option ℕ) (cores : List (VCore K)) (rows : List (List ℕ)) (ranks : List ℕ) : R (VObj K) := do
  let t ← mkLike batch (cores.map (·.value σ)) rows ranks
  pure ⟨cores, t.rawShape, t.ttRanks, t.batch⟩

/-- variables.py:105-112: run the regularizer. For a loss other than `None` the message reads `loss.name`, which raises AttributeError in eager mode. -/
def runRegularizer (reg : Option (TT K → R (Option (Tensor K)))) (t : TT K) : R Unit :=
  match reg with
  | none => pure ()
  | some f => do
    let loss ← f t
    if loss.isSome then throw Err.attr else pure ()

/-- variables.py:8-113 `get_variable`. In eager mode `tf.get_variable_scope().reuse` is `AUTO_REUSE`, which is true, so a missing initializer is not noticed in line 55
and `None.ndims()` raises AttributeError; variables are always created. The new store and the result. -/
def getVariable (σ : Store K) (initializer : Option (VObj K)) (reg : Option (TT K → R (Option (Tensor K)))) : Store K × R (VObj K) :=
  match initializer with
  | none => (σ, throw Err.attr)
  | some o =>
    let σ' := σ ++ o.cores.map (·.value σ)
    (σ', do
      let v ← mkVObj σ' o.batch ((List.range o.cores.length).map fun i => .var (σ.length + i)) o.rawShape o.ttRanks
      runRegularizer reg (v.tt σ')
      pure v)

/-- `tf.assign(c, v)`: only variables have a method `assign`, which checks the shape. -/
def assignCore (σ : Store K) (c v : VCore K) : R (Store K) :=
  match c with
  | .tensor _ => throw Err.attr
  | .var a => if (v.value σ).shape = (σ.getD a default).shape then pure (σ.set a (v.value σ)) else throw Err.value

/-- variables.py:122-123: one assignment. -/
def assignStep (ref value : VObj K) (σ : Store K) (i : ℕ) : R (Store K) := do
  let c ← pyGet ref.cores i
  let v ← pyGet value.cores i
  assignCore σ c v

/-- variables.py:121-123: the store after the first `n` iterations (an exception ends the loop, earlier assignments remain). -/
def assignLoop (ref value : VObj K) (σ : Store K) : ℕ → Store K × R Unit
  | 0 => (σ, pure ())
  | n + 1 =>
    match assignLoop ref value σ n with
    | (σ', .error e) => (σ', .error e)
    | (σ', .ok ()) =>
      match assignStep ref value σ' n with
      | .error e => (σ', .error e)
      | .ok σ'' => (σ'', .ok ())

/-- variables.py:116-131 `assign`. `tf.assign` returns the variable, so the cores of the result are those of `ref`. The new store and the result. -/
def assign (σ : Store K) (ref value : VObj K) : Store K × R (VObj K) :=
  match assignLoop ref value σ ref.cores.length with
  | (σ', .error e) => (σ', .error e)
  | (σ', .ok ()) => (σ', mkVObj σ' value.batch ref.cores value.rawShape value.ttRanks)

end T3f
