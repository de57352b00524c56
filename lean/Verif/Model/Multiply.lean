import Verif.Model.Add
import Mathlib.Analysis.SpecialFunctions.Pow.Real
import Mathlib.Data.Real.Sign

/-!
# `ops.multiply` and the arithmetic operators

Models `/repo/t3f/ops.py:749-920` and `/repo/t3f/tensor_train_base.py:133-179`.
-/

namespace T3f

variable {K : Type}

/-- ops.py:846-882: einsum letters for the batch axes of the left operand, the right operand and the
result, depending on the two batch sizes (all known). -/
def mulLabels : Option ℕ → Option ℕ → List Char × List Char × List Char
  | none, none => ([], [], [])
  | some m, some n => if m = n then (['n'], ['n'], ['n']) else (['n'], ['m'], ['n', 'm'])
  | some _, none => (['n'], [], ['n'])
  | none, some _ => ([], ['n'], ['n'])

/-- ops.py:846-882: batch size of the result (`none`: not a batch). -/
def mulOutBatch : Option ℕ → Option ℕ → Option ℕ
  | none, none => none
  | some m, some n => if m = n then some m else if 1 < m then some m else some n
  | some m, none => some m
  | none, some n => some n

/-- ops.py:892-909: one core of the elementwise product, for the letters `labels` of the batch axes. -/
def mulCoreWith [CommRing K] (labels : List Char × List Char × List Char) (a b : TT K) (i : ℕ) : R (Tensor K) := do
  let ac ← pyGet a.cores i
  let bc ← pyGet b.cores i
  let lr := (← pyGet a.ttRanks i) * (← pyGet b.ttRanks i)
  let rr := (← pyGet a.ttRanks (i + 1)) * (← pyGet b.ttRanks (i + 1))
  let (l, r, o) := labels
  let c ← if a.isMatrix then do
      let e ← einsum ([l ++ chars! "aijb", r ++ chars! "cijd"], o ++ chars! "acijbd") [ac, bc]
      let row0 ← pyGet a.rawShape 0
      let row1 ← pyGet a.rawShape 1
      reshape e [none, some lr, some (← pyGet row0 i), some (← pyGet row1 i), some rr]
    else do
      let e ← einsum ([l ++ chars! "aib", r ++ chars! "cid"], o ++ chars! "acibd") [ac, bc]
      let row0 ← pyGet a.rawShape 0
      reshape e [none, some lr, some (← pyGet row0 i), some rr]
  if a.isBatch || b.isBatch then pure c else squeezeAxis c 0

/-- ops.py:892-909: one core of the elementwise product. -/
def mulCore [CommRing K] (a b : TT K) (i : ℕ) : R (Tensor K) := mulCoreWith (mulLabels a.batch b.batch) a b i

/-- ops.py:749-920 `multiply` for two TT objects. -/
def multiply [CommRing K] (a b : TT K) : R (TT K) := do
  require (a.isMatrix ↔ b.isMatrix) Err.value
  require (a.rawShape = b.rawShape) Err.value
  require (isBatchBroadcastingPossible a b = true) Err.value
  let cores ← mapRange a.ndims (mulCore a b)
  mkLike (mulOutBatch a.batch b.batch) cores a.rawShape (List.zipWith (· * ·) a.ttRanks b.ttRanks)

/-- ops.py:777-797 and 914-920 `multiply` by a number: every core is scaled by `|c| ** (1 / ndims)` and
the first one by the sign of `c`. The scalars are the reals. -/
noncomputable def multiplyScalar (a : TT ℝ) (c : ℝ) : R (TT ℝ) := do
  let fact := |c| ^ (1 / (a.ndims : ℝ))
  let cores := a.cores.map (smul fact)
  let c0 ← pyGet cores 0
  let cores := cores.set 0 (c0.map (· * SignType.sign c))
  mkLike a.batch cores a.rawShape a.ttRanks

/-- tensor_train_base.py:144-154 `__sub__`. -/
noncomputable def sub (a b : TT ℝ) : R (TT ℝ) := do add a (← multiplyScalar b (-1))

/-- tensor_train_base.py:156-164 `__neg__`. -/
noncomputable def neg (a : TT ℝ) : R (TT ℝ) := multiplyScalar a (-1)

end T3f
