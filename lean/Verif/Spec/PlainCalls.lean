import Verif.Model.Calls
import Verif.Spec.Described

/-!
# Calls that cannot produce wrong metadata

The constructors believe some of their arguments, the initializers of TT-matrices misread shapes with one mode, and `multiply_along_batch_dim` does not check the number of axes of the
weights. The other functions are not restricted.
-/

namespace T3f

/-- The arguments of a constructor: the first of the cores `cs` has the number of axes that belongs to the shape (`o` of them are batch axes), the shape has one number for
every core, and there is one rank more than cores. Nothing is said about the sizes. -/
def PlainArgs (o : ℕ) (cs : List (Tensor ℝ)) (shape : ShapeArg) (ranks : Option (List ℕ)) : Prop :=
  (∀ rk ∈ ranks, rk.length = cs.length + 1) ∧
  match shape with
  | .omitted => (cs.getD 0 default).shape.length = 3 + o ∨ (cs.getD 0 default).shape.length = 4 + o
  | .shapes rows => (rows.length = 1 ∨ rows.length = 2) ∧ (cs.getD 0 default).shape.length = rows.length + 2 + o ∧ ∀ row ∈ rows, row.length = cs.length
  | .flat l => (cs.getD 0 default).shape.length = 3 + o ∧ l.length = cs.length
  | .nested rows => rows.length = 2 ∧ (cs.getD 0 default).shape.length = 4 + o ∧ (∀ row ∈ rows, row.length = cs.length) ∧ cs.length ≠ 1

/-- The restrictions on a call. -/
def PyCall.Plain (env : List PyVal) : PyCall → Prop
  | .newTT cores shape ranks => ∀ cs, cores.mapM (getTensor env) = Except.ok cs → PlainArgs 0 cs shape ranks
  | .newBatch cores shape ranks bs => ∀ cs, cores.mapM (getTensor env) = Except.ok cs → PlainArgs 1 cs shape ranks ∧
      (bs = none → ∀ c ∈ cs, c.shape.getD 0 0 = (cs.getD 0 default).shape.getD 0 0)
  | .matrixOnes a b => notOneMode a b
  | .matrixZeros a b => notOneMode a b
  | .matrixRandomCores a b _ _ _ => notOneMode a b
  | .matrixBatchRandomCores a b _ _ _ _ => notOneMode a b
  | .randomMatrix a b _ _ _ => notOneMode a b
  | .randomMatrixBatch a b _ _ _ _ => notOneMode a b
  | .glorot a b _ => notOneMode a b
  | .he a b _ => notOneMode a b
  | .lecun a b _ => notOneMode a b
  | .eye shape => shape.length ≠ 1
  | .onesLike a => ∀ t, getTT env a = Except.ok t → t.rawShape.length = 2 → t.ndims ≠ 1
  | .zerosLike a => ∀ t, getTT env a = Except.ok t → t.rawShape.length = 2 → t.ndims ≠ 1
  | .multiplyBatch a w => ∀ t x, getTT env a = Except.ok t → getTensor env w = Except.ok x → t.ndims = 1 → x.shape.length = 1
  | .fromDeltas _ a left _ => ∀ t, getTT env (left.getD a) = Except.ok t → t.batch = none
  | _ => True

/-- All calls of a run meet the restrictions. -/
def PlainRun (qr : QRRoutine) (svd : SVDRoutine) (z : ℕ → ℕ → List ℕ → ℝ) : List PyCall → List PyVal → Prop
  | [], _ => True
  | c :: p, env => c.Plain env ∧ ∀ vs, c.run qr svd (z p.length) env = Except.ok vs → PlainRun qr svd z p (env ++ vs)

/-- The TT-objects among the values are described by their metadata. -/
def AllDescribed (env : List PyVal) : Prop := ∀ t on, PyVal.tt t on ∈ env → t.Described

end T3f
