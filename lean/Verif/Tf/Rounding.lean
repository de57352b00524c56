import Verif.Tf.Cost
import Mathlib.Data.Real.Basic
import Mathlib.Algebra.Order.AbsoluteValue.Basic
import Mathlib.Analysis.SpecialFunctions.Pow.Real

/-!
# Floating point arithmetic

The standard model of floating point arithmetic: every operation returns the exact result with a relative error of at most the unit roundoff `u` (for
`float32`, rounding to nearest, `u = 2⁻²⁴`; for `float64`, `u = 2⁻⁵³`). Overflow, underflow, infinities and NaN are left out.

A sum of products can be computed in many orders, and TensorFlow promises none. What a routine does for one element of the result is described by a
circuit of additions, multiplications and fused multiply-adds that represents the same polynomial as the definition of the operation.
-/

namespace T3f

/-- A floating point arithmetic with unit roundoff `u`. -/
structure Arith where
  u : ℝ
  add : ℝ → ℝ → ℝ
  mul : ℝ → ℝ → ℝ
  /-- fused multiply-add: `x * y + z` with one rounding -/
  fma : ℝ → ℝ → ℝ → ℝ
  nonneg : 0 ≤ u
  add_err : ∀ x y, |add x y - (x + y)| ≤ u * |x + y|
  mul_err : ∀ x y, |mul x y - x * y| ≤ u * |x * y|
  fma_err : ∀ x y z, |fma x y z - (x * y + z)| ≤ u * |x * y + z|

/-- A computation with inputs numbered by `ι`. Starting a sum with zero is no rounding, so zero is only used for empty sums. -/
inductive Circ (ι : Type) where
  | zero
  | one
  | var (i : ι)
  | add (a b : Circ ι)
  | mul (a b : Circ ι)
  | fma (a b c : Circ ι)

namespace Circ

variable {ι : Type}

/-- The result in floating point arithmetic. -/
def eval (A : Arith) (x : ι → ℝ) : Circ ι → ℝ
  | zero => 0
  | one => 1
  | var i => x i
  | add a b => A.add (a.eval A x) (b.eval A x)
  | mul a b => A.mul (a.eval A x) (b.eval A x)
  | fma a b c => A.fma (a.eval A x) (b.eval A x) (c.eval A x)

/-- The result in exact arithmetic. -/
def exact (x : ι → ℝ) : Circ ι → ℝ
  | zero => 0
  | one => 1
  | var i => x i
  | add a b => a.exact x + b.exact x
  | mul a b => a.exact x * b.exact x
  | fma a b c => a.exact x * b.exact x + c.exact x

/-- The largest number of roundings that one of the products in the expanded sum goes through. -/
def rounds : Circ ι → ℕ
  | zero => 0
  | one => 0
  | var _ => 0
  | add a b => max a.rounds b.rounds + 1
  | mul a b => a.rounds + b.rounds + 1
  | fma a b c => max (a.rounds + b.rounds) c.rounds + 1

end Circ

/-- Element `j` of operand number `i`. -/
def elements (ops : List (Tensor ℝ)) (v : ℕ × List ℕ) : ℝ := (ops.getD v.1 default).get v.2

/-- `res` is the result of the operation `g` on `ops` in floating point arithmetic with at most `N` roundings for each product: it raises if `g` does, and
otherwise each element is the value of a circuit that, in exact arithmetic, computes that element of `g` for all operands of these shapes. -/
def Rounded (A : Arith) (g : List (Tensor ℝ) → R (Tensor ℝ)) (N : ℕ) (ops : List (Tensor ℝ)) (res : R (Tensor ℝ)) : Prop :=
  match g ops with
  | .error e => res = Except.error e
  | .ok C => ∃ D, res = Except.ok D ∧ D.shape = C.shape ∧ ∀ idx, Valid C.shape idx → ∃ e : Circ (ℕ × List ℕ), e.rounds ≤ N ∧
      D.get idx = e.eval A (elements ops) ∧
      ∀ ops' C', ops'.map Tensor.shape = ops.map Tensor.shape → g ops' = Except.ok C' → e.exact (elements ops') = C'.get idx

/-- The labels (with their sizes) an einsum call sums over. -/
def einContracted {K : Type} (spec : List (List Char) × List Char) (ops : List (Tensor K)) : List (Char × ℕ) :=
  ((einDims spec.1 ops).filter fun p => p.1 ∉ spec.2).eraseDupsBy (fun p q => p.1 == q.1)

/-- The number of products an element of the result of an einsum call is the sum of. -/
def einTerms {K : Type} (spec : List (List Char) × List Char) (ops : List (Tensor K)) : ℕ := ((einContracted spec ops).map Prod.snd).prod

/-- `tf.matmul`, `tf.einsum`, products and roots of numbers of a computer. -/
structure FloatRoutines where
  matmul : Tensor ℝ → Tensor ℝ → R (Tensor ℝ)
  einsum : List (List Char) × List Char → List (Tensor ℝ) → R (Tensor ℝ)
  /-- the product of two numbers -/
  mul : ℝ → ℝ → ℝ
  /-- `tf.pow(tf.cast(tf.abs(c), dtype), 1.0 / n)` -/
  root : ℝ → ℕ → ℝ
  /-- the number of roundings that explain the error of `root` (conversion of `c` and `1.0 / n`, and `tf.pow` itself) -/
  rootRounds : ℕ

/-- The absolute values of the elements. -/
def absT (t : Tensor ℝ) : Tensor ℝ := t.map fun x => |x|

/-- `res` is the result of the operation `g` on `ops` up to an error that `N` roundings explain: it raises if `g` does, and otherwise each element differs
from that of `g ops` by at most `(1 + u) ^ N - 1` times the element of `g` for the absolute values of the operands. -/
def Accurate (A : Arith) (g : List (Tensor ℝ) → R (Tensor ℝ)) (N : ℕ) (ops : List (Tensor ℝ)) (res : R (Tensor ℝ)) : Prop :=
  match g ops with
  | .error e => res = Except.error e
  | .ok C => ∃ D, res = Except.ok D ∧ D.shape = C.shape ∧ ∀ B, g (ops.map absT) = Except.ok B → ∀ idx, Valid C.shape idx →
      |D.get idx - C.get idx| ≤ ((1 + A.u) ^ N - 1) * B.get idx

/-- The routines compute sums of products with the arithmetic `A`. A sum of `n` products of `k` factors takes at most `n - 1 + k - 1` roundings, whether it
is computed as it stands or by contracting two operands at a time. -/
structure FloatRoutines.Follows (F : FloatRoutines) (A : Arith) : Prop where
  matmul : ∀ a b, Accurate A (fun l => T3f.matmul (l.getD 0 default) (l.getD 1 default)) (a.shape.getLastD 0) [a, b] (F.matmul a b)
  einsum : ∀ spec ops, Accurate A (T3f.einsum spec) (einTerms spec ops + ops.length - 2) ops (F.einsum spec ops)
  mul : ∀ x y, |F.mul x y - x * y| ≤ A.u * |x * y|
  root : ∀ c n, |F.root c n - |c| ^ (1 / (n : ℝ))| ≤ ((1 + A.u) ^ F.rootRounds - 1) * |c| ^ (1 / (n : ℝ))

/-- The routines for (at most) two operands are circuits: they compute sums of products in some order with the arithmetic `A`. -/
structure FloatRoutines.Kernels (F : FloatRoutines) (A : Arith) : Prop where
  matmul : ∀ a b, Rounded A (fun l => T3f.matmul (l.getD 0 default) (l.getD 1 default)) (a.shape.getLastD 0) [a, b] (F.matmul a b)
  einsum : ∀ spec ops, ops.length ≤ 2 → Rounded A (T3f.einsum spec) (einTerms spec ops + ops.length - 2) ops (F.einsum spec ops)
  mul : ∀ x y, |F.mul x y - x * y| ≤ A.u * |x * y|
  root : ∀ c n, |F.root c n - |c| ^ (1 / (n : ℝ))| ≤ ((1 + A.u) ^ F.rootRounds - 1) * |c| ^ (1 / (n : ℝ))

/-- The routines of TensorFlow built from those for two operands: after the checks, the path is chosen and the operands are contracted two at a time. -/
def FloatRoutines.along (F : FloatRoutines) (S : Strategy) : FloatRoutines where
  matmul := F.matmul
  einsum spec ops := T3f.einsum spec ops >>= fun _ =>
    alongPath F.einsum spec.2 (S (lookupLabel (einDims spec.1 ops)) spec.1 spec.2) spec.1 ops
  mul := F.mul
  root := F.root
  rootRounds := F.rootRounds

end T3f
