import Verif.Spec.Expr

/-!
# How accurate a program is

The bound of the rounding error of a program is expressed by the same program on absolute values.
-/

namespace T3f

/-- The object whose cores are the absolute values of the cores. -/
def TT.abs (t : TT ℝ) : TT ℝ := { t with cores := t.cores.map fun c => c.map fun x => |x| }

/-- The size of the modes of core `k`: the mode size of a tensor, the number of elements of the mode of a matrix. -/
def TT.modeSize (t : TT ℝ) (k : ℕ) : ℕ := (t.modes k).prod

namespace Expr

/-- The operations whose rounding is modelled: sums, differences, products, also with numbers, transposes and the operations on the batch axis. -/
def Plain : Expr → Prop
  | obj _ => True
  | add a b => a.Plain ∧ b.Plain
  | sub a b => a.Plain ∧ b.Plain
  | neg a => a.Plain
  | mul a b => a.Plain ∧ b.Plain
  | smul _ a => a.Plain
  | matmul a b => a.Plain ∧ b.Plain
  | transpose a => a.Plain
  | orthogonalize _ _ => False
  | renormalize _ _ => False
  | expand a => a.Plain
  | squeeze a => a.Plain
  | pick _ a => a.Plain

/-- A program without differences and negative numbers over objects whose cores have no negative elements. -/
def Nonneg : Expr → Prop
  | obj t => ∀ c ∈ t.cores, ∀ i, Valid c.shape i → 0 ≤ c.get i
  | add a b => a.Nonneg ∧ b.Nonneg
  | sub _ _ => False
  | neg _ => False
  | mul a b => a.Nonneg ∧ b.Nonneg
  | smul c a => 0 ≤ c ∧ a.Nonneg
  | matmul a b => a.Nonneg ∧ b.Nonneg
  | transpose a => a.Nonneg
  | orthogonalize _ _ => False
  | renormalize _ _ => False
  | expand a => a.Nonneg
  | squeeze a => a.Nonneg
  | pick _ a => a.Nonneg

/-- The same program on the absolute values of the cores, with sums for differences. -/
def absolute : Expr → Expr
  | obj t => obj t.abs
  | add a b => add a.absolute b.absolute
  | sub a b => add a.absolute b.absolute
  | neg a => a.absolute
  | mul a b => mul a.absolute b.absolute
  | smul c a => smul |c| a.absolute
  | matmul a b => matmul a.absolute b.absolute
  | transpose a => transpose a.absolute
  | orthogonalize lr a => orthogonalize lr a.absolute
  | renormalize eps a => renormalize eps a.absolute
  | expand a => expand a.absolute
  | squeeze a => squeeze a.absolute
  | pick k a => pick k a.absolute

/-- The roundings an element of core `k` of the result has gone through: none for sums and signs, one for an elementwise product, the size of the
summed mode for a matrix product, and `q + 1` for a product with a number, where `q` are those of the root. -/
noncomputable def rounds (q : ℕ) : Expr → ℕ → ℕ
  | obj _, _ => 0
  | add a b, k => max (a.rounds q k) (b.rounds q k)
  | sub a b, k => max (a.rounds q k) (b.rounds q k)
  | neg a, k => a.rounds q k
  | mul a b, k => a.rounds q k + b.rounds q k + 1
  | smul _ a, k => a.rounds q k + q + 1
  | matmul a b, k => a.rounds q k + b.rounds q k + match a.ty with
      | some τ => (τ.raw.getD 1 []).getD k 0
      | none => 0
  | transpose a, k => a.rounds q k
  | orthogonalize _ _, _ => 0
  | renormalize _ _, _ => 0
  | expand a, k => a.rounds q k
  | squeeze a, k => a.rounds q k
  | pick _ a, k => a.rounds q k

end Expr

end T3f
