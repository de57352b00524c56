import Verif.Spec.Expr

/-! # Programs on batches and on their items -/

namespace T3f

/-- `t'` is a single object that represents item `k` of `t`: the slice `k` of `t3f.full(t)` for a batch, the only item for a batch of size one, and
the same tensor if `t` is not a batch. Cores and TT-ranks may differ. -/
def IsItem (k : ℕ) (t t' : TT ℝ) : Prop :=
  t'.rawShape = t.rawShape ∧ t'.batch = none ∧ (∀ n, t.batch = some n → n = 1 ∨ k < n) ∧
    ∃ F F', full t = Except.ok F ∧ full t' = Except.ok F' ∧ F.shape = t.batch.toList ++ F'.shape ∧
      ∀ i, Valid F'.shape i → F'.get i = F.get (bsel t.batch k ++ i)

/-- `e'` is the program `e` with the items `k` in place of the batches. `expand_batch_dim` is left out, and what follows the selection of an item
of a batch stays as it is. -/
inductive Expr.AtItem (k : ℕ) : Expr → Expr → Prop
  | obj {t t' : TT ℝ} (h : IsItem k t t') : AtItem k (.obj t) (.obj t')
  | add {a a' b b' : Expr} (ha : AtItem k a a') (hb : AtItem k b b') : AtItem k (.add a b) (.add a' b')
  | sub {a a' b b' : Expr} (ha : AtItem k a a') (hb : AtItem k b b') : AtItem k (.sub a b) (.sub a' b')
  | neg {a a' : Expr} (ha : AtItem k a a') : AtItem k (.neg a) (.neg a')
  | mul {a a' b b' : Expr} (ha : AtItem k a a') (hb : AtItem k b b') : AtItem k (.mul a b) (.mul a' b')
  | smul (c : ℝ) {a a' : Expr} (ha : AtItem k a a') : AtItem k (.smul c a) (.smul c a')
  | matmul {a a' b b' : Expr} (ha : AtItem k a a') (hb : AtItem k b b') : AtItem k (.matmul a b) (.matmul a' b')
  | transpose {a a' : Expr} (ha : AtItem k a a') : AtItem k (.transpose a) (.transpose a')
  | orthogonalize (lr : Bool) {a a' : Expr} (ha : AtItem k a a') : AtItem k (.orthogonalize lr a) (.orthogonalize lr a')
  | renormalize (eps eps' : ℝ) {a a' : Expr} (ha : AtItem k a a') : AtItem k (.renormalize eps a) (.renormalize eps' a')
  | expand {a a' : Expr} (ha : AtItem k a a') : AtItem k (.expand a) a'
  | squeeze {a a' : Expr} (ha : AtItem k a a') : AtItem k (.squeeze a) (.squeeze a')
  | pick (j : ℤ) (a : Expr) : AtItem k (.pick j a) (.pick j a)

end T3f
