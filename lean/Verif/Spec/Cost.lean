import Verif.Tf.Cost

/-!
# Strategies for the order of contractions
-/

namespace T3f

/-- The strategy always returns a path that contracts all operands, and this path needs at most `κ` times as many multiplications as any other one. -/
def Strategy.Within (S : Strategy) (κ : ℕ) : Prop :=
  ∀ dim ls out, ValidPath ls.length (S dim ls out) ∧
    ∀ p, ValidPath ls.length p → pathCost dim out (S dim ls out) ls ≤ κ * pathCost dim out p ls

/-- The strategy always returns a path that contracts all operands. -/
def Strategy.Valid (S : Strategy) : Prop := ∀ dim ls out, ValidPath ls.length (S dim ls out)

end T3f
