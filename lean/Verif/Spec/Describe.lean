import Mathlib.Data.Nat.Notation

/-!
# Reading decimal numbers
-/

namespace T3f

/-- The number with the given decimal digits, read from the left. -/
def readNat (l : List Char) : ℕ := l.foldl (fun n c => 10 * n + (c.toNat - '0'.toNat)) 0

end T3f
