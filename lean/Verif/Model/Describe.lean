import Verif.Model.Static
import Mathlib.Data.Nat.Digits.Defs

/-!
# Printing TT objects

Models `__str__` of `/repo/t3f/tensor_train.py:87-100` and `/repo/t3f/tensor_train_batch.py:113-138`. Strings are lists of characters. Sizes may be
unknown (see `Model/Static.lean`); the batch size is known.
-/

namespace T3f

variable {K : Type}

/-- Python `str(n)`. -/
def decimal (n : ℕ) : List Char := if n = 0 then ['0'] else (Nat.digits 10 n).reverse.map Nat.digitChar

/-- `str` of a size. -/
def sizeStr : Option ℕ → List Char
  | none => chars! "None"
  | some n => decimal n

/-- `", ".join` after the first size. -/
def moreSizes : List (Option ℕ) → List Char
  | [] => []
  | a :: l => chars! ", " ++ (sizeStr a ++ moreSizes l)

/-- `str` of a `TensorShape` (TensorFlow 2.4, `TensorShape.__str__`). -/
def shapeStr : List (Option ℕ) → List Char
  | [] => chars! "()"
  | [a] => '(' :: (sizeStr a ++ chars! ",)")
  | a :: b :: l => '(' :: (sizeStr a ++ (moreSizes (b :: l) ++ [')']))

/-- The conversion `%d`, TypeError for None. -/
def percentD : Option ℕ → R (List Char)
  | none => Except.error Err.type
  | some n => Except.ok (decimal n)

/-- The part of the string that says what kind of object it is. tensor_train.py:91, 94, 99; tensor_train_batch.py:118-137. -/
def kindStr (batch : Option ℕ) (isVar isMat : Bool) : List Char :=
  match batch with
  | none =>
    (if isMat then chars! "A TT-Matrix" else chars! "A Tensor Train") ++ ((if isVar then chars! " variable" else []) ++
      (if isMat then chars! " of size " else chars! " of shape "))
  | some n => chars! "A " ++ (decimal n ++ (chars! " element batch of " ++
      ((if isMat then (if isVar then chars! "TT-matrix variables" else chars! "TT-matrices")
        else (if isVar then chars! "Tensor Train variables" else chars! "Tensor Trains")) ++
      (if isMat then chars! " of size " else chars! " of shape "))))

/-- tensor_train.py:87-100 and tensor_train_batch.py:113-138 `__str__`; `isVar` is the value of `is_variable()`. The sizes of a batch are
`shape[1]`, `shape[2]` and `shape[1:]`. -/
def Sym.str (s : Sym K) (isVar : Bool) : R (List Char) := do
  let shape ← s.getShape
  let o := if s.batch.isSome then 1 else 0
  if s.isMatrix then do
    let m ← percentD (← pyGet shape o)
    let n ← percentD (← pyGet shape (o + 1))
    let row0 ← pyGet s.rawShape 0
    let row1 ← pyGet s.rawShape 1
    pure (kindStr s.batch isVar true ++ (m ++ (chars! " x " ++ (n ++ (chars! ", underlying tensor shape: " ++ (shapeStr row0 ++
      (chars! " x " ++ (shapeStr row1 ++ (chars! ", TT-ranks: " ++ shapeStr s.ttRanks)))))))))
  else pure (kindStr s.batch isVar false ++ (shapeStr (shape.drop o) ++ (chars! ", TT-ranks: " ++ shapeStr s.ttRanks)))

end T3f
