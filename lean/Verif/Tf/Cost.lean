import Verif.Tf.Tensor

/-!
# Number of multiplications of an einsum call

`tf.einsum` of TensorFlow 2 hands the label lists and the sizes to `opt_einsum.contract_path`, which returns a list of pairs of positions; TensorFlow
then contracts two operands at a time along this path. Each contraction of two tensors is a (batched) matrix product; it is charged one unit for every
assignment of values to the labels of the two operands. Removed operands are taken out of the list, the result is appended at its end.
-/

namespace T3f

variable {K : Type}

/-- Labels of two operands, without repetition. -/
def jointLabels (l m : List Char) : List Char := l ++ m.filter (· ∉ l)

/-- Number of assignments of values to the labels. -/
def labelSize (dim : Char → ℕ) (l : List Char) : ℕ := (l.map dim).prod

/-- The labels of the contraction of two operands: those which are in the output or in one of the other operands. -/
def keptLabels (out : List Char) (rest : List (List Char)) (l : List Char) : List Char :=
  l.filter fun c => c ∈ out ∨ ∃ r ∈ rest, c ∈ r

/-- The operands after the contraction of the operands at the positions `i < j`. -/
def contractPair (out : List Char) (ls : List (List Char)) (i j : ℕ) : List (List Char) :=
  let rest := (ls.eraseIdx j).eraseIdx i
  rest ++ [keptLabels out rest (jointLabels (ls.getD i []) (ls.getD j []))]

/-- The number of multiplications of the contractions along a path. -/
def pathCost (dim : Char → ℕ) (out : List Char) : List (ℕ × ℕ) → List (List Char) → ℕ
  | [], _ => 0
  | (i, j) :: p, ls =>
    labelSize dim (jointLabels (ls.getD i []) (ls.getD j [])) + pathCost dim out p (contractPair out ls i j)

/-- The paths that contract `n` operands to one. -/
def ValidPath : ℕ → List (ℕ × ℕ) → Prop
  | 0, p => p = []
  | 1, p => p = []
  | _ + 2, [] => False
  | n + 2, (i, j) :: p => i < j ∧ j < n + 2 ∧ ValidPath (n + 1) p

/-- How the path is chosen: the argument `optimize` of `tf.einsum`. -/
def Strategy : Type := (Char → ℕ) → List (List Char) → List Char → List (ℕ × ℕ)

/-- The number of multiplications of an einsum call with the given path. -/
def orderCost (spec : List (List Char) × List Char) (ops : List (Tensor K)) (p : List (ℕ × ℕ)) : ℕ :=
  pathCost (lookupLabel (einDims spec.1 ops)) spec.2 p spec.1

/-- The number of multiplications of an einsum call. -/
def einsumCost (S : Strategy) (spec : List (List Char) × List Char) (ops : List (Tensor K)) : ℕ :=
  orderCost spec ops (S (lookupLabel (einDims spec.1 ops)) spec.1 spec.2)

/-- What `tf.einsum` does with a path: the operands at the two positions are taken out of the list, contracted with one call of the routine `G` for (at
most) two operands, and the result is appended. The last contraction has the labels of the output in the order that was asked for. -/
def alongPath [Zero K] (G : List (List Char) × List Char → List (Tensor K) → R (Tensor K)) (out : List Char) :
    List (ℕ × ℕ) → List (List Char) → List (Tensor K) → R (Tensor K)
  | [], ls, ts => G (ls, out) ts
  | [_], ls, ts => G (ls, out) ts
  | (i, j) :: p, ls, ts =>
    let rest := (ls.eraseIdx j).eraseIdx i
    let l := ls.getD i []
    let m := ls.getD j []
    G ([l, m], keptLabels out rest (jointLabels l m)) [ts.getD i default, ts.getD j default] >>= fun r =>
      alongPath G out p (contractPair out ls i j) ((ts.eraseIdx j).eraseIdx i ++ [r])

/-! ## The default strategy -/

/-- `opt_einsum` ranks a pair of operands by the number of elements of the result minus those of the two operands ("memory removed"). -/
def greedyScore (dim : Char → ℕ) (out : List Char) (ls : List (List Char)) (p : ℕ × ℕ) : ℤ :=
  let rest := (ls.eraseIdx p.2).eraseIdx p.1
  (labelSize dim (keptLabels out rest (jointLabels (ls.getD p.1 []) (ls.getD p.2 []))) : ℤ) -
    labelSize dim (ls.getD p.1 []) - labelSize dim (ls.getD p.2 [])

/-- The pairs of operands that share a label. -/
def sharingPairs (ls : List (List Char)) : List (ℕ × ℕ) :=
  ((List.range ls.length).flatMap fun j => (List.range j).map fun i => (i, j)).filter fun p =>
    ∃ c ∈ ls.getD p.1 [], c ∈ ls.getD p.2 []

/-- The element with the least score, the first one if there are several. -/
def leastBy {α : Type} (f : α → ℤ) : α → List α → α
  | a, [] => a
  | a, b :: l => leastBy f (if f b < f a then b else a) l

/-- The pair that is contracted next: one with the least score among those which share a label (operands without common labels are contracted last). -/
def greedyPair (dim : Char → ℕ) (out : List Char) (ls : List (List Char)) : ℕ × ℕ :=
  match sharingPairs ls with
  | [] => (0, 1)
  | p :: l => leastBy (greedyScore dim out ls) p l

/-- `optimize='greedy'`, the default of `tf.einsum`. Ties are resolved in favour of the first pair; `opt_einsum` resolves them by its numbering of the
operands, and it takes the product of operands with equal label sets first (there are none in the einsum strings used here). -/
def greedyPath (dim : Char → ℕ) (out : List Char) : ℕ → List (List Char) → List (ℕ × ℕ)
  | 0, _ => []
  | n + 1, ls => greedyPair dim out ls :: greedyPath dim out n
      (contractPair out ls (greedyPair dim out ls).1 (greedyPair dim out ls).2)

/-- The default strategy of `tf.einsum`. -/
def greedy : Strategy := fun dim ls out => greedyPath dim out (ls.length - 1) ls

/-! ## Computations that count -/

/-- A computation that may raise and counts multiplications. -/
structure Counted (α : Type) where
  /-- The result together with the count. -/
  run : R (α × ℕ)

namespace Counted

variable {α β : Type}

instance : Monad Counted where
  pure a := ⟨Except.ok (a, 0)⟩
  bind x f := ⟨x.run >>= fun p => (f p.1).run >>= fun q => Except.ok (q.1, p.2 + q.2)⟩

/-- A computation that is charged `n` units. -/
def charge (n : ℕ) (x : R α) : Counted α := ⟨x.map fun a => (a, n)⟩

/-- A computation without charge: checks, reading of attributes, reshapes, squeezing. -/
def free (x : R α) : Counted α := charge 0 x

/-- The result without the count. -/
def value (x : Counted α) : R α := x.run.map Prod.fst

end Counted

/-- `for i in range(start, start + count): s = f(i, s)`. -/
def forRangeC {σ : Type} (f : ℕ → σ → Counted σ) : (start count : ℕ) → σ → Counted σ
  | _, 0, s => pure s
  | a, n + 1, s => f a s >>= forRangeC f (a + 1) n

/-- `tf.einsum` with the strategy `S`. -/
def einsumC [CommSemiring K] (S : Strategy) (spec : List (List Char) × List Char) (ops : List (Tensor K)) : Counted (Tensor K) :=
  Counted.charge (einsumCost S spec ops) (einsum spec ops)

end T3f
