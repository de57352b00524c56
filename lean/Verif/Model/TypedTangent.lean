import Verif.Model.Typed

/-!
# Projections with data types

See `Model/Riemannian.lean`. `rhs` and `lhs` start with ones of the data type of `where` (riemannian.py:95, 107, 273, 285, 444, 455), and so do the zero blocks
(lines 182, 354, 513).
-/

namespace T3f.Dt

/-- riemannian.py:46-62, 229-244, 400-416: the checks of `where`, of the shapes and of the data types. -/
def projectChecks (what whr : TT ℝ) : R Unit := do
  T3f.projectChecks what.erase whr.erase
  let d ← whr.dtype
  let e ← what.dtype
  require (d = e) Err.value

/-- riemannian.py:64-67, 246-249, 418-421 -/
noncomputable def tangentFrame (qr : QRRoutine) (whr : TT ℝ) : R (TT ℝ × TT ℝ) := do
  let left ← orthogonalize qr whr true
  let right ← orthogonalize qr left false
  pure (left, right)

/-- riemannian.py:97-101, 275-279 -/
def rhsStep (ax : List Char) (what right : TT ℝ) (k : ℕ) (rhs : List (Tensor ℝ)) : R (List (Tensor ℝ)) := do
  let wc ← pyGet what.cores k
  let rc ← pyGet right.cores k
  let nxt ← pyGet rhs (k + 1)
  let v ← einsum ([chars! "sa" ++ (ax ++ ['b']), chars! "sbd", 'c' :: (ax ++ ['d'])], chars! "sac") [wc, nxt, rc]
  pure (rhs.set k v)

/-- riemannian.py:94-101, 272-279: `rhs`; `None` is modelled by an empty tensor of the data type `e`. -/
def projectRhs (e : DType) (ax : List Char) (what right : TT ℝ) (d n : ℕ) : R (List (Tensor ℝ)) :=
  forRange (fun j => rhsStep ax what right (d - 1 - j)) 0 (d - 1) ((List.replicate (d + 1) ⟨e, default⟩).set d (ones e [n, 1, 1]))

/-- riemannian.py:109-113, 287-291 -/
def lhsStep (ax : List Char) (what left : TT ℝ) (k : ℕ) (lhs : List (Tensor ℝ)) : R (List (Tensor ℝ)) := do
  let wc ← pyGet what.cores k
  let lc ← pyGet left.cores k
  let cur ← pyGet lhs k
  let v ← einsum ([chars! "sab", 'a' :: (ax ++ ['c']), chars! "sb" ++ (ax ++ ['d'])], chars! "scd") [cur, lc, wc]
  pure (lhs.set (k + 1) v)

/-- riemannian.py:106-113, 284-291: `lhs`. -/
def projectLhs (e : DType) (ax : List Char) (what left : TT ℝ) (d n : ℕ) : R (List (Tensor ℝ)) :=
  forRange (lhsStep ax what left) 0 (d - 1) ((List.replicate (d + 1) ⟨e, default⟩).set 0 (ones e [n, 1, 1]))

/-- riemannian.py:123-126, 301-304 -/
def projectDiff (ax : List Char) (lhs : List (Tensor ℝ)) (k : ℕ) (wc lc : Tensor ℝ) : R (Tensor ℝ) := do
  let cur ← pyGet lhs k
  let nxt ← pyGet lhs (k + 1)
  let p ← einsum ([chars! "sab", chars! "sb" ++ (ax ++ ['c'])], chars! "sa" ++ (ax ++ ['c'])) [cur, wc]
  let q ← einsum (['a' :: (ax ++ ['b']), chars! "sbc"], chars! "sa" ++ (ax ++ ['c'])) [lc, nxt]
  binop (· - ·) p q

/-- riemannian.py:122-132, 136-142, 300-316 -/
def projectBlock (ax : List Char) (keep : Bool) (lhs rhs : List (Tensor ℝ)) (d k : ℕ) (wc lc : Tensor ℝ) : R (Tensor ℝ) :=
  let o : List Char := if keep then ['s'] else []
  if k + 1 < d then do
    let p ← projectDiff ax lhs k wc lc
    let nxt ← pyGet rhs (k + 1)
    einsum ([chars! "sa" ++ (ax ++ ['b']), chars! "sbc"], o ++ 'a' :: (ax ++ ['c'])) [p, nxt]
  else do
    let cur ← pyGet lhs k
    einsum ([chars! "sab", chars! "sb" ++ (ax ++ ['c'])], o ++ 'a' :: (ax ++ ['c'])) [cur, wc]

/-- riemannian.py:146-163, 318-335, 486-497 -/
def extendCore (isMat : Prop) [Decidable isMat] (out : Option ℕ) (c : Tensor ℝ) : R (Tensor ℝ) :=
  match out with
  | none => pure c
  | some n => do
    let e ← expandDims c 0
    tile e (if isMat then [n, 1, 1, 1, 1] else [n, 1, 1, 1])

/-- riemannian.py:165-186, 337-358, 499-518; the zero block has the data type `e`. -/
def tangentCore (e : DType) (axL axR d k : ℕ) (zeroShape : R (List ℕ)) (lc rc proj : Tensor ℝ) : R (Tensor ℝ) :=
  if k = 0 then concat axR [proj, lc]
  else if k = d - 1 then concat axL [rc, proj]
  else do
    let zs ← zeroShape
    let upper ← concat axR [rc, zeros e zs]
    let lower ← concat axR [proj, lc]
    concat axL [upper, lower]

/-- riemannian.py:189-193, 361-365, 522-526 -/
def mkTangent (out : Option ℕ) (cores : List (Tensor ℝ)) (rows : List (List ℕ)) : R (TT ℝ) :=
  match out with
  | some n => mkBatch cores (.shapes rows) none (some n)
  | none => mkTT cores (.shapes rows) none

/-- riemannian.py:199-368 `project`. -/
noncomputable def project (qr : QRRoutine) (what whr : TT ℝ) : R (TT ℝ) := do
  projectChecks what whr
  let (left, right) ← tangentFrame qr whr
  let d := whr.cores.length
  let e ← whr.dtype
  let ax := modeLabels whr.erase
  let w ← expandBatchDim what
  let n ← w.erase.lazyBatchSize
  let rhs ← projectRhs e ax w right d n
  let lhs ← projectLhs e ax w left d n
  let cores ← mapRange d fun k => do
    let wc ← pyGet w.cores k
    let lc ← pyGet left.cores k
    let rc ← pyGet right.cores k
    let proj ← projectBlock ax what.erase.isBatch lhs rhs d k wc lc
    let elc ← extendCore whr.erase.isMatrix what.batch lc
    let erc ← extendCore whr.erase.isMatrix what.batch rc
    tangentCore e what.erase.leftRankDim what.erase.rightRankDim d k (zeroBlockShape whr.erase left.erase right.erase what.batch k) elc erc proj
  mkTangent what.batch cores whr.rawShape

/-- riemannian.py:122-144 -/
def projectSumBlock (ax : List Char) (weights : Option (Tensor ℝ)) (lhs rhs : List (Tensor ℝ)) (d k : ℕ) (wc lc : Tensor ℝ) :
    R (Tensor ℝ) :=
  match weights with
  | none => projectBlock ax false lhs rhs d k wc lc
  | some w => do
    let o := bLabel 'o' (sumOutBatch (weights.map (·.val)))
    let p ← projectBlock ax true lhs rhs d k wc lc
    einsum (['s' :: o, chars! "sa" ++ (ax ++ ['c'])], o ++ 'a' :: (ax ++ ['c'])) [w, p]

/-- riemannian.py:43-44: the weights are converted to the data type of `where`. -/
def convertWeights (whr : TT ℝ) : Option (Arg ℝ) → R (Option (Tensor ℝ))
  | none => pure none
  | some x => do
    let d ← whr.dtype
    let x ← convertToTensor d x
    pure (some x)

/-- riemannian.py:9-196 `project_sum`. -/
noncomputable def projectSum (qr : QRRoutine) (what whr : TT ℝ) (weights : Option (Arg ℝ)) : R (TT ℝ) := do
  let w ← expandBatchDim what
  let weights ← convertWeights whr weights
  projectChecks w whr
  let (left, right) ← tangentFrame qr whr
  let d := whr.cores.length
  let e ← whr.dtype
  let ax := modeLabels whr.erase
  let n ← w.erase.lazyBatchSize
  let out := sumOutBatch (weights.map (·.val))
  let o := if out.isSome then 1 else 0
  let rhs ← projectRhs e ax w right d n
  let lhs ← projectLhs e ax w left d n
  let cores ← mapRange d fun k => do
    let wc ← pyGet w.cores k
    let lc ← pyGet left.cores k
    let rc ← pyGet right.cores k
    let proj ← projectSumBlock ax weights lhs rhs d k wc lc
    let elc ← extendCore whr.erase.isMatrix out lc
    let erc ← extendCore whr.erase.isMatrix out rc
    tangentCore e (whr.erase.leftRankDim + o) (whr.erase.rightRankDim + o) d k (zeroBlockShape whr.erase left.erase right.erase out k) elc erc proj
  mkTangent out cores whr.rawShape

/-- riemannian.py:446-450 -/
def rhsMatStep (what right A : TT ℝ) (k : ℕ) (rhs : List (Tensor ℝ)) : R (List (Tensor ℝ)) := do
  let wc ← pyGet what.cores k
  let rc ← pyGet right.cores k
  let mc ← pyGet A.cores k
  let nxt ← pyGet rhs (k + 1)
  let v ← einsum (ein! "bije,cikf,sdef,sajkd->sabc") [mc, rc, nxt, wc]
  pure (rhs.set k v)

/-- riemannian.py:457-462 -/
def lhsMatStep (what left A : TT ℝ) (k : ℕ) (lhs : List (Tensor ℝ)) : R (List (Tensor ℝ)) := do
  let wc ← pyGet what.cores k
  let lc ← pyGet left.cores k
  let mc ← pyGet A.cores k
  let cur ← pyGet lhs k
  let v ← einsum (ein! "bije,aikd,sabc,scjkf->sdef") [mc, lc, cur, wc]
  pure (lhs.set (k + 1) v)

/-- riemannian.py:472-484 -/
def projectMatBlock (lhs rhs : List (Tensor ℝ)) (d k : ℕ) (wc lc mc : Tensor ℝ) : R (Tensor ℝ) :=
  if k + 1 < d then do
    let cur ← pyGet lhs k
    let nl ← pyGet lhs (k + 1)
    let nr ← pyGet rhs (k + 1)
    let p ← einsum (ein! "scjke,sabc,bijd->saikde") [wc, cur, mc]
    let q ← einsum (ein! "aikb,sbcd->saikcd") [lc, nl]
    let p ← binop (· - ·) p q
    einsum (ein! "saikcb,sbcd->saikd") [p, nr]
  else do
    let cur ← pyGet lhs k
    einsum (ein! "sabc,bijd,scjke->saike") [cur, mc, wc]

/-- riemannian.py:371-529 `project_matmul`; the data type of `matrix` is not checked. -/
noncomputable def projectMatmul (qr : QRRoutine) (what whr A : TT ℝ) : R (TT ℝ) := do
  projectChecks what whr
  let (left, right) ← tangentFrame qr whr
  let d := whr.cores.length
  let e ← whr.dtype
  let n ← what.erase.lazyBatchSize
  let w ← expandBatchDim what
  let rhs ← forRange (fun j => rhsMatStep w right A (d - 1 - j)) 0 (d - 1)
    ((List.replicate (d + 1) ⟨e, default⟩).set d (ones e [n, 1, 1, 1]))
  let lhs ← forRange (lhsMatStep w left A) 0 (d - 1) ((List.replicate (d + 1) ⟨e, default⟩).set 0 (ones e [n, 1, 1, 1]))
  let cores ← mapRange d fun k => do
    let wc ← pyGet w.cores k
    let mc ← pyGet A.cores k
    let lc ← pyGet left.cores k
    let rc ← pyGet right.cores k
    let proj ← projectMatBlock lhs rhs d k wc lc mc
    let elc ← extendCore True what.batch lc
    let erc ← extendCore True what.batch rc
    tangentCore e what.erase.leftRankDim what.erase.rightRankDim d k (do
      let r1 ← pyGet right.ttRanks k
      let r2 ← pyGet left.ttRanks (k + 1)
      let row0 ← pyGet whr.rawShape 0
      let row1 ← pyGet whr.rawShape 1
      pure (what.batch.toList ++ [r1, ← pyGet row0 k, ← pyGet row1 k, r2])) elc erc proj
  mkTangent what.batch cores whr.rawShape

end T3f.Dt
