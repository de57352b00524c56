import Verif.Tf.CostLinalg
import Verif.Model.Tangent

/-!
# Orthogonalization and projections, with a count of operations

The same code as in `Model/Decompositions.lean`, `Model/Riemannian.lean` and `Model/Tangent.lean`; einsums, matrix products, QR decompositions and
elementwise operations are charged as described in `Tf/Cost.lean` and `Tf/CostLinalg.lean`. Reshapes, transpositions, slices, tiling and
concatenation (no arithmetic) and the checks are not charged. `Props/C67Complexity.lean` shows that the results are those of the functions without the
count, whatever the arguments.
-/

namespace T3f

open Counted

/-- decompositions.py:444-478 (batch: 509-541). -/
noncomputable def orthoLRStepC (qr : QRRoutine) (t : TT ℝ) (i : ℕ) (s : List (Tensor ℝ) × ℕ) : Counted (List (Tensor ℝ) × ℕ) := do
  let core ← free (pyGet s.1 i)
  let currRank := s.2
  let nextRank ← free (pyGet t.ttRanks (i + 1))
  let core ← free (reshape core ((t.batch.toList ++ [currRank * (coreModes t i).prod, nextRank]).map some))
  let p ← linalgQRC qr core
  let triRows ← free (pyGet p.2.shape t.batch.toList.length)
  let triCols ← free (pyGet p.2.shape (t.batch.toList.length + 1))
  let newCore ← free (reshape p.1 ((t.batch.toList ++ currRank :: (coreModes t i ++ [triRows])).map some))
  let next ← free (pyGet s.1 (i + 1))
  let next ← free (reshape next (t.batch.toList.map some ++ [some triCols, none]))
  let next ← matmulC p.2 next
  pure ((s.1.set i newCore).set (i + 1) next, triRows)

/-- decompositions.py:421-487, 490-551. -/
noncomputable def orthoLRC (qr : QRRoutine) (t : TT ℝ) : Counted (TT ℝ) := do
  let r0 ← free (pyGet t.ttRanks 0)
  let s ← forRangeC (orthoLRStepC qr t) 0 (t.ndims - 1) (t.cores, r0)
  let last ← free (pyGet s.1 (t.ndims - 1))
  let last ← free (reshape last ((t.batch.toList ++ s.2 :: (coreModes t (t.ndims - 1) ++ [1])).map some))
  let cores := s.1.set (t.ndims - 1) last
  free (match t.batch with
    | some n => mkBatch cores (.shapes t.rawShape) none (some n)
    | none => mkTT cores (.shapes t.rawShape) none)

/-- decompositions.py:570-603. -/
noncomputable def orthoRLStepC (qr : QRRoutine) (t : TT ℝ) (i : ℕ) (s : List (Tensor ℝ) × ℕ) : Counted (List (Tensor ℝ) × ℕ) := do
  let core ← free (pyGet s.1 i)
  let currRank := s.2
  let prevRank ← free (pyGet t.ttRanks i)
  let core ← free (reshape core [some prevRank, some ((coreModes t i).prod * currRank)])
  let core ← free (transpose core [1, 0])
  let p ← linalgQRC qr core
  let core ← free (transpose p.1 [1, 0])
  let tri ← free (transpose p.2 [1, 0])
  let triRows ← free (pyGet tri.shape 0)
  let triCols ← free (pyGet tri.shape 1)
  let newCore ← free (reshape core ((triCols :: (coreModes t i ++ [currRank])).map some))
  let prev ← free (pyGet s.1 (i - 1))
  let prev ← free (reshape prev [none, some triRows])
  let prev ← matmulC prev tri
  pure ((s.1.set i newCore).set (i - 1) prev, triCols)

/-- decompositions.py:554-612. -/
noncomputable def orthoRLC (qr : QRRoutine) (t : TT ℝ) : Counted (TT ℝ) := do
  let rd ← free (pyGet t.ttRanks t.ndims)
  let s ← forRangeC (fun j => orthoRLStepC qr t (t.ndims - 1 - j)) 0 (t.ndims - 1) (t.cores, rd)
  let first ← free (pyGet s.1 0)
  let first ← free (reshape first ((1 :: (coreModes t 0 ++ [s.2])).map some))
  free (mkTT (s.1.set 0 first) (.shapes t.rawShape) none)

/-- decompositions.py:395-418 `orthogonalize_tt_cores`. -/
noncomputable def orthogonalizeC (qr : QRRoutine) (t : TT ℝ) (leftToRight : Bool) : Counted (TT ℝ) :=
  if leftToRight then orthoLRC qr t
  else if t.isBatch then free (Except.error Err.notImpl)
  else orthoRLC qr t

/-- riemannian.py:64-67, 246-249, 418-421. -/
noncomputable def tangentFrameC (qr : QRRoutine) (whr : TT ℝ) : Counted (TT ℝ × TT ℝ) := do
  let left ← orthogonalizeC qr whr true
  let right ← orthogonalizeC qr left false
  pure (left, right)

/-- riemannian.py:97-101, 275-279. -/
def rhsStepC (S : Strategy) (ax : List Char) (what right : TT ℝ) (k : ℕ) (rhs : List (Tensor ℝ)) : Counted (List (Tensor ℝ)) := do
  let wc ← free (pyGet what.cores k)
  let rc ← free (pyGet right.cores k)
  let nxt ← free (pyGet rhs (k + 1))
  let v ← einsumC S ([chars! "sa" ++ (ax ++ ['b']), chars! "sbd", 'c' :: (ax ++ ['d'])], chars! "sac") [wc, nxt, rc]
  pure (rhs.set k v)

/-- riemannian.py:94-101, 272-279. -/
def projectRhsC (S : Strategy) (ax : List Char) (what right : TT ℝ) (d n : ℕ) : Counted (List (Tensor ℝ)) :=
  forRangeC (fun j => rhsStepC S ax what right (d - 1 - j)) 0 (d - 1) ((List.replicate (d + 1) default).set d (ones [n, 1, 1]))

/-- riemannian.py:109-113, 287-291. -/
def lhsStepC (S : Strategy) (ax : List Char) (what left : TT ℝ) (k : ℕ) (lhs : List (Tensor ℝ)) : Counted (List (Tensor ℝ)) := do
  let wc ← free (pyGet what.cores k)
  let lc ← free (pyGet left.cores k)
  let cur ← free (pyGet lhs k)
  let v ← einsumC S ([chars! "sab", 'a' :: (ax ++ ['c']), chars! "sb" ++ (ax ++ ['d'])], chars! "scd") [cur, lc, wc]
  pure (lhs.set (k + 1) v)

/-- riemannian.py:106-113, 284-291. -/
def projectLhsC (S : Strategy) (ax : List Char) (what left : TT ℝ) (d n : ℕ) : Counted (List (Tensor ℝ)) :=
  forRangeC (lhsStepC S ax what left) 0 (d - 1) ((List.replicate (d + 1) default).set 0 (ones [n, 1, 1]))

/-- riemannian.py:123-126, 301-304. -/
def projectDiffC (S : Strategy) (ax : List Char) (lhs : List (Tensor ℝ)) (k : ℕ) (wc lc : Tensor ℝ) : Counted (Tensor ℝ) := do
  let cur ← free (pyGet lhs k)
  let nxt ← free (pyGet lhs (k + 1))
  let p ← einsumC S ([chars! "sab", chars! "sb" ++ (ax ++ ['c'])], chars! "sa" ++ (ax ++ ['c'])) [cur, wc]
  let q ← einsumC S (['a' :: (ax ++ ['b']), chars! "sbc"], chars! "sa" ++ (ax ++ ['c'])) [lc, nxt]
  binopC (· - ·) p q

/-- riemannian.py:122-132, 136-142, 300-316. -/
def projectBlockC (S : Strategy) (ax : List Char) (keep : Bool) (lhs rhs : List (Tensor ℝ)) (d k : ℕ) (wc lc : Tensor ℝ) : Counted (Tensor ℝ) :=
  let o : List Char := if keep then ['s'] else []
  if k + 1 < d then do
    let p ← projectDiffC S ax lhs k wc lc
    let nxt ← free (pyGet rhs (k + 1))
    einsumC S ([chars! "sa" ++ (ax ++ ['b']), chars! "sbc"], o ++ 'a' :: (ax ++ ['c'])) [p, nxt]
  else do
    let cur ← free (pyGet lhs k)
    einsumC S ([chars! "sab", chars! "sb" ++ (ax ++ ['c'])], o ++ 'a' :: (ax ++ ['c'])) [cur, wc]

/-- riemannian.py:199-368 `project`. -/
noncomputable def projectC (S : Strategy) (qr : QRRoutine) (what whr : TT ℝ) : Counted (TT ℝ) := do
  free (projectChecks what whr)
  let f ← tangentFrameC qr whr
  let d := whr.ndims
  let ax := modeLabels whr
  let w ← free (expandBatchDim what)
  let n ← free w.lazyBatchSize
  let rhs ← projectRhsC S ax w f.2 d n
  let lhs ← projectLhsC S ax w f.1 d n
  let cores ← mapRangeC d fun k => do
    let wc ← free (pyGet w.cores k)
    let lc ← free (pyGet f.1.cores k)
    let rc ← free (pyGet f.2.cores k)
    let proj ← projectBlockC S ax what.isBatch lhs rhs d k wc lc
    let elc ← free (extendCore whr.isMatrix what.batch lc)
    let erc ← free (extendCore whr.isMatrix what.batch rc)
    free (tangentCore what.leftRankDim what.rightRankDim d k (zeroBlockShape whr f.1 f.2 what.batch k) elc erc proj)
  free (mkTangent what.batch cores whr.rawShape)

/-- riemannian.py:122-144. -/
def projectSumBlockC (S : Strategy) (ax : List Char) (weights : Option (Tensor ℝ)) (lhs rhs : List (Tensor ℝ)) (d k : ℕ) (wc lc : Tensor ℝ) :
    Counted (Tensor ℝ) :=
  match weights with
  | none => projectBlockC S ax false lhs rhs d k wc lc
  | some w => do
    let o := bLabel 'o' (sumOutBatch weights)
    let p ← projectBlockC S ax true lhs rhs d k wc lc
    einsumC S (['s' :: o, chars! "sa" ++ (ax ++ ['c'])], o ++ 'a' :: (ax ++ ['c'])) [w, p]

/-- riemannian.py:9-196 `project_sum`. -/
noncomputable def projectSumC (S : Strategy) (qr : QRRoutine) (what whr : TT ℝ) (weights : Option (Tensor ℝ)) : Counted (TT ℝ) := do
  let w ← free (expandBatchDim what)
  free (projectChecks w whr)
  let f ← tangentFrameC qr whr
  let d := whr.ndims
  let ax := modeLabels whr
  let n ← free w.lazyBatchSize
  let out := sumOutBatch weights
  let o := if out.isSome then 1 else 0
  let rhs ← projectRhsC S ax w f.2 d n
  let lhs ← projectLhsC S ax w f.1 d n
  let cores ← mapRangeC d fun k => do
    let wc ← free (pyGet w.cores k)
    let lc ← free (pyGet f.1.cores k)
    let rc ← free (pyGet f.2.cores k)
    let proj ← projectSumBlockC S ax weights lhs rhs d k wc lc
    let elc ← free (extendCore whr.isMatrix out lc)
    let erc ← free (extendCore whr.isMatrix out rc)
    free (tangentCore (whr.leftRankDim + o) (whr.rightRankDim + o) d k (zeroBlockShape whr f.1 f.2 out k) elc erc proj)
  free (mkTangent out cores whr.rawShape)

/-- riemannian.py:446-450. -/
def rhsMatStepC (S : Strategy) (what right A : TT ℝ) (k : ℕ) (rhs : List (Tensor ℝ)) : Counted (List (Tensor ℝ)) := do
  let wc ← free (pyGet what.cores k)
  let rc ← free (pyGet right.cores k)
  let mc ← free (pyGet A.cores k)
  let nxt ← free (pyGet rhs (k + 1))
  let v ← einsumC S (ein! "bije,cikf,sdef,sajkd->sabc") [mc, rc, nxt, wc]
  pure (rhs.set k v)

/-- riemannian.py:457-462. -/
def lhsMatStepC (S : Strategy) (what left A : TT ℝ) (k : ℕ) (lhs : List (Tensor ℝ)) : Counted (List (Tensor ℝ)) := do
  let wc ← free (pyGet what.cores k)
  let lc ← free (pyGet left.cores k)
  let mc ← free (pyGet A.cores k)
  let cur ← free (pyGet lhs k)
  let v ← einsumC S (ein! "bije,aikd,sabc,scjkf->sdef") [mc, lc, cur, wc]
  pure (lhs.set (k + 1) v)

/-- riemannian.py:472-484. -/
def projectMatBlockC (S : Strategy) (lhs rhs : List (Tensor ℝ)) (d k : ℕ) (wc lc mc : Tensor ℝ) : Counted (Tensor ℝ) :=
  if k + 1 < d then do
    let cur ← free (pyGet lhs k)
    let nl ← free (pyGet lhs (k + 1))
    let nr ← free (pyGet rhs (k + 1))
    let p ← einsumC S (ein! "scjke,sabc,bijd->saikde") [wc, cur, mc]
    let q ← einsumC S (ein! "aikb,sbcd->saikcd") [lc, nl]
    let p ← binopC (· - ·) p q
    einsumC S (ein! "saikcb,sbcd->saikd") [p, nr]
  else do
    let cur ← free (pyGet lhs k)
    einsumC S (ein! "sabc,bijd,scjke->saike") [cur, mc, wc]

/-- riemannian.py:371-529 `project_matmul`. -/
noncomputable def projectMatmulC (S : Strategy) (qr : QRRoutine) (what whr A : TT ℝ) : Counted (TT ℝ) := do
  free (projectChecks what whr)
  let f ← tangentFrameC qr whr
  let d := whr.ndims
  let n ← free what.lazyBatchSize
  let w ← free (expandBatchDim what)
  let rhs ← forRangeC (fun j => rhsMatStepC S w f.2 A (d - 1 - j)) 0 (d - 1)
    ((List.replicate (d + 1) default).set d (ones [n, 1, 1, 1]))
  let lhs ← forRangeC (lhsMatStepC S w f.1 A) 0 (d - 1) ((List.replicate (d + 1) default).set 0 (ones [n, 1, 1, 1]))
  let cores ← mapRangeC d fun k => do
    let wc ← free (pyGet w.cores k)
    let mc ← free (pyGet A.cores k)
    let lc ← free (pyGet f.1.cores k)
    let rc ← free (pyGet f.2.cores k)
    let proj ← projectMatBlockC S lhs rhs d k wc lc mc
    let elc ← free (extendCore True what.batch lc)
    let erc ← free (extendCore True what.batch rc)
    free (tangentCore what.leftRankDim what.rightRankDim d k (do
      let r1 ← pyGet f.2.ttRanks k
      let r2 ← pyGet f.1.ttRanks (k + 1)
      let row0 ← pyGet whr.rawShape 0
      let row1 ← pyGet whr.rawShape 1
      pure (what.batch.toList ++ [r1, ← pyGet row0 k, ← pyGet row1 k, r2])) elc erc proj)
  free (mkTangent what.batch cores whr.rawShape)

/-- riemannian.py:586-591, 594-599, 602-606 and 609-613, 616-621, 624-628. -/
def pairSlicesC (S : Strategy) (a b : TT ℝ) (l r : Ix) (k : ℕ) : Counted (Tensor ℝ) := do
  let ca ← free (pyGet a.cores k)
  let cb ← free (pyGet b.cores k)
  let da ← free (rankSlice a.isMatrix l r ca)
  let db ← free (rankSlice a.isMatrix l r cb)
  let ax := modeLabels a
  einsumC S ([chars! "pa" ++ (ax ++ ['b']), chars! "qa" ++ (ax ++ ['b'])], chars! "pq") [da, db]

/-- riemannian.py:532-628 `pairwise_flat_inner_projected`. -/
def pairwiseProjectedC (S : Strategy) (u v : Projected) : Counted (Tensor ℝ) := do
  free (require (u.on.isSome ∧ v.on.isSome) Err.value)
  free (require (u.on = v.on) Err.value)
  let a ← free (expandBatchDim u.tt)
  let b ← free (expandBatchDim v.tt)
  let d := a.ndims
  let r1 ← free (pyGet a.ttRanks 1)
  let res ← pairSlicesC S a b .all (.slice none (some (r1 / 2 : ℕ)) 1) 0
  let res ← forRangeC (fun k res => do
    let rl ← free (pyGet a.ttRanks k)
    let rr ← free (pyGet a.ttRanks (k + 1))
    let e ← pairSlicesC S a b (.slice (some (rl / 2 : ℕ)) none 1) (.slice none (some (rr / 2 : ℕ)) 1) k
    binopC (· + ·) res e) 1 (d - 1) res
  let rl ← free (pyGet a.ttRanks (a.ttRanks.length - 2))
  let e ← pairSlicesC S a b (.slice (some (rl / 2 : ℕ)) none 1) .all (d - 1)
  binopC (· + ·) res e

end T3f
