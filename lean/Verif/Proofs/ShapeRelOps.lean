import Verif.Proofs.ShapeRel
import Verif.Model.Multiply
import Verif.Model.Full
import Verif.Model.Dispatch
import Verif.Model.Norm
import Verif.Model.BatchOps
import Verif.Model.Approximate

/-!
# Two runs of the functions of the library on data of equal shapes
-/

set_option linter.unusedSectionVars false

namespace T3f

/-- Closes the side goals of the lemmas `RR.…`. -/
syntax "rr_side" : tactic

macro_rules
  | `(tactic| rr_side) => `(tactic| first
    | assumption
    | exact rfl
    | exact List.Forall₂.nil
    | exact SameTT.cores (by assumption)
    | ((with_reducible apply List.Forall₂.cons) <;> rr_side)
    | ((with_reducible apply forall₂_set) <;> rr_side)
    | ((with_reducible apply forall₂_append) <;> rr_side)
    | ((with_reducible apply forall₂_dropLast) <;> rr_side)
    | ((with_reducible apply forall₂_replicate) <;> rr_side)
    | ((with_reducible apply SameT.map) <;> rr_side)
    | ((with_reducible apply SameT.squeezeAll) <;> rr_side)
    | exact ⟨by rr_side, by rr_side⟩)

/-- Closes a goal about one call. -/
syntax "rr_leaf" : tactic

macro_rules
  | `(tactic| rr_leaf) => `(tactic| first
    | with_reducible exact RR.refl _
    | ((with_reducible apply RR.pyGet) <;> rr_side)
    | ((with_reducible apply RR.pyLast) <;> rr_side)
    | ((with_reducible apply RR.reshape) <;> rr_side)
    | ((with_reducible apply RR.transpose) <;> rr_side)
    | ((with_reducible apply RR.expandDims) <;> rr_side)
    | ((with_reducible apply RR.squeezeAxis) <;> rr_side)
    | ((with_reducible apply RR.concat) <;> rr_side)
    | ((with_reducible apply RR.tile) <;> rr_side)
    | ((with_reducible apply RR.getItem) <;> rr_side)
    | ((with_reducible apply RR.binop) <;> rr_side)
    | ((with_reducible apply RR.matmul) <;> rr_side)
    | ((with_reducible apply RR.einsum) <;> rr_side)
    | ((with_reducible apply RR.linalgQR) <;> rr_side)
    | ((with_reducible apply RR.linalgSVD) <;> rr_side)
    | ((with_reducible apply RR.linalgDiag) <;> rr_side)
    | ((with_reducible apply RR.linalgDet) <;> rr_side)
    | ((with_reducible apply RR.reduceSumKeepFirst) <;> rr_side)
    | ((with_reducible apply RR.gather) <;> rr_side)
    | ((with_reducible apply RR.gatherNd2) <;> rr_side)
    | ((with_reducible apply RR.mkTT) <;> rr_side)
    | ((with_reducible apply RR.mkBatch) <;> rr_side)
    | ((with_reducible apply RR.mkLike) <;> rr_side)
    | ((with_reducible refine RR.pure (r := SameT) ?_); rr_side)
    | ((with_reducible refine RR.pure (r := SameL) ?_); rr_side)
    | (with_reducible apply RR.throw)
    | (with_reducible apply RR.error))

/-- Introduces the results of a call. -/
syntax "rr_intro" : tactic

macro_rules
  | `(tactic| rr_intro) => `(tactic| first
    | (intro a b (h : a = b); subst h)
    | (intro a b (h : SameT a b); try simp only [show a.shape = b.shape from h])
    | (intro a b (h : SameTT a b); try simp only [h.raw, h.ranks, h.batch, h.ndims, h.isBatch, h.isMatrix, h.left, h.right, h.getShape, h.lazyBatchSize, h.coreModes])
    | (intro a b (h : SameL a b); try simp only [h.length_eq])
    | (rintro ⟨a, n⟩ ⟨b, m⟩ ⟨(h : SameL a b), (h' : n = m)⟩; subst h'; try simp only [h.length_eq])
    | (rintro ⟨a, x⟩ ⟨b, y⟩ ⟨(h : SameT a b), h' : SameT x y⟩; try simp only [show a.shape = b.shape from h, show x.shape = y.shape from h'])
    | (rintro ⟨a, x, u⟩ ⟨b, y, v⟩ ⟨(h : SameT a b), h' : SameT x y, h'' : SameT u v⟩
       try simp only [show a.shape = b.shape from h, show x.shape = y.shape from h', show u.shape = v.shape from h''])
    | (intro a b h))

/-- One step through a program. -/
syntax "rr_step" : tactic

/-- Walks through a program. -/
macro "rr" : tactic => `(tactic| (repeat' rr_step))

macro_rules
  | `(tactic| rr_step) => `(tactic| first
    | rr_leaf
    | ((with_reducible refine RR.pure ?_); rr_side)
    | ((with_reducible refine RR.ok ?_); rr_side)
    | ((with_reducible apply RR.bind); · rr_leaf
       rr_intro)
    | ((with_reducible apply RR.bind); · (with_reducible refine RR.mapRange (r := SameT) rfl fun i => ?_); rr
       rr_intro)
    | ((with_reducible apply RR.bind); · (with_reducible refine RR.ite (r := SameT) Iff.rfl (fun _ => ?_) (fun _ => ?_)) <;> rr
       rr_intro)
    | (with_reducible refine RR.ite Iff.rfl (fun _ => ?_) (fun _ => ?_))
    | (with_reducible refine RR.mapRange (r := SameT) rfl fun i => ?_))

/-- Rewrites the attributes of the first object to those of the second. -/
macro "rr_norm " h:term:max : tactic =>
  `(tactic| simp only [SameTT.raw $h, SameTT.ranks $h, SameTT.batch $h, SameTT.ndims $h, SameTT.isBatch $h, SameTT.isMatrix $h, SameTT.left $h, SameTT.right $h,
    SameTT.getShape $h, SameTT.lazyBatchSize $h, SameTT.coreModes $h])

section
variable {K L : Type} [CommRing K] [CommRing L]

theorem RR.expandBatchDim {t : TT K} {u : TT L} (h : SameTT t u) : RR SameTT (expandBatchDim t) (expandBatchDim u) := by
  unfold T3f.expandBatchDim
  rr_norm h
  cases u.batch with
  | some n => exact h
  | none => rr

theorem RR.batchDimGetItem {t : TT K} {u : TT L} (h : SameTT t u) (ix : Ix) : RR SameTT (batchDimGetItem t ix) (batchDimGetItem u ix) := by
  unfold T3f.batchDimGetItem
  rr_norm h
  rr

theorem RR.squeezeBatchDim {t : TT K} {u : TT L} (h : SameTT t u) : RR SameTT (squeezeBatchDim t) (squeezeBatchDim u) := by
  unfold T3f.squeezeBatchDim
  rr_norm h
  exact RR.ite Iff.rfl (fun _ => RR.batchDimGetItem h _) fun _ => h

macro_rules
  | `(tactic| rr_leaf) => `(tactic| first
    | ((with_reducible apply RR.expandBatchDim) <;> rr_side)
    | ((with_reducible apply RR.batchDimGetItem) <;> rr_side)
    | ((with_reducible apply RR.squeezeBatchDim) <;> rr_side))

/-! ## Sums and products -/

theorem RR.addCore (axL axR d i : ℕ) {us us' ls ls' : R (List ℕ)} (hu : us = us') (hl : ls = ls') {a b : Tensor K} {a' b' : Tensor L} (ha : SameT a a')
    (hb : SameT b b') : RR SameT (addCore axL axR d i us ls a b) (addCore axL axR d i us' ls' a' b') := by
  subst hu hl
  unfold T3f.addCore
  rr

macro_rules
  | `(tactic| rr_leaf) => `(tactic| ((with_reducible apply RR.addCore) <;> rr_side))

theorem RR.addTensorCores {a b : TT K} {a' b' : TT L} (ha : SameTT a a') (hb : SameTT b b') : RR SameL (addTensorCores a b) (addTensorCores a' b') := by
  unfold T3f.addTensorCores
  rr_norm ha
  rr_norm hb
  rr

theorem RR.addMatrixCores {a b : TT K} {a' b' : TT L} (ha : SameTT a a') (hb : SameTT b b') : RR SameL (addMatrixCores a b) (addMatrixCores a' b') := by
  unfold T3f.addMatrixCores
  rr_norm ha
  rr_norm hb
  rr

theorem RR.addBatchSize {a b : TT K} {a' b' : TT L} (ha : SameTT a a') (hb : SameTT b b') : RR Eq (addBatchSize a b) (addBatchSize a' b') := by
  unfold T3f.addBatchSize
  rr_norm ha
  rr_norm hb
  rr

theorem RR.addBatchTensorBody (bs : ℕ) (ta tb : Bool) {a b c e : TT K} {a' b' c' e' : TT L} (ha : SameTT a a') (hb : SameTT b b') (hc : SameTT c c') (he : SameTT e e') :
    RR SameL (addBatchTensorBody bs ta tb a b c e) (addBatchTensorBody bs ta tb a' b' c' e') := by
  unfold T3f.addBatchTensorBody
  rr_norm ha
  rr_norm hb
  rr

theorem RR.addBatchMatrixBody (bs : ℕ) (ta tb : Bool) {a b c e : TT K} {a' b' c' e' : TT L} (ha : SameTT a a') (hb : SameTT b b') (hc : SameTT c c') (he : SameTT e e') :
    RR SameL (addBatchMatrixBody bs ta tb a b c e) (addBatchMatrixBody bs ta tb a' b' c' e') := by
  unfold T3f.addBatchMatrixBody
  rr_norm ha
  rr_norm hb
  rr

macro_rules
  | `(tactic| rr_leaf) => `(tactic| first
    | ((with_reducible apply RR.addBatchSize) <;> rr_side)
    | ((with_reducible apply RR.addTensorCores) <;> rr_side)
    | ((with_reducible apply RR.addMatrixCores) <;> rr_side)
    | ((with_reducible apply RR.addBatchTensorBody) <;> rr_side)
    | ((with_reducible apply RR.addBatchMatrixBody) <;> rr_side))

theorem RR.addBatchTensorCores {a b : TT K} {a' b' : TT L} (ha : SameTT a a') (hb : SameTT b b') :
    RR (SameP SameL Eq) (addBatchTensorCores a b) (addBatchTensorCores a' b') := by
  unfold T3f.addBatchTensorCores
  rr

theorem RR.addBatchMatrixCores {a b : TT K} {a' b' : TT L} (ha : SameTT a a') (hb : SameTT b b') :
    RR (SameP SameL Eq) (addBatchMatrixCores a b) (addBatchMatrixCores a' b') := by
  unfold T3f.addBatchMatrixCores
  rr

theorem RR.addRanks {a b : TT K} {a' b' : TT L} (ha : SameTT a a') (hb : SameTT b b') : RR Eq (addRanks a b) (addRanks a' b') := by
  unfold T3f.addRanks
  rr_norm ha
  rr_norm hb
  rr

macro_rules
  | `(tactic| rr_leaf) => `(tactic| first
    | ((with_reducible apply RR.addRanks) <;> rr_side)
    | ((with_reducible apply RR.addBatchTensorCores) <;> rr_side)
    | ((with_reducible apply RR.addBatchMatrixCores) <;> rr_side))

theorem RR.add {a b : TT K} {a' b' : TT L} (ha : SameTT a a') (hb : SameTT b b') : RR SameTT (add a b) (add a' b') := by
  unfold T3f.add
  rw [ha.broadcast hb]
  rr_norm ha
  rr_norm hb
  refine RR.bind (RR.refl _) fun _ _ _ => RR.bind (RR.refl _) fun _ _ _ => RR.bind (RR.refl _) fun _ _ _ => ?_
  rr

theorem RR.mulCoreWith (labels : List Char × List Char × List Char) {a b : TT K} {a' b' : TT L} (ha : SameTT a a') (hb : SameTT b b') (i : ℕ) :
    RR SameT (mulCoreWith labels a b i) (mulCoreWith labels a' b' i) := by
  unfold T3f.mulCoreWith
  rr_norm ha
  rr_norm hb
  rr

theorem RR.multiply {a b : TT K} {a' b' : TT L} (ha : SameTT a a') (hb : SameTT b b') : RR SameTT (multiply a b) (multiply a' b') := by
  unfold T3f.multiply
  rw [ha.broadcast hb]
  have h := fun i => RR.mulCoreWith (mulLabels a'.batch b'.batch) ha hb i
  have e : mulCore a b = T3f.mulCoreWith (mulLabels a'.batch b'.batch) a b := by funext i; rw [mulCore, ha.batch, hb.batch]
  rw [e]
  rr_norm ha
  rr_norm hb
  refine RR.bind (RR.refl _) fun _ _ _ => RR.bind (RR.refl _) fun _ _ _ => RR.bind (RR.refl _) fun _ _ _ => ?_
  refine RR.bind (RR.mapRange rfl h) ?_
  rr_intro
  rr

theorem RR.multiplyScalar {t u : TT ℝ} (h : SameTT t u) (c c' : ℝ) : RR SameTT (multiplyScalar t c) (multiplyScalar u c') := by
  unfold T3f.multiplyScalar
  rr_norm h
  have hm : ∀ (x y : ℝ) {l m : List (Tensor ℝ)}, SameL l m → SameL (l.map (smul x)) (m.map (smul y)) := by
    intro x y l m hl
    induction hl with
    | nil => exact .nil
    | cons h1 _ ih => exact .cons h1 ih
  have hs := hm (|c| ^ (1 / (u.ndims : ℝ))) (|c'| ^ (1 / (u.ndims : ℝ))) h.cores
  rr

theorem RR.sub {a b : TT ℝ} {a' b' : TT ℝ} (ha : SameTT a a') (hb : SameTT b b') : RR SameTT (sub a b) (sub a' b') := by
  unfold T3f.sub
  refine RR.bind (RR.multiplyScalar hb _ _) ?_
  rr_intro
  exact RR.add ha (by assumption)

theorem RR.neg {a a' : TT ℝ} (ha : SameTT a a') : RR SameTT (neg a) (neg a') := RR.multiplyScalar ha _ _

/-! ## Matrix products -/

theorem RR.matmulCore {a b : TT K} {a' b' : TT L} (ha : SameTT a a') (hb : SameTT b b') (i : ℕ) : RR SameT (matmulCore a b i) (matmulCore a' b' i) := by
  unfold T3f.matmulCore
  rr_norm ha
  rr_norm hb
  rr

macro_rules
  | `(tactic| rr_leaf) => `(tactic| first
    | ((with_reducible apply RR.add) <;> rr_side)
    | ((with_reducible apply RR.matmulCore) <;> rr_side))

theorem RR.ttTTMatmul {a b : TT K} {a' b' : TT L} (ha : SameTT a a') (hb : SameTT b b') : RR SameTT (ttTTMatmul a b) (ttTTMatmul a' b') := by
  unfold T3f.ttTTMatmul
  rw [ha.broadcast hb]
  rr_norm ha
  rr_norm hb
  rr

theorem RR.ttTranspose {t : TT K} {u : TT L} (h : SameTT t u) : RR SameTT (ttTranspose t) (ttTranspose u) := by
  unfold T3f.ttTranspose
  rr_norm h
  rr

theorem RR.denseStep {a : TT K} {a' : TT L} (ha : SameTT a a') (k : ℕ) {x : Tensor K} {y : Tensor L} (h : SameT x y) : RR SameT (denseStep a k x) (denseStep a' k y) := by
  unfold T3f.denseStep
  rr_norm ha
  rr

theorem RR.ttDenseMatmul {a : TT K} {a' : TT L} (ha : SameTT a a') {x : Tensor K} {y : Tensor L} (h : SameT x y) : RR SameT (ttDenseMatmul a x) (ttDenseMatmul a' y) := by
  unfold T3f.ttDenseMatmul
  rr_norm ha
  simp only [show x.shape = y.shape from h]
  rr
  refine RR.bind (RR.forReversed (fun i s u hs => RR.denseStep ha i hs) _ _ _ (by assumption)) ?_
  rr_intro
  rr

macro_rules
  | `(tactic| rr_leaf) => `(tactic| first
    | ((with_reducible apply RR.ttTranspose) <;> rr_side)
    | ((with_reducible apply RR.ttDenseMatmul) <;> rr_side))

theorem RR.denseTTMatmul {a : TT K} {a' : TT L} {x : Tensor K} {y : Tensor L} (h : SameT x y) (ha : SameTT a a') : RR SameT (denseTTMatmul x a) (denseTTMatmul y a') := by
  unfold T3f.denseTTMatmul
  simp only [show x.shape = y.shape from h]
  rr

/-! ## Dense values -/

theorem RR.interleavedShape {t : TT K} {u : TT L} (h : SameTT t u) : RR Eq (interleavedShape t) (interleavedShape u) := by
  unfold T3f.interleavedShape
  rr_norm h
  rr

macro_rules
  | `(tactic| rr_leaf) => `(tactic| first
    | ((with_reducible apply RR.interleavedShape) <;> rr_side)
    | ((with_reducible refine RR.forRange (r := SameT) (fun _ _ _ hs => ?_) _ _ _ _ ?_) <;> first | rr_side | rr))

theorem RR.fullTT {t : TT K} {u : TT L} (h : SameTT t u) : RR SameT (fullTT t) (fullTT u) := by
  unfold T3f.fullTT
  rr_norm h
  rr

theorem RR.fullBatch {t : TT K} {u : TT L} (h : SameTT t u) : RR SameT (fullBatch t) (fullBatch u) := by
  unfold T3f.fullBatch
  rr_norm h
  rr

theorem RR.full {t : TT K} {u : TT L} (h : SameTT t u) : RR SameT (full t) (full u) := by
  unfold T3f.full
  rr_norm h
  exact RR.ite Iff.rfl (fun _ => RR.fullBatch h) fun _ => RR.fullTT h

/-! ## Inner products -/

theorem SameTT.modeLabels {t : TT K} {u : TT L} (h : SameTT t u) : modeLabels t = modeLabels u := by
  simp only [T3f.modeLabels, h.isMatrix]

theorem RR.innerLoop {a b : TT K} {a' b' : TT L} (ha : SameTT a a') (hb : SameTT b b') (n : ℕ) (ax la lb lr : List Char) :
    RR SameT (innerLoop a b n ax la lb lr) (innerLoop a' b' n ax la lb lr) := by
  unfold T3f.innerLoop
  rr

macro_rules
  | `(tactic| rr_leaf) => `(tactic| ((with_reducible apply RR.innerLoop) <;> rr_side))

theorem RR.flatInner {a b : TT K} {a' b' : TT L} (ha : SameTT a a') (hb : SameTT b b') : RR SameT (flatInner a b) (flatInner a' b') := by
  unfold T3f.flatInner
  rw [ha.broadcast hb, ha.modeLabels]
  rr_norm ha
  rr_norm hb
  rr

theorem RR.frobeniusNormSquaredDiff {t : TT K} {u : TT L} (h : SameTT t u) : RR SameT (frobeniusNormSquaredDiff t) (frobeniusNormSquaredDiff u) := by
  unfold T3f.frobeniusNormSquaredDiff
  rw [h.modeLabels]
  rr_norm h
  rr

theorem RR.bilinearForm {a b c : TT K} {a' b' c' : TT L} (ha : SameTT a a') (hb : SameTT b b') (hc : SameTT c c') :
    RR SameT (bilinearForm a b c) (bilinearForm a' b' c') := by
  unfold T3f.bilinearForm
  rr_norm ha
  rr_norm hb
  rr_norm hc
  rr

theorem RR.bilinearFormTwoMat {a b c e : TT K} {a' b' c' e' : TT L} (ha : SameTT a a') (hb : SameTT b b') (hc : SameTT c c') (he : SameTT e e') :
    RR SameT (bilinearFormTwoMat a b c e) (bilinearFormTwoMat a' b' c' e') := by
  unfold T3f.bilinearFormTwoMat
  rr_norm ha
  rr_norm hb
  rr_norm hc
  rr_norm he
  rr

theorem RR.pairwiseFlatInner {a b : TT K} {a' b' : TT L} (ha : SameTT a a') (hb : SameTT b b') : RR SameT (pairwiseFlatInner a b) (pairwiseFlatInner a' b') := by
  unfold T3f.pairwiseFlatInner
  rw [ha.modeLabels]
  rr_norm ha
  rr

theorem RR.rowVector {t : TT K} {u : TT L} (h : SameTT t u) : RR SameTT (rowVector t) (rowVector u) := by
  unfold T3f.rowVector
  rr_norm h
  rr

macro_rules
  | `(tactic| rr_leaf) => `(tactic| ((with_reducible apply RR.rowVector) <;> rr_side))

theorem RR.pairwiseFlatInnerMatrix {a b c : TT K} {a' b' c' : TT L} (ha : SameTT a a') (hb : SameTT b b') (hc : SameTT c c') :
    RR SameT (pairwiseFlatInnerMatrix a b c) (pairwiseFlatInnerMatrix a' b' c') := by
  unfold T3f.pairwiseFlatInnerMatrix
  rr_norm ha
  rr_norm hb
  rr_norm hc
  rr

/-! ## Reading elements, casts, renormalization -/

theorem RR.gatherStep {t : TT K} {u : TT L} (h : SameTT t u) (idx : Tensor ℕ) (k : ℕ) {x : Tensor K} {y : Tensor L} (hx : SameT x y) :
    RR SameT (gatherStep t idx k x) (gatherStep u idx k y) := by
  unfold T3f.gatherStep
  rr_norm h
  rr

macro_rules
  | `(tactic| rr_leaf) => `(tactic| ((with_reducible apply RR.gatherStep) <;> rr_side))

theorem RR.ttGatherNd {t : TT K} {u : TT L} (h : SameTT t u) (idx : Tensor ℕ) : RR SameT (ttGatherNd t idx) (ttGatherNd u idx) := by
  unfold T3f.ttGatherNd
  rr_norm h
  rr

theorem RR.sparseStep {t : TT K} {u : TT L} (h : SameTT t u) (ri ci : Tensor ℕ) (k : ℕ) {x : Tensor K} {y : Tensor L} (hx : SameT x y) :
    RR SameT (sparseStep t ri ci k x) (sparseStep u ri ci k y) := by
  unfold T3f.sparseStep
  rr_norm h
  rr

macro_rules
  | `(tactic| rr_leaf) => `(tactic| first
    | ((with_reducible apply RR.ttGatherNd) <;> rr_side)
    | ((with_reducible apply RR.sparseStep) <;> rr_side))

theorem RR.ttSparseFlatInner {t : TT K} {u : TT L} (h : SameTT t u) (idx : Tensor ℕ) {x : Tensor K} {y : Tensor L} (hx : SameT x y) :
    RR (fun _ _ => True) (ttSparseFlatInner t idx x) (ttSparseFlatInner u idx y) := by
  unfold T3f.ttSparseFlatInner
  rr_norm h
  rr
  all_goals exact RR.pure trivial

theorem RR.ttCast {K' L' : Type} (f : K → K') (g : L → L') {t : TT K} {u : TT L} (h : SameTT t u) : RR SameTT (ttCast f t) (ttCast g u) := by
  unfold T3f.ttCast
  rr_norm h
  rr

end

end T3f
