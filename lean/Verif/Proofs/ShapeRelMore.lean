import Verif.Proofs.ShapeRelOps
import Verif.Model.Tangent
import Verif.Model.Initializers
import Verif.Model.Kronecker
import Verif.Model.Indexing

/-!
# Two runs of the functions of the library on data of equal shapes, continued
-/

set_option linter.unusedSectionVars false

namespace T3f

section
variable {K L : Type} [CommRing K] [CommRing L]

/-! ## Indexing -/

theorem RR.ttGetItemStep {t : TT K} {u : TT L} (h : SameTT t u) (spec : List Ix) (i : ℕ) {s : List (Tensor K) × Option (Tensor K)} {s' : List (Tensor L) × Option (Tensor L)}
    (hs : SameP SameL (SameO SameT) s s') : RR (SameP SameL (SameO SameT)) (ttGetItemStep t spec i s) (ttGetItemStep u spec i s') := by
  obtain ⟨l, r⟩ := s
  obtain ⟨l', r'⟩ := s'
  obtain ⟨hl, hr⟩ := hs
  unfold T3f.ttGetItemStep
  rr_norm h
  match r, r', hr with
  | none, none, _ => rr
  | some r, some r', hr =>
    have hr' : SameT r r' := hr
    rr
    all_goals exact RR.pure ⟨by rr_side, trivial⟩

theorem RR.ttGetItem {t : TT K} {u : TT L} (h : SameTT t u) (spec : List Ix) : RR SameTT (ttGetItem t spec) (ttGetItem u spec) := by
  unfold T3f.ttGetItem
  rr_norm h
  refine RR.bind (RR.refl _) fun _ _ _ => ?_
  refine RR.bind (RR.forRange (r := SameP SameL (SameO SameT)) (fun i s s' hs => RR.ttGetItemStep h spec i hs) _ _ _ _ ⟨.nil, trivial⟩) ?_
  rintro ⟨l, r⟩ ⟨l', r'⟩ ⟨hl, hr⟩
  match r, r', hr with
  | none, none, _ => exact RR.mkTT hl rfl rfl
  | some r, some r', hr =>
    have hr' : SameT r r' := hr
    dsimp only
    rr

theorem RR.batchFullGetItemStep {t : TT K} {u : TT L} (h : SameTT t u) (b0 : Ix) (spec : List Ix) (i : ℕ) {s : List (Tensor K) × Option (Tensor K)}
    {s' : List (Tensor L) × Option (Tensor L)} (hs : SameP SameL (SameO SameT) s s') :
    RR (SameP SameL (SameO SameT)) (batchFullGetItemStep t b0 spec i s) (batchFullGetItemStep u b0 spec i s') := by
  obtain ⟨l, r⟩ := s
  obtain ⟨l', r'⟩ := s'
  obtain ⟨hl, hr⟩ := hs
  unfold T3f.batchFullGetItemStep
  rr_norm h
  match r, r', hr with
  | none, none, _ => rr
  | some r, some r', hr =>
    have hr' : SameT r r' := hr
    rr
    all_goals exact RR.pure ⟨by rr_side, trivial⟩

theorem RR.batchFullGetItem {t : TT K} {u : TT L} (h : SameTT t u) (b0 : Ix) (spec : List Ix) : RR SameTT (batchFullGetItem t b0 spec) (batchFullGetItem u b0 spec) := by
  unfold T3f.batchFullGetItem
  rr_norm h
  refine RR.bind (RR.refl _) fun _ _ _ => ?_
  refine RR.bind (RR.forRange (r := SameP SameL (SameO SameT)) (fun i s s' hs => RR.batchFullGetItemStep h b0 spec i hs) _ _ _ _ ⟨.nil, trivial⟩) ?_
  rintro ⟨l, r⟩ ⟨l', r'⟩ ⟨hl, hr⟩
  match r, r', hr with
  | none, none, _ => dsimp only; rr
  | some r, some r', hr =>
    have hr' : SameT r r' := hr
    dsimp only
    rr

theorem RR.batchGetItem {t : TT K} {u : TT L} (h : SameTT t u) (b0 : Ix) (spec : List Ix) : RR SameTT (batchGetItem t b0 spec) (batchGetItem u b0 spec) := by
  unfold T3f.batchGetItem
  rr_norm h
  exact RR.ite Iff.rfl (fun _ => RR.batchDimGetItem h b0) fun _ => RR.ite Iff.rfl (fun _ => RR.batchFullGetItem h b0 spec) fun _ => rfl

/-! ## Operations on batches -/

theorem RR.concatAlongBatchDim {ts : List (TT K)} {us : List (TT L)} (h : List.Forall₂ SameTT ts us) :
    RR SameTT (concatAlongBatchDim ts) (concatAlongBatchDim us) := by
  have hn : (ts.map fun t => t.batch.getD 0) = us.map fun t => t.batch.getD 0 := by
    induction h with
    | nil => rfl
    | cons h1 _ ih => rw [List.map_cons, List.map_cons, ih, h1.batch]
  unfold T3f.concatAlongBatchDim
  simp only [hn, h.length_eq]
  refine RR.bind (RR.pyGet h 0) fun a b hab => ?_
  rr_norm hab
  refine RR.bind (RR.mapRange (r := Eq) rfl fun i => RR.bind (RR.pyGet h i) fun x y hxy => ?_) fun _ _ _ => ?_
  · rr_norm hxy
    rr
  refine RR.bind (RR.forRange (r := Eq) (fun i _ _ _ => RR.bind (RR.pyGet h i) fun x y hxy => ?_) _ _ _ _ rfl) fun _ _ _ => ?_
  · rr_norm hxy
    exact RR.refl _
  refine RR.bind (RR.mapRange (r := SameT) rfl fun k => RR.bind (RR.mapRange (r := SameT) rfl fun i => RR.bind (RR.pyGet h i) fun x y hxy => ?_) ?_) ?_
  · rr
  · rr_intro
    rr
  · rr_intro
    rr

theorem RR.expandWeights (e : ℕ) {x : Tensor K} {y : Tensor L} (hx : SameT x y) :
    RR SameT (expandWeights e x) (expandWeights e y) := by
  unfold T3f.expandWeights
  rw [show x.shape = y.shape from hx]
  cases y.shape with
  | nil => exact rfl
  | cons n r => exact rfl

theorem RR.multiplyAlongBatchDim {t : TT K} {u : TT L} (h : SameTT t u) {x : Tensor K} {y : Tensor L} (hx : SameT x y) :
    RR SameTT (multiplyAlongBatchDim t x) (multiplyAlongBatchDim u y) := by
  unfold T3f.multiplyAlongBatchDim
  rr_norm h
  refine RR.bind (RR.expandWeights _ hx) ?_
  rr_intro
  rr
  cases u.batch <;> dsimp only <;> rr

end

/-! ## Norms -/

section
variable (qr qr' : QRRoutine) (svd svd' : SVDRoutine)

theorem RR.renormalize {t u : TT ℝ} (h : SameTT t u) (e e' : ℝ) : RR SameTT (renormalize t e) (renormalize u e') := by
  unfold T3f.renormalize
  rr_norm h
  refine RR.ite Iff.rfl (fun _ => ?_) fun _ => ?_
  · unfold renormalizeBatch
    rr_norm h
    rr
  · unfold renormalizeTT
    rr_norm h
    have : ∀ (f g : Tensor ℝ → ℝ) {l m : List (Tensor ℝ)}, SameL l m → List.Forall₂ (fun _ _ : ℝ => True) (l.map f) (m.map g) := by
      intro f g l m hl
      induction hl with
      | nil => exact .nil
      | cons _ _ ih => exact .cons trivial ih
    refine RR.bind (RR.mapRange (r := SameT) rfl fun i => ?_) ?_
    · rr_step
      refine RR.bind (RR.pyGet (this _ _ h.cores) i) fun _ _ _ => ?_
      rr
    · rr_intro
      rr

/-! ## Decompositions -/

theorem RR.orthoLRStep {t u : TT ℝ} (h : SameTT t u) (i : ℕ) {s s' : List (Tensor ℝ) × ℕ} (hs : SameP SameL Eq s s') :
    RR (SameP SameL Eq) (orthoLRStep qr t i s) (orthoLRStep qr' u i s') := by
  obtain ⟨l, r⟩ := s
  obtain ⟨l', r'⟩ := s'
  obtain ⟨hl, rfl⟩ := hs
  unfold T3f.orthoLRStep
  rr_norm h
  rr

theorem RR.orthoRLStep {t u : TT ℝ} (h : SameTT t u) (i : ℕ) {s s' : List (Tensor ℝ) × ℕ} (hs : SameP SameL Eq s s') :
    RR (SameP SameL Eq) (orthoRLStep qr t i s) (orthoRLStep qr' u i s') := by
  obtain ⟨l, r⟩ := s
  obtain ⟨l', r'⟩ := s'
  obtain ⟨hl, rfl⟩ := hs
  unfold T3f.orthoRLStep
  rr_norm h
  rr

theorem RR.orthoLR {t u : TT ℝ} (h : SameTT t u) : RR SameTT (orthoLR qr t) (orthoLR qr' u) := by
  unfold T3f.orthoLR
  rr_norm h
  refine RR.bind (RR.refl _) ?_
  rr_intro
  refine RR.bind (RR.forRange (r := SameP SameL Eq) (fun i s s' hs => RR.orthoLRStep qr qr' h i hs) _ _ _ _ ⟨h.cores, rfl⟩) ?_
  rr_intro
  rr
  cases u.batch <;> dsimp only <;> rr

theorem RR.orthoRL {t u : TT ℝ} (h : SameTT t u) : RR SameTT (orthoRL qr t) (orthoRL qr' u) := by
  unfold T3f.orthoRL
  rr_norm h
  refine RR.bind (RR.refl _) ?_
  rr_intro
  refine RR.bind (RR.forRange (r := SameP SameL Eq) (fun i s s' hs => RR.orthoRLStep qr qr' h (u.ndims - 1 - i) hs) _ _ _ _ ⟨h.cores, rfl⟩) ?_
  rr_intro
  rr

theorem RR.orthogonalize {t u : TT ℝ} (h : SameTT t u) (b : Bool) : RR SameTT (orthogonalize qr t b) (orthogonalize qr' u b) := by
  unfold T3f.orthogonalize
  rr_norm h
  exact RR.ite Iff.rfl (fun _ => RR.orthoLR qr qr' h) fun _ => RR.ite Iff.rfl (fun _ => rfl) fun _ => RR.orthoRL qr qr' h

macro_rules
  | `(tactic| rr_leaf) => `(tactic| first
    | ((with_reducible apply RR.orthogonalize) <;> rr_side)
    | (unfold takeLast; (with_reducible apply RR.getItem) <;> rr_side))

theorem RR.frobeniusNormSquared {t u : TT ℝ} (h : SameTT t u) (b : Bool) : RR SameT (frobeniusNormSquared qr t b) (frobeniusNormSquared qr' u b) := by
  unfold T3f.frobeniusNormSquared
  rr_norm h
  refine RR.ite Iff.rfl (fun _ => RR.frobeniusNormSquaredDiff h) fun _ => ?_
  rr_step
  refine RR.bind (RR.pyGet (List.rel_reverse (SameTT.cores (by assumption))) 0) ?_
  rr_intro
  refine RR.ite Iff.rfl (fun _ => ?_) fun _ => rfl
  rr_step
  rr_step
  refine RR.bind (r := SameT) ?_ ?_
  · unfold tfNormRows
    rename_i x y hxy
    rw [show x.shape = y.shape from hxy]
    split <;> exact rfl
  · rr_intro
    rr

theorem RR.frobeniusNorm {t u : TT ℝ} (h : SameTT t u) (e e' : ℝ) (b : Bool) : RR SameT (frobeniusNorm qr t e b) (frobeniusNorm qr' u e' b) := by
  unfold T3f.frobeniusNorm
  refine RR.bind (RR.frobeniusNormSquared qr qr' h b) ?_
  rr_intro
  rr

theorem RR.roundStep {t u : TT ℝ} (h : SameTT t u) (bounds : List ℕ) (i : ℕ) {s s' : List (Tensor ℝ) × List ℕ} (hs : SameP SameL Eq s s') :
    RR (SameP SameL Eq) (roundStep svd t bounds i s) (roundStep svd' u bounds i s') := by
  obtain ⟨l, r⟩ := s
  obtain ⟨l', r'⟩ := s'
  obtain ⟨hl, rfl⟩ := hs
  unfold T3f.roundStep
  rr_norm h
  rr

theorem RR.roundWith {t u : TT ℝ} (h : SameTT t u) (bounds : List ℕ) : RR SameTT (roundWith qr svd t bounds) (roundWith qr' svd' u bounds) := by
  unfold T3f.roundWith
  rr_norm h
  rr_step
  refine RR.bind (RR.forRange (r := SameP SameL Eq) (fun i s s' hs => RR.roundStep svd svd' h bounds (u.ndims - 1 - i) hs) _ _ _ _ ⟨SameTT.cores (by assumption), rfl⟩) ?_
  rr_intro
  rr
  cases u.batch <;> dsimp only <;> rr

theorem RR.ttRound {t u : TT ℝ} (h : SameTT t u) (m : MaxRank) (e : Option ℝ) : RR SameTT (ttRound qr svd t m e) (ttRound qr' svd' u m e) := by
  unfold T3f.ttRound
  rr_norm h
  refine RR.ite Iff.rfl (fun _ => RR.bind (RR.refl _) ?_) fun _ => RR.bind (RR.refl _) ?_
  · rr_intro
    exact RR.roundWith qr qr' svd svd' h _
  · rr_intro
    exact RR.roundWith qr qr' svd svd' h _

theorem RR.toTTStep (shape bounds : List ℕ) (i : ℕ) {s s' : Tensor ℝ × List ℕ × List (Tensor ℝ)} (hs : SameP SameT (SameP Eq SameL) s s') :
    RR (SameP SameT (SameP Eq SameL)) (toTTStep svd shape bounds i s) (toTTStep svd' shape bounds i s') := by
  obtain ⟨x, r, l⟩ := s
  obtain ⟨x', r', l'⟩ := s'
  obtain ⟨hx, rfl, hl⟩ := hs
  have hx' : SameT x x' := hx
  have hl' : SameL l l' := hl
  unfold T3f.toTTStep
  dsimp only
  rr

theorem RR.toTTTensor {x y : Tensor ℝ} (h : SameT x y) (m : MaxRank) (e : Option ℝ) : RR SameTT (toTTTensor svd x m e) (toTTTensor svd' y m e) := by
  unfold T3f.toTTTensor
  simp only [show x.shape = y.shape from h]
  refine RR.bind (RR.refl _) ?_
  rr_intro
  refine RR.bind (RR.forRange (r := SameP SameT (SameP Eq SameL)) (fun i s s' hs => RR.toTTStep svd svd' _ _ i hs) _ _ _ _ ⟨h, rfl, .nil⟩) ?_
  rintro ⟨x, r, l⟩ ⟨x', r', l'⟩ ⟨hx, rfl, hl⟩
  have hx' : SameT x x' := hx
  have hl' : SameL l l' := hl
  dsimp only
  rr

theorem RR.toTTMatrix {x y : Tensor ℝ} (h : SameT x y) (a b : Option (List ℕ)) (m : MaxRank) (e : Option ℝ) :
    RR SameTT (toTTMatrix svd x a b m e) (toTTMatrix svd' y a b m e) := by
  unfold T3f.toTTMatrix
  refine RR.bind (RR.refl _) ?_
  rintro ⟨a, b⟩ _ rfl
  dsimp only
  rr
  refine RR.bind (RR.toTTTensor svd svd' (by assumption) m e) ?_
  rr_intro
  rr

/-! ## Approximate sums -/

theorem RR.addNLevel (m : MaxRank) {ts us : List (TT ℝ)} (h : List.Forall₂ SameTT ts us) :
    RR (List.Forall₂ SameTT) (addNLevel qr svd m ts) (addNLevel qr' svd' m us) := by
  unfold T3f.addNLevel
  rw [h.length_eq]
  refine RR.mapRange rfl fun j => RR.bind (RR.pyGet h _) fun a b hab => RR.ite Iff.rfl (fun _ => ?_) fun _ => hab
  exact RR.bind (RR.pyGet h _) fun c d hcd => RR.bind (RR.add hab hcd) fun x y hxy => RR.ttRound qr qr' svd svd' hxy m none

theorem RR.addNLoop (m : MaxRank) : ∀ (fuel : ℕ) {ts us : List (TT ℝ)}, List.Forall₂ SameTT ts us →
    RR (List.Forall₂ SameTT) (addNLoop qr svd m fuel ts) (addNLoop qr' svd' m fuel us)
  | 0, _, _, h => h
  | fuel + 1, ts, us, h => by
    unfold T3f.addNLoop
    rw [h.length_eq]
    exact RR.ite Iff.rfl (fun _ => RR.bind (RR.addNLevel qr qr' svd svd' m h) fun a b hab => RR.addNLoop m fuel hab) fun _ => h

theorem RR.addN {ts us : List (TT ℝ)} (h : List.Forall₂ SameTT ts us) (m : MaxRank) : RR SameTT (addN qr svd ts m) (addN qr' svd' us m) := by
  unfold T3f.addN
  rw [h.length_eq]
  exact RR.bind (RR.addNLoop qr qr' svd svd' m _ h) fun a b hab => RR.pyGet hab 0

theorem RR.repeatCore {c c' x x' : Tensor ℝ} (hc : SameT c c') (hx : SameT x x') (N i : ℕ) : RR SameT (repeatCore c x N i) (repeatCore c' x' N i) := by
  unfold T3f.repeatCore
  simp only [show c.shape = c'.shape from hc, show x.shape = x'.shape from hx]
  rr

theorem RR.weightBatch {t u : TT ℝ} (h : SameTT t u) {c c' : Option (Tensor ℝ)} (hc : SameO SameT c c') : RR (SameP SameTT Eq) (weightBatch t c) (weightBatch u c') := by
  match c, c', hc with
  | none, none, _ => exact ⟨h, rfl⟩
  | some c, some c', hc =>
    have hcc : c.shape = c'.shape := hc
    unfold T3f.weightBatch
    dsimp only
    rw [hcc]
    rr_norm h
    split
    · refine RR.bind (RR.multiplyAlongBatchDim h hc) fun a b hab => ⟨hab, rfl⟩
    · refine RR.bind (RR.refl _) fun _ _ _ => RR.bind (RR.mapRange (r := SameT) rfl fun i => ?_) fun a b hab => ?_
      · exact RR.bind (RR.pyGet h.cores i) fun x y hxy => RR.repeatCore hc hxy _ _
      · exact RR.bind (RR.mkBatch hab rfl rfl rfl) fun a b hab => ⟨hab, rfl⟩
    · exact rfl

theorem RR.halves (out : Option ℕ) {x y : Tensor ℝ} (h : SameT x y) : RR (SameP SameT SameT) (halves out x) (halves out y) := by
  have h1 : ∀ {x y : Tensor ℝ}, SameT x y → RR SameT (splitFirst out x) (splitFirst out y) := by
    intro x y h
    unfold splitFirst
    simp only [show x.shape = y.shape from h]
    cases out <;> dsimp only <;> rr
  have h2 : ∀ {x y : Tensor ℝ}, SameT x y → RR SameT (mergeFirst out x) (mergeFirst out y) := by
    intro x y h
    unfold mergeFirst
    simp only [show x.shape = y.shape from h]
    cases out <;> dsimp only <;> rr
  have h3 : ∀ {x y x' y' : Tensor ℝ}, SameT x y → SameT x' y' → RR SameT (padOdd x x') (padOdd y y') := by
    intro x y x' y' h h'
    unfold padOdd
    simp only [show x.shape = y.shape from h, show x'.shape = y'.shape from h']
    rr
  unfold T3f.halves
  refine RR.bind (h1 h) fun a b hab => RR.bind (RR.getItem hab rfl) fun a1 b1 hab1 => RR.bind (RR.getItem hab rfl) fun a2 b2 hab2 =>
    RR.bind (h3 hab1 hab2) fun a3 b3 hab3 => RR.bind (h2 hab1) fun a4 b4 hab4 => RR.bind (h2 hab3) fun a5 b5 hab5 => ⟨hab4, hab5⟩

theorem RR.reduceLevel (m : MaxRank) (out : Option ℕ) {t u : TT ℝ} (h : SameTT t u) : RR SameTT (reduceLevel qr svd m out t) (reduceLevel qr' svd' m out u) := by
  unfold T3f.reduceLevel
  rr_norm h
  refine RR.bind (RR.mapRange (r := SameT) rfl fun i => RR.bind (RR.pyGet h.cores i) fun x y hxy => RR.bind (RR.halves out hxy) ?_) fun a b hab => ?_
  · rr_intro
    rr
  · exact RR.bind (RR.mkBatch hab rfl rfl rfl) fun x y hxy => RR.ttRound qr qr' svd svd' hxy m none

theorem RR.reduceLoop (m : MaxRank) (out : Option ℕ) : ∀ (fuel : ℕ) {t u : TT ℝ}, SameTT t u → RR SameTT (reduceLoop qr svd m out fuel t) (reduceLoop qr' svd' m out fuel u)
  | 0, _, _, h => h
  | fuel + 1, t, u, h => by
    unfold T3f.reduceLoop
    rw [h.batch]
    exact RR.ite Iff.rfl (fun _ => RR.bind (RR.reduceLevel qr qr' svd svd' m out h) fun a b hab => RR.reduceLoop m out fuel hab) fun _ => h

theorem RR.reduceSumBatch {t u : TT ℝ} (h : SameTT t u) (m : MaxRank) {c c' : Option (Tensor ℝ)} (hc : SameO SameT c c') :
    RR SameTT (reduceSumBatch qr svd t m c) (reduceSumBatch qr' svd' u m c') := by
  unfold T3f.reduceSumBatch
  refine RR.bind (RR.weightBatch h hc) ?_
  rintro ⟨w, out⟩ ⟨w', out'⟩ ⟨hw, rfl⟩
  dsimp only
  rw [hw.batch]
  refine RR.bind (RR.reduceLoop qr qr' svd svd' m out _ hw) fun a b hab => ?_
  cases out
  · exact RR.batchGetItem hab _ _
  · exact hab

/-! ## Projections -/

theorem RR.projectChecks {a b a' b' : TT ℝ} (ha : SameTT a a') (hb : SameTT b b') : RR Eq (projectChecks a b) (projectChecks a' b') := by
  unfold T3f.projectChecks
  rr_norm ha
  rr_norm hb
  exact RR.refl _

theorem RR.tangentFrame {t u : TT ℝ} (h : SameTT t u) : RR (SameP SameTT SameTT) (tangentFrame qr t) (tangentFrame qr' u) := by
  unfold T3f.tangentFrame
  exact RR.bind (RR.orthogonalize qr qr' h true) fun a b hab => RR.bind (RR.orthogonalize qr qr' hab false) fun c d hcd => ⟨hab, hcd⟩

theorem RR.projectRhs (ax : List Char) {a b a' b' : TT ℝ} (ha : SameTT a a') (hb : SameTT b b') (d n : ℕ) : RR SameL (projectRhs ax a b d n) (projectRhs ax a' b' d n) := by
  unfold T3f.projectRhs
  refine RR.forRange (r := SameL) (fun i s s' hs => ?_) _ _ _ _ (forall₂_set (r := SameT) (forall₂_replicate (r := SameT) rfl _) rfl _)
  unfold rhsStep
  rr

theorem RR.projectLhs (ax : List Char) {a b a' b' : TT ℝ} (ha : SameTT a a') (hb : SameTT b b') (d n : ℕ) : RR SameL (projectLhs ax a b d n) (projectLhs ax a' b' d n) := by
  unfold T3f.projectLhs
  refine RR.forRange (r := SameL) (fun i s s' hs => ?_) _ _ _ _ (forall₂_set (r := SameT) (forall₂_replicate (r := SameT) rfl _) rfl _)
  unfold lhsStep
  rr

theorem RR.projectBlock (ax : List Char) (keep : Bool) {lhs rhs lhs' rhs' : List (Tensor ℝ)} (hl : SameL lhs lhs') (hr : SameL rhs rhs') (d k : ℕ) {w w' l l' : Tensor ℝ}
    (hw : SameT w w') (hc : SameT l l') : RR SameT (projectBlock ax keep lhs rhs d k w l) (projectBlock ax keep lhs' rhs' d k w' l') := by
  unfold T3f.projectBlock projectDiff
  simp only [bind_assoc]
  rr

theorem RR.extendCore {p p' : Prop} [Decidable p] [Decidable p'] (hp : p ↔ p') (out : Option ℕ) {x y : Tensor ℝ} (h : SameT x y) :
    RR SameT (extendCore p out x) (extendCore p' out y) := by
  unfold T3f.extendCore
  cases out with
  | none => exact h
  | some n =>
    simp only [hp]
    rr

theorem RR.tangentCore (axL axR d k : ℕ) {z z' : R (List ℕ)} (hz : z = z') {a b c a' b' c' : Tensor ℝ} (ha : SameT a a') (hb : SameT b b') (hc : SameT c c') :
    RR SameT (tangentCore axL axR d k z a b c) (tangentCore axL axR d k z' a' b' c') := by
  subst hz
  unfold T3f.tangentCore
  rr

theorem RR.mkTangent (out : Option ℕ) {x y : List (Tensor ℝ)} (h : SameL x y) {r r' : List (List ℕ)} (hr : r = r') : RR SameTT (mkTangent out x r) (mkTangent out y r') := by
  subst hr
  unfold T3f.mkTangent
  cases out <;> dsimp only <;> rr

theorem SameTT.zeroBlockShape {a b c a' b' c' : TT ℝ} (ha : SameTT a a') (hb : SameTT b b') (hc : SameTT c c') (out : Option ℕ) (k : ℕ) :
    zeroBlockShape a b c out k = zeroBlockShape a' b' c' out k := by
  unfold T3f.zeroBlockShape
  rr_norm ha
  rr_norm hb
  rr_norm hc

theorem RR.project {a b a' b' : TT ℝ} (ha : SameTT a a') (hb : SameTT b b') : RR SameTT (project qr a b) (project qr' a' b') := by
  unfold T3f.project
  refine RR.bind (RR.projectChecks ha hb) fun _ _ _ => RR.bind (RR.tangentFrame qr qr' hb) ?_
  rintro ⟨l, r⟩ ⟨l', r'⟩ ⟨hl, hr⟩
  have hl' : SameTT l l' := hl
  have hr' : SameTT r r' := hr
  dsimp only
  rw [hb.modeLabels, hb.ndims, hb.raw]
  refine RR.bind (RR.expandBatchDim ha) fun w w' hw => ?_
  rw [hw.lazyBatchSize]
  refine RR.bind (RR.refl _) ?_
  rintro n _ rfl
  refine RR.bind (RR.projectRhs _ hw hr' _ _) fun rh rh' hrh => RR.bind (RR.projectLhs _ hw hl' _ _) fun lh lh' hlh => ?_
  refine RR.bind (RR.mapRange (r := SameT) rfl fun k => RR.bind (RR.pyGet hw.cores k) fun wc wc' hwc => RR.bind (RR.pyGet hl'.cores k) fun lc lc' hlc =>
    RR.bind (RR.pyGet hr'.cores k) fun rc rc' hrc => ?_) fun x y hxy => ?_
  · rw [ha.isBatch, ha.batch, ha.left, ha.right, hb.zeroBlockShape hl' hr']
    exact RR.bind (RR.projectBlock _ _ hlh hrh _ _ hwc hlc) fun p p' hp => RR.bind (RR.extendCore hb.isMatrix _ hlc) fun e e' he =>
      RR.bind (RR.extendCore hb.isMatrix _ hrc) fun f f' hf => RR.tangentCore _ _ _ _ rfl he hf hp
  · rw [ha.batch]
    exact RR.mkTangent _ hxy rfl

theorem SameO.sumOutBatch {c c' : Option (Tensor ℝ)} (h : SameO SameT c c') : sumOutBatch c = sumOutBatch c' := by
  match c, c', h with
  | none, none, _ => rfl
  | some c, some c', h =>
    have h' : c.shape = c'.shape := h
    unfold T3f.sumOutBatch
    dsimp only
    rw [h']

theorem RR.projectSumBlock (ax : List Char) {c c' : Option (Tensor ℝ)} (h : SameO SameT c c') {lhs rhs lhs' rhs' : List (Tensor ℝ)} (hl : SameL lhs lhs') (hr : SameL rhs rhs')
    (d k : ℕ) {w w' l l' : Tensor ℝ} (hw : SameT w w') (hc : SameT l l') : RR SameT (projectSumBlock ax c lhs rhs d k w l) (projectSumBlock ax c' lhs' rhs' d k w' l') := by
  have hs := h.sumOutBatch
  match c, c', h with
  | none, none, _ => exact RR.projectBlock _ _ hl hr _ _ hw hc
  | some c, some c', h =>
    unfold T3f.projectSumBlock
    dsimp only
    rw [hs]
    exact RR.bind (RR.projectBlock _ _ hl hr _ _ hw hc) fun p p' hp => RR.einsum (.cons h (.cons hp .nil)) rfl

theorem RR.projectSum {a b a' b' : TT ℝ} (ha : SameTT a a') (hb : SameTT b b') {c c' : Option (Tensor ℝ)} (h : SameO SameT c c') :
    RR SameTT (projectSum qr a b c) (projectSum qr' a' b' c') := by
  unfold T3f.projectSum
  refine RR.bind (RR.expandBatchDim ha) fun w w' hw => ?_
  refine RR.bind (RR.projectChecks hw hb) fun _ _ _ => RR.bind (RR.tangentFrame qr qr' hb) ?_
  rintro ⟨l, r⟩ ⟨l', r'⟩ ⟨hl, hr⟩
  have hl' : SameTT l l' := hl
  have hr' : SameTT r r' := hr
  dsimp only
  rw [hb.modeLabels, hb.ndims, hb.raw, hw.lazyBatchSize, h.sumOutBatch]
  refine RR.bind (RR.refl _) ?_
  rintro n _ rfl
  refine RR.bind (RR.projectRhs _ hw hr' _ _) fun rh rh' hrh => RR.bind (RR.projectLhs _ hw hl' _ _) fun lh lh' hlh => ?_
  refine RR.bind (RR.mapRange (r := SameT) rfl fun k => RR.bind (RR.pyGet hw.cores k) fun wc wc' hwc => RR.bind (RR.pyGet hl'.cores k) fun lc lc' hlc =>
    RR.bind (RR.pyGet hr'.cores k) fun rc rc' hrc => ?_) fun x y hxy => RR.mkTangent _ hxy rfl
  rw [hb.left, hb.right, hb.zeroBlockShape hl' hr']
  exact RR.bind (RR.projectSumBlock _ h hlh hrh _ _ hwc hlc) fun p p' hp => RR.bind (RR.extendCore hb.isMatrix _ hlc) fun e e' he =>
    RR.bind (RR.extendCore hb.isMatrix _ hrc) fun f f' hf => RR.tangentCore _ _ _ _ rfl he hf hp

theorem RR.projectMatBlock {lhs rhs lhs' rhs' : List (Tensor ℝ)} (hl : SameL lhs lhs') (hr : SameL rhs rhs') (d k : ℕ) {w w' l l' m m' : Tensor ℝ}
    (hw : SameT w w') (hc : SameT l l') (hm : SameT m m') : RR SameT (projectMatBlock lhs rhs d k w l m) (projectMatBlock lhs' rhs' d k w' l' m') := by
  unfold T3f.projectMatBlock
  rr

theorem RR.projectMatmul {a b c a' b' c' : TT ℝ} (ha : SameTT a a') (hb : SameTT b b') (hc : SameTT c c') : RR SameTT (projectMatmul qr a b c) (projectMatmul qr' a' b' c') := by
  unfold T3f.projectMatmul
  refine RR.bind (RR.projectChecks ha hb) fun _ _ _ => RR.bind (RR.tangentFrame qr qr' hb) ?_
  rintro ⟨l, r⟩ ⟨l', r'⟩ ⟨hl, hr⟩
  have hl' : SameTT l l' := hl
  have hr' : SameTT r r' := hr
  dsimp only
  rw [hb.ndims, hb.raw, ha.lazyBatchSize]
  refine RR.bind (RR.refl _) ?_
  rintro n _ rfl
  refine RR.bind (RR.expandBatchDim ha) fun w w' hw => ?_
  refine RR.bind (RR.forRange (r := SameL) (fun i s s' hs => ?_) _ _ _ _ (forall₂_set (r := SameT) (forall₂_replicate (r := SameT) rfl _) rfl _)) fun rh rh' hrh => ?_
  · unfold rhsMatStep
    rr
  refine RR.bind (RR.forRange (r := SameL) (fun i s s' hs => ?_) _ _ _ _ (forall₂_set (r := SameT) (forall₂_replicate (r := SameT) rfl _) rfl _)) fun lh lh' hlh => ?_
  · unfold lhsMatStep
    rr
  refine RR.bind (RR.mapRange (r := SameT) rfl fun k => RR.bind (RR.pyGet hw.cores k) fun wc wc' hwc => RR.bind (RR.pyGet hc.cores k) fun mc mc' hmc =>
    RR.bind (RR.pyGet hl'.cores k) fun lc lc' hlc => RR.bind (RR.pyGet hr'.cores k) fun rc rc' hrc => ?_) fun x y hxy => ?_
  · rw [ha.batch, ha.left, ha.right, hl'.ranks, hr'.ranks]
    exact RR.bind (RR.projectMatBlock hlh hrh _ _ hwc hlc hmc) fun p p' hp => RR.bind (RR.extendCore Iff.rfl _ hlc) fun e e' he =>
      RR.bind (RR.extendCore Iff.rfl _ hrc) fun f f' hf => RR.tangentCore _ _ _ _ rfl he hf hp
  · rw [ha.batch]
    exact RR.mkTangent _ hxy rfl

end

end T3f
