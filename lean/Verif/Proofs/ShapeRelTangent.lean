import Verif.Proofs.ShapeRelMore

/-!
# Two runs of the functions on tangent spaces, of the initializers and of the determinants on data of equal shapes
-/

namespace T3f

/-! ## Tangent vectors -/

/-- Related objects with the same `projection_on`. -/
structure SameProj (u v : Projected) : Prop where
  tt : SameTT u.tt v.tt
  on : u.on = v.on

theorem RR.pairSlices {a b a' b' : TT ℝ} (ha : SameTT a a') (hb : SameTT b b') (l r : Ix) (k : ℕ) : RR SameT (pairSlices a b l r k) (pairSlices a' b' l r k) := by
  unfold T3f.pairSlices rankSlice
  rw [ha.modeLabels]
  rr_norm ha
  rr

macro_rules
  | `(tactic| rr_leaf) => `(tactic| ((with_reducible apply RR.pairSlices) <;> rr_side))

theorem RR.pairwiseProjected {u v u' v' : Projected} (hu : SameProj u u') (hv : SameProj v v') : RR SameT (pairwiseProjected u v) (pairwiseProjected u' v') := by
  unfold T3f.pairwiseProjected
  rw [hu.on, hv.on]
  refine RR.bind (RR.refl _) fun _ _ _ => RR.bind (RR.refl _) fun _ _ _ => ?_
  refine RR.bind (RR.expandBatchDim hu.tt) fun a b hab => RR.bind (RR.expandBatchDim hv.tt) fun c d hcd => ?_
  rr_norm hab
  rr

theorem RR.sliceCore (axL axR : ℕ) (l r : Ix) {x y : Tensor ℝ} (h : SameT x y) : RR SameT (sliceCore axL axR l r x) (sliceCore axL axR l r y) := by
  unfold T3f.sliceCore
  exact RR.getItem h (by rw [show x.shape = y.shape from h])

theorem RR.coefTensor {t u : TT ℝ} (h : SameTT t u) {x y : Tensor ℝ} (hx : SameT x y) : RR SameT (coefTensor t x) (coefTensor u y) := by
  have hs : x.shape = y.shape := hx
  unfold T3f.coefTensor
  rw [hs]
  split
  · rr
  · exact hx

theorem RR.prepareCoef {t u : TT ℝ} (h : SameTT t u) {c c' : Option (Tensor ℝ)} (hc : SameO SameT c c') : RR (SameO SameT) (prepareCoef t c) (prepareCoef u c') := by
  match c, c', hc with
  | none, none, _ => exact trivial
  | some c, some c', hc => exact RR.map (RR.coefTensor h hc) fun _ _ hab => hab

theorem RR.weighSlice {c c' : Option (Tensor ℝ)} (hc : SameO SameT c c') (i : ℕ) {x y : Tensor ℝ} (h : SameT x y) : RR SameT (weighSlice c i x) (weighSlice c' i y) := by
  match c, c', hc with
  | none, none, _ => exact h
  | some c, some c', hc => exact RR.bind (RR.getItem hc rfl) fun a b hab => RR.binop h hab

theorem RR.addNTensors {l m : List (Tensor ℝ)} (h : SameL l m) : RR SameT (addNTensors l) (addNTensors m) := by
  cases h with
  | nil => exact rfl
  | cons h1 h2 =>
    refine RR.ite ?_ (fun _ => h1) fun _ => rfl
    rename_i a b l m
    have e : l.map (·.shape) = m.map (·.shape) := SameL.shapes h2
    have e1 : a.shape = b.shape := h1
    rw [e1]
    have key : ∀ (l : List (Tensor ℝ)), (∀ c ∈ l, c.shape = b.shape) ↔ ∀ s ∈ l.map (·.shape), s = b.shape := by
      intro l
      simp
    rw [key, key, e]

theorem RR.sumSlices (axL axR : ℕ) (l r : Ix) {c c' : Option (Tensor ℝ)} (hc : SameO SameT c c') {ts us : List (TT ℝ)} (h : List.Forall₂ SameTT ts us) (k : ℕ) :
    RR SameT (sumSlices axL axR l r c ts k) (sumSlices axL axR l r c' us k) := by
  unfold T3f.sumSlices
  rw [h.length_eq]
  exact RR.bind (RR.mapRange (r := SameT) rfl fun i => RR.bind (RR.pyGet h i) fun a b hab => RR.bind (RR.pyGet hab.cores k) fun x y hxy =>
    RR.bind (RR.sliceCore _ _ _ _ hxy) fun x y hxy => RR.weighSlice hc i hxy) fun x y hxy => RR.addNTensors hxy

macro_rules
  | `(tactic| rr_leaf) => `(tactic| first
    | ((with_reducible apply RR.sliceCore) <;> rr_side)
    | ((with_reducible apply RR.sumSlices) <;> rr_side))

theorem RR.addProjectedCore (axL axR d : ℕ) (ranks : List ℕ) {c c' : Option (Tensor ℝ)} (hc : SameO SameT c c') {ts us : List (TT ℝ)} (h : List.Forall₂ SameTT ts us)
    {f f' l l' : TT ℝ} (hf : SameTT f f') (hl : SameTT l l') (k : ℕ) :
    RR SameT (addProjectedCore axL axR d ranks c ts f l k) (addProjectedCore axL axR d ranks c' us f' l' k) := by
  unfold T3f.addProjectedCore
  rr

theorem RR.addNProjected {us vs : List Projected} (h : List.Forall₂ SameProj us vs) {c c' : Option (Tensor ℝ)} (hc : SameO SameT c c') :
    RR SameProj (addNProjected us c) (addNProjected vs c') := by
  have key : ∀ (p : Option ℕ → Prop) {us vs : List Projected}, List.Forall₂ SameProj us vs → ((∀ t ∈ us, p t.on) ↔ ∀ t ∈ vs, p t.on) := by
    intro p us vs h
    induction h with
    | nil => simp
    | cons h1 _ ih => simp only [List.forall_mem_cons, ih, h1.on]
  have ht : List.Forall₂ SameTT (us.map (·.tt)) (vs.map (·.tt)) := by
    clear hc
    induction h with
    | nil => exact .nil
    | cons h1 _ ih => exact .cons h1.tt ih
  unfold T3f.addNProjected
  refine RR.bind (RR.require (key (fun o => o.isSome) h) _) fun _ _ _ => ?_
  refine RR.bind (RR.pyGet h 0) fun a b hab => ?_
  refine RR.bind (RR.require (by rw [hab.on]; exact key (fun o => o = b.on) h) _) fun _ _ _ => ?_
  have hab' := hab.tt
  rr_norm hab'
  refine RR.bind (RR.prepareCoef hab' hc) fun x y hxy => RR.bind (RR.pyLast h) fun l l' hl => ?_
  refine RR.bind (RR.mapRange (r := SameT) rfl fun k => RR.addProjectedCore _ _ _ _ hxy ht hab' hl.tt k) fun cs ds hcs => ?_
  exact RR.bind (RR.mkLike hcs rfl rfl rfl) fun y z hyz => ⟨hyz, hab.on⟩

theorem RR.deltaCore {t u : TT ℝ} (h : SameTT t u) (k : ℕ) : RR SameT (deltaCore t k) (deltaCore u k) := by
  unfold T3f.deltaCore
  rr_norm h
  rr

theorem RR.tangentSpaceToDeltas {u v : Projected} (h : SameProj u v) : RR SameL (tangentSpaceToDeltas u) (tangentSpaceToDeltas v) := by
  have h' := h.tt
  unfold T3f.tangentSpaceToDeltas
  rw [h.on]
  rr_norm h'
  refine RR.bind (RR.refl _) fun _ _ _ => RR.bind (RR.refl _) fun _ _ _ => RR.mapRange rfl fun k => RR.deltaCore h' k

theorem RR.frameOr (qr qr' : QRRoutine) {t u : TT ℝ} (h : SameTT t u) (b : Bool) {o o' : Option (TT ℝ)} (ho : SameO SameTT o o') :
    RR SameTT (frameOr qr t b o) (frameOr qr' u b o') := by
  match o, o', ho with
  | none, none, _ => exact RR.orthogonalize qr qr' h b
  | some _, some _, h => exact h

theorem SameTT.deltaZeroShape {t u l l' : TT ℝ} (h : SameTT t u) (hl : SameTT l l') (bs : Option ℕ) (i : ℕ) : deltaZeroShape t l bs i = deltaZeroShape u l' bs i := by
  unfold T3f.deltaZeroShape
  rr_norm h
  rr_norm hl

theorem RR.tileCore (bs : Option ℕ) {x y : Tensor ℝ} (h : SameT x y) (n : ℕ) : RR SameT (tileCore bs x n) (tileCore bs y n) := by
  unfold T3f.tileCore
  cases bs with
  | none => exact h
  | some b => dsimp only; rr

theorem RR.deltaTangentCore {ds es : List (Tensor ℝ)} (hd : SameL ds es) {t u l l' r r' : TT ℝ} (h : SameTT t u) (hl : SameTT l l') (hr : SameTT r r') (bs : Option ℕ) (i : ℕ) :
    RR SameT (deltaTangentCore ds t l r bs i) (deltaTangentCore es u l' r' bs i) := by
  unfold T3f.deltaTangentCore
  refine RR.bind (RR.pyGet hl.cores i) fun a b hab => RR.bind (RR.pyGet hr.cores i) fun c d hcd => ?_
  rw [show a.shape = b.shape from hab, hl.left, hl.right, h.ndims, h.deltaZeroShape hl]
  exact RR.bind (RR.tileCore _ hab _) fun a b hab => RR.bind (RR.tileCore _ hcd _) fun c d hcd => RR.bind (RR.pyGet hd i) fun x y hxy =>
    RR.tangentCore _ _ _ _ rfl hab hcd hxy

theorem RR.deltasToTangent (qr qr' : QRRoutine) {ds es : List (Tensor ℝ)} (hd : SameL ds es) {t u : TT ℝ} (h : SameTT t u) {l l' r r' : Option (TT ℝ)}
    (hl : SameO SameTT l l') (hr : SameO SameTT r r') : RR SameTT (deltasToTangent qr ds t l r) (deltasToTangent qr' es u l' r') := by
  unfold T3f.deltasToTangent
  refine RR.bind (RR.frameOr qr qr' h true hl) fun a b hab => RR.bind (RR.frameOr qr qr' hab false hr) fun c d hcd => ?_
  refine RR.bind (RR.pyGet hd 0) fun x y hxy => RR.bind (RR.pyGet h.cores 0) fun z w hzw => ?_
  rw [show x.shape = y.shape from hxy, show z.shape = w.shape from hzw, h.ndims]
  refine RR.bind (RR.mapRange (r := SameT) rfl fun k => RR.deltaTangentCore hd h hab hcd _ k) fun cs ds hcs => ?_
  unfold mkFromCores
  split
  · exact RR.mkBatch hcs rfl rfl rfl
  · exact RR.mkTT hcs rfl rfl

/-! ## Initializers -/

section
variable {K L : Type}

theorem RR.fillCores {g : ℕ → List ℕ → Tensor K} {g' : ℕ → List ℕ → Tensor L} (hg : ∀ i s, SameT (g i s) (g' i s)) (pre : List ℕ) (rows : List (List ℕ)) (rk : List ℕ)
    (d : ℕ) : RR SameL (fillCores g pre rows rk d) (fillCores g' pre rows rk d) := by
  unfold T3f.fillCores
  refine RR.mapRange (r := SameT) rfl fun i => ?_
  refine RR.bind (RR.refl _) ?_
  rintro a _ rfl
  refine RR.bind (RR.refl _) ?_
  rintro b _ rfl
  refine RR.bind (RR.refl _) ?_
  rintro c _ rfl
  exact hg _ _

theorem RR.tensorConst {g : List ℕ → Tensor K} {g' : List ℕ → Tensor L} (hg : ∀ s, SameT (g s) (g' s)) (shape : List ℤ) :
    RR SameTT (tensorConst g shape) (tensorConst g' shape) := by
  unfold T3f.tensorConst
  exact RR.bind (RR.refl _) fun _ _ _ => RR.bind (RR.fillCores (fun _ => hg) _ _ _ _) fun a b hab => RR.mkTT hab rfl rfl

theorem RR.matrixConst {g : List ℕ → Tensor K} {g' : List ℕ → Tensor L} (hg : ∀ s, SameT (g s) (g' s)) (a b : Option (List ℤ)) :
    RR SameTT (matrixConst g a b) (matrixConst g' a b) := by
  unfold T3f.matrixConst
  refine RR.bind (RR.refl _) ?_
  rintro ⟨a, b⟩ _ rfl
  exact RR.bind (RR.refl _) fun _ _ _ => RR.bind (RR.fillCores (fun _ => hg) _ _ _ _) fun a b hab => RR.mkTT hab rfl rfl

theorem RR.eye [CommRing K] [CommRing L] (shape : List ℤ) : RR SameTT (eye shape : R (TT K)) (eye shape : R (TT L)) := by
  unfold T3f.eye
  refine RR.bind (RR.refl _) fun _ _ _ => RR.bind (RR.mapRange (r := SameT) rfl fun i => ?_) fun a b hab => RR.mkTT hab rfl rfl
  refine RR.bind (RR.refl _) ?_
  rintro n _ rfl
  exact RR.reshape (show SameT (eyeT n : Tensor K) (eyeT n : Tensor L) from rfl) rfl

theorem RR.constLike {g : List ℕ → Tensor K} {g' : List ℕ → Tensor L} (hg : ∀ s, SameT (g s) (g' s)) {t : TT K} {u : TT L} (h : SameTT t u) :
    RR SameTT (constLike g t) (constLike g' u) := by
  unfold T3f.constLike
  rr_norm h
  refine RR.bind (RR.refl _) ?_
  rintro n _ rfl
  refine RR.ite Iff.rfl (fun _ => ?_) fun _ => RR.tensorConst hg _
  refine RR.bind (RR.refl _) ?_
  rintro n _ rfl
  exact RR.matrixConst hg _ _

theorem randomNormal_same (m s m' s' : ℝ) (z z' : List ℕ → ℝ) (sh : List ℕ) : SameT (randomNormal m s z sh) (randomNormal m' s' z' sh) := rfl

variable (z z' : ℕ → List ℕ → ℝ)

theorem RR.tensorWithRandomCores (shape : List ℤ) (rank : RankArg) (m s m' s' : ℝ) :
    RR SameTT (tensorWithRandomCores z shape rank m s) (tensorWithRandomCores z' shape rank m' s') := by
  unfold T3f.tensorWithRandomCores
  refine RR.bind (RR.refl _) fun _ _ _ => RR.bind (RR.refl _) ?_
  rintro rk _ rfl
  exact RR.bind (RR.fillCores (fun _ _ => randomNormal_same _ _ _ _ _ _ _) _ _ _ _) fun a b hab => RR.mkTT hab rfl rfl

theorem RR.tensorBatchWithRandomCores (shape : List ℤ) (rank : RankArg) (bs : ℤ) (m s m' s' : ℝ) :
    RR SameTT (tensorBatchWithRandomCores z shape rank bs m s) (tensorBatchWithRandomCores z' shape rank bs m' s') := by
  unfold T3f.tensorBatchWithRandomCores
  refine RR.bind (RR.refl _) fun _ _ _ => RR.bind (RR.refl _) ?_
  rintro rk _ rfl
  exact RR.bind (RR.fillCores (fun _ _ => randomNormal_same _ _ _ _ _ _ _) _ _ _ _) fun a b hab => RR.mkBatch hab rfl rfl rfl

theorem RR.matrixWithRandomCores (a b : Option (List ℤ)) (rank : RankArg) (m s m' s' : ℝ) :
    RR SameTT (matrixWithRandomCores z a b rank m s) (matrixWithRandomCores z' a b rank m' s') := by
  unfold T3f.matrixWithRandomCores
  refine RR.bind (RR.refl _) ?_
  rintro ⟨a, b⟩ _ rfl
  refine RR.bind (RR.refl _) fun _ _ _ => RR.bind (RR.refl _) ?_
  rintro rk _ rfl
  exact RR.bind (RR.fillCores (fun _ _ => randomNormal_same _ _ _ _ _ _ _) _ _ _ _) fun a b hab => RR.mkTT hab rfl rfl

theorem RR.matrixBatchWithRandomCores (a b : Option (List ℤ)) (rank : RankArg) (bs : ℤ) (m s m' s' : ℝ) :
    RR SameTT (matrixBatchWithRandomCores z a b rank bs m s) (matrixBatchWithRandomCores z' a b rank bs m' s') := by
  unfold T3f.matrixBatchWithRandomCores
  refine RR.bind (RR.refl _) ?_
  rintro ⟨a, b⟩ _ rfl
  refine RR.bind (RR.refl _) fun _ _ _ => RR.bind (RR.refl _) ?_
  rintro rk _ rfl
  exact RR.bind (RR.fillCores (fun _ _ => randomNormal_same _ _ _ _ _ _ _) _ _ _ _) fun a b hab => RR.mkBatch hab rfl rfl rfl

theorem RR.checkMean (mean : ℝ) {t u : TT K} (h : SameTT t u) : RR SameTT (checkMean mean t) (checkMean mean u) := by
  unfold T3f.checkMean
  exact RR.ite Iff.rfl (fun _ => h) fun _ => rfl

theorem RR.randomTensor (shape : List ℤ) (rank : RankArg) (mean s s' : ℝ) : RR SameTT (randomTensor z shape rank mean s) (randomTensor z' shape rank mean s') := by
  unfold T3f.randomTensor
  refine RR.bind (RR.refl _) fun _ _ _ => RR.bind (RR.refl _) ?_
  rintro rk _ rfl
  exact RR.bind (RR.tensorWithRandomCores _ _ _ _ _ _ _ _) fun a b hab => RR.checkMean mean hab

theorem RR.randomTensorBatch (shape : List ℤ) (rank : RankArg) (bs : ℤ) (mean s s' : ℝ) :
    RR SameTT (randomTensorBatch z shape rank bs mean s) (randomTensorBatch z' shape rank bs mean s') := by
  unfold T3f.randomTensorBatch
  refine RR.bind (RR.refl _) fun _ _ _ => RR.bind (RR.refl _) ?_
  rintro rk _ rfl
  exact RR.bind (RR.tensorBatchWithRandomCores _ _ _ _ _ _ _ _ _) fun a b hab => RR.checkMean mean hab

theorem RR.randomMatrix (a b : Option (List ℤ)) (rank : RankArg) (mean s s' : ℝ) : RR SameTT (randomMatrix z a b rank mean s) (randomMatrix z' a b rank mean s') := by
  unfold T3f.randomMatrix
  refine RR.bind (RR.refl _) ?_
  rintro ⟨a, b⟩ _ rfl
  refine RR.bind (RR.refl _) fun _ _ _ => RR.bind (RR.refl _) ?_
  rintro rk _ rfl
  exact RR.bind (RR.matrixWithRandomCores _ _ _ _ _ _ _ _ _) fun a b hab => RR.checkMean mean hab

theorem RR.randomMatrixBatch (a b : Option (List ℤ)) (rank : RankArg) (bs : ℤ) (mean s s' : ℝ) :
    RR SameTT (randomMatrixBatch z a b rank bs mean s) (randomMatrixBatch z' a b rank bs mean s') := by
  unfold T3f.randomMatrixBatch
  refine RR.bind (RR.refl _) ?_
  rintro ⟨a, b⟩ _ rfl
  refine RR.bind (RR.refl _) fun _ _ _ => RR.bind (RR.refl _) ?_
  rintro rk _ rfl
  exact RR.bind (RR.matrixBatchWithRandomCores _ _ _ _ _ _ _ _ _ _) fun a b hab => RR.checkMean mean hab

theorem RR.nnInitializer (f : ℤ → ℤ → ℝ) (a b : Option (List ℤ)) (rank : RankArg) : RR SameTT (nnInitializer f z a b rank) (nnInitializer f z' a b rank) := by
  unfold T3f.nnInitializer
  refine RR.bind (RR.refl _) ?_
  rintro ⟨a, b⟩ _ rfl
  exact RR.bind (RR.refl _) fun _ _ _ => RR.randomMatrix _ _ _ _ _ _ _ _

/-! ## Determinants -/

theorem SameTT.kronCheck {t : TT K} {u : TT L} (h : SameTT t u) : kronCheck t = kronCheck u := by
  unfold T3f.kronCheck isKron
  rr_norm h

theorem RR.kronCore {t : TT K} {u : TT L} (h : SameTT t u) (k : ℕ) : RR SameT (kronCore t k) (kronCore u k) := by
  unfold T3f.kronCore
  rr_norm h
  rr

macro_rules
  | `(tactic| rr_leaf) => `(tactic| ((with_reducible apply RR.kronCore) <;> rr_side))

theorem RR.kronDeterminant {t u : TT ℝ} (h : SameTT t u) : RR SameT (kronDeterminant t) (kronDeterminant u) := by
  unfold T3f.kronDeterminant
  rw [h.kronCheck, h.ndims]
  rr

theorem RR.kronSlogDeterminant {t u : TT ℝ} (h : SameTT t u) : RR (SameP SameT SameT) (kronSlogDeterminant t) (kronSlogDeterminant u) := by
  unfold T3f.kronSlogDeterminant
  rw [h.kronCheck, h.ndims]
  refine RR.bind (RR.refl _) ?_
  rintro is _ rfl
  refine RR.forRange (fun i s s' hs => ?_) _ _ _ _ ⟨rfl, rfl⟩
  obtain ⟨x, y⟩ := s
  obtain ⟨x', y'⟩ := s'
  obtain ⟨hx, hy⟩ := hs
  have hx' : SameT x x' := hx
  have hy' : SameT y y' := hy
  dsimp only
  rr

end

end T3f
