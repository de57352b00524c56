import Verif.Proofs.ShapeRelTangent
import Verif.Spec.SameMeta

/-!
# Two runs of a program on values that differ in their elements only
-/

namespace T3f

theorem SameL.of_shapes {K L : Type} : ∀ {a : List (Tensor K)} {b : List (Tensor L)}, a.map (·.shape) = b.map (·.shape) → SameL a b
  | [], [], _ => .nil
  | [], _ :: _, h => by simp at h
  | _ :: _, [], h => by simp at h
  | x :: a, y :: b, h => by
    rw [List.map_cons, List.map_cons, List.cons.injEq] at h
    exact .cons h.1 (SameL.of_shapes h.2)

theorem SameProj.val {u v : Projected} (h : SameProj u v) : PyVal.SameMeta (.tt u.tt u.on) (.tt v.tt v.on) :=
  ⟨h.tt.raw, h.tt.ranks, h.tt.batch, SameL.shapes h.tt.cores, h.on⟩

theorem SameTT.val {t u : TT ℝ} (h : SameTT t u) (on : Option ℕ) : PyVal.SameMeta (.tt t on) (.tt u on) :=
  ⟨h.raw, h.ranks, h.batch, SameL.shapes h.cores, rfl⟩

section
variable {env env' : List PyVal} (h : List.Forall₂ PyVal.SameMeta env env')

include h in
theorem forall₂_getElem? (a : ℕ) : SameO PyVal.SameMeta env[a]? env'[a]? := by
  induction h generalizing a with
  | nil => exact trivial
  | cons h1 _ ih => cases a with
    | zero => exact h1
    | succ a => exact ih a

include h in
theorem RR.getProjected (a : ℕ) : RR SameProj (getProjected env a) (getProjected env' a) := by
  have h1 := forall₂_getElem? h a
  unfold T3f.getProjected
  match env[a]?, env'[a]?, h1 with
  | none, none, _ => exact rfl
  | some (.tt t on), some (.tt u on'), h => exact ⟨⟨SameL.of_shapes h.2.2.2.1, h.1, h.2.1, h.2.2.1⟩, h.2.2.2.2⟩
  | some (.tensor _), some (.tensor _), _ => exact rfl
  | some (.log _), some (.log _), _ => exact rfl
  | some (.num _), some (.num _), _ => exact rfl

include h in
theorem RR.getTT (a : ℕ) : RR SameTT (getTT env a) (getTT env' a) := by
  have h1 := forall₂_getElem? h a
  unfold T3f.getTT
  match env[a]?, env'[a]?, h1 with
  | none, none, _ => exact rfl
  | some (.tt t on), some (.tt u on'), h => exact ⟨SameL.of_shapes h.2.2.2.1, h.1, h.2.1, h.2.2.1⟩
  | some (.tensor _), some (.tensor _), _ => exact rfl
  | some (.log _), some (.log _), _ => exact rfl
  | some (.num _), some (.num _), _ => exact rfl

include h in
theorem RR.getTensor (a : ℕ) : RR SameT (getTensor env a) (getTensor env' a) := by
  have h1 := forall₂_getElem? h a
  unfold T3f.getTensor
  match env[a]?, env'[a]?, h1 with
  | none, none, _ => exact rfl
  | some (.tt t on), some (.tt u on'), h => exact rfl
  | some (.tensor _), some (.tensor _), h => exact h
  | some (.log _), some (.log _), _ => exact rfl
  | some (.num _), some (.num _), _ => exact rfl

include h in
theorem RR.getNum (a : ℕ) : RR (fun _ _ => True) (getNum env a) (getNum env' a) := by
  have h1 := forall₂_getElem? h a
  unfold T3f.getNum
  match env[a]?, env'[a]?, h1 with
  | none, none, _ => exact rfl
  | some (.tt t on), some (.tt u on'), h => exact rfl
  | some (.tensor _), some (.tensor _), h => exact rfl
  | some (.log _), some (.log _), _ => exact rfl
  | some (.num _), some (.num _), _ => exact trivial

end

theorem RR.getOpt {α β : Type} {r : α → β → Prop} {f : ℕ → R α} {g : ℕ → R β} (h : ∀ a, RR r (f a) (g a)) (o : Option ℕ) : RR (SameO r) (getOpt f o) (getOpt g o) := by
  cases o with
  | none => exact trivial
  | some a => exact RR.map (h a) fun _ _ hab => hab

theorem RR.args {α β : Type} {r : α → β → Prop} {f : ℕ → R α} {g : ℕ → R β} (h : ∀ a, RR r (f a) (g a)) (l : List ℕ) : RR (List.Forall₂ r) (l.mapM f) (l.mapM g) :=
  RR.mapM (q := Eq) (fun i _ hij => hij ▸ h i) (forall₂_refl l)

theorem RR.retTT {x y : R (TT ℝ)} (h : RR SameTT x y) : RR (List.Forall₂ PyVal.SameMeta) (retTT x) (retTT y) :=
  RR.bind h fun _ _ hab => List.Forall₂.cons (hab.val none) .nil

theorem RR.retTensor {x y : R (Tensor ℝ)} (h : RR SameT x y) : RR (List.Forall₂ PyVal.SameMeta) (retTensor x) (retTensor y) :=
  RR.bind h fun a b hab => List.Forall₂.cons (show PyVal.SameMeta (.tensor a) (.tensor b) from hab) .nil

theorem RR.retOn (w : ℕ) {x y : R (TT ℝ)} (h : RR SameTT x y) : RR (List.Forall₂ PyVal.SameMeta) (retOn w x) (retOn w y) :=
  RR.bind h fun _ _ hab => List.Forall₂.cons (hab.val (some w)) .nil

theorem RR.call (qr qr' : QRRoutine) (svd svd' : SVDRoutine) (z z' : ℕ → List ℕ → ℝ) {env env' : List PyVal} (h : List.Forall₂ PyVal.SameMeta env env') (c : PyCall)
    (hc : ¬ c.factors) : RR (List.Forall₂ PyVal.SameMeta) (c.run qr svd z env) (c.run qr' svd' z' env') := by
  have ht := fun a => RR.getTT h a
  have hp := fun a => RR.getProjected h a
  have hx := fun a => RR.getTensor h a
  cases c with
  | newTT cores shape ranks => exact RR.bind (RR.args hx cores) fun a b hab => RR.retTT (RR.mkTT hab rfl rfl)
  | newBatch cores shape ranks bs => exact RR.bind (RR.args hx cores) fun a b hab => RR.retTT (RR.mkBatch hab rfl rfl rfl)
  | core a k => exact RR.bind (ht a) fun _ _ h1 => RR.retTensor (RR.pyGet h1.cores k)
  | elementwise f a => exact RR.bind (hx a) fun _ _ h1 => RR.retTensor (RR.pure h1)
  | elementwise2 f a b => exact RR.bind (hx a) fun _ _ h1 => RR.bind (hx b) fun _ _ h2 => RR.retTensor (RR.binop h1 h2)
  | item a =>
    refine RR.bind (hx a) fun x y hxy => RR.bind (RR.require (by rw [show x.shape = y.shape from hxy]) _) fun _ _ _ => ?_
    exact List.Forall₂.cons (show PyVal.SameMeta (.num (x.get [])) (.num (y.get [])) from trivial) .nil
  | full a => exact RR.bind (ht a) fun _ _ h1 => RR.retTensor (RR.full h1)
  | add a b => exact RR.bind (ht a) fun _ _ h1 => RR.bind (ht b) fun _ _ h2 => RR.retTT (RR.add h1 h2)
  | sub a b => exact RR.bind (ht a) fun _ _ h1 => RR.bind (ht b) fun _ _ h2 => RR.retTT (RR.sub h1 h2)
  | neg a => exact RR.bind (ht a) fun _ _ h1 => RR.retTT (RR.neg h1)
  | multiply a b => exact RR.bind (ht a) fun _ _ h1 => RR.bind (ht b) fun _ _ h2 => RR.retTT (RR.multiply h1 h2)
  | multiplyNumber a c => exact RR.bind (ht a) fun _ _ h1 => RR.bind (RR.getNum h c) fun x y _ => RR.retTT (RR.multiplyScalar h1 x y)
  | matmul a b => exact RR.bind (ht a) fun _ _ h1 => RR.bind (ht b) fun _ _ h2 => RR.retTT (RR.ttTTMatmul h1 h2)
  | matmulDense a B => exact RR.bind (ht a) fun _ _ h1 => RR.bind (hx B) fun _ _ h2 => RR.retTensor (RR.ttDenseMatmul h1 h2)
  | denseMatmul A b => exact RR.bind (hx A) fun _ _ h1 => RR.bind (ht b) fun _ _ h2 => RR.retTensor (RR.denseTTMatmul h1 h2)
  | transpose a => exact RR.bind (ht a) fun _ _ h1 => RR.retTT (RR.ttTranspose h1)
  | flatInner a b => exact RR.bind (ht a) fun _ _ h1 => RR.bind (ht b) fun _ _ h2 => RR.retTensor (RR.flatInner h1 h2)
  | flatInnerSparse a indices values =>
    refine RR.bind (ht a) fun x y h1 => RR.bind (hx values) fun _ _ h2 => RR.retTensor ?_
    simp only [flatInnerAny]
    rw [h1.isBatch]
    exact RR.ite Iff.rfl (fun _ => rfl) fun _ => RR.bind (RR.ttSparseFlatInner h1 indices h2) fun p q _ => RR.pure (r := SameT) rfl
  | normSquared a b => exact RR.bind (ht a) fun _ _ h1 => RR.retTensor (RR.frobeniusNormSquared qr qr' h1 b)
  | norm a eps b => exact RR.bind (ht a) fun _ _ h1 => RR.retTensor (RR.frobeniusNorm qr qr' h1 eps eps b)
  | bilinearForm A b c => exact RR.bind (ht A) fun _ _ h1 => RR.bind (ht b) fun _ _ h2 => RR.bind (ht c) fun _ _ h3 => RR.retTensor (RR.bilinearForm h1 h2 h3)
  | bilinearFormTwoMat x A B y =>
    exact RR.bind (ht x) fun _ _ h1 => RR.bind (ht A) fun _ _ h2 => RR.bind (ht B) fun _ _ h3 => RR.bind (ht y) fun _ _ h4 =>
      RR.retTensor (RR.bilinearFormTwoMat h1 h2 h3 h4)
  | cast f a => exact RR.bind (ht a) fun _ _ h1 => RR.retTT (RR.ttCast f f h1)
  | gatherNd a indices => exact RR.bind (ht a) fun _ _ h1 => RR.retTensor (RR.ttGatherNd h1 indices)
  | renormalize a eps => exact RR.bind (ht a) fun _ _ h1 => RR.retTT (RR.renormalize h1 eps eps)
  | getItem a spec => exact RR.bind (ht a) fun _ _ h1 => RR.retTT (RR.ttGetItem h1 spec)
  | batchGetItem a b0 spec => exact RR.bind (ht a) fun _ _ h1 => RR.retTT (RR.batchGetItem h1 b0 spec)
  | expand a =>
    refine RR.bind (hp a) fun x y h1 => RR.bind (RR.expandBatchDim h1.tt) fun u v h2 => ?_
    rw [h1.tt.isBatch, h1.on]
    exact List.Forall₂.cons (h2.val _) .nil
  | squeeze a =>
    refine RR.bind (hp a) fun x y h1 => RR.bind (RR.squeezeBatchDim h1.tt) fun u v h2 => ?_
    rw [h1.tt.batch, h1.on]
    exact List.Forall₂.cons (h2.val _) .nil
  | concatBatch as => exact RR.bind (RR.args ht as) fun _ _ h1 => RR.retTT (RR.concatAlongBatchDim h1)
  | multiplyBatch a w => exact RR.bind (ht a) fun _ _ h1 => RR.bind (hx w) fun _ _ h2 => RR.retTT (RR.multiplyAlongBatchDim h1 h2)
  | gram a => exact RR.bind (ht a) fun _ _ h1 => RR.retTensor (RR.pairwiseFlatInner h1 h1)
  | pairwise a b => exact RR.bind (ht a) fun _ _ h1 => RR.bind (ht b) fun _ _ h2 => RR.retTensor (RR.pairwiseFlatInner h1 h2)
  | pairwiseMatrix a b M =>
    exact RR.bind (ht a) fun _ _ h1 => RR.bind (ht b) fun _ _ h2 => RR.bind (ht M) fun _ _ h3 => RR.retTensor (RR.pairwiseFlatInnerMatrix h1 h2 h3)
  | tensorOnes shape => exact RR.retTT (RR.tensorConst (fun _ => rfl) shape)
  | tensorZeros shape => exact RR.retTT (RR.tensorConst (fun _ => rfl) shape)
  | matrixOnes a b => exact RR.retTT (RR.matrixConst (fun _ => rfl) a b)
  | matrixZeros a b => exact RR.retTT (RR.matrixConst (fun _ => rfl) a b)
  | eye shape => exact RR.retTT (RR.eye shape)
  | onesLike a => exact RR.bind (ht a) fun _ _ h1 => RR.retTT (RR.constLike (fun _ => rfl) h1)
  | zerosLike a => exact RR.bind (ht a) fun _ _ h1 => RR.retTT (RR.constLike (fun _ => rfl) h1)
  | tensorRandomCores shape rank mean stddev => exact RR.retTT (RR.tensorWithRandomCores z z' shape rank mean stddev mean stddev)
  | tensorBatchRandomCores shape rank bs mean stddev => exact RR.retTT (RR.tensorBatchWithRandomCores z z' shape rank bs mean stddev mean stddev)
  | matrixRandomCores a b rank mean stddev => exact RR.retTT (RR.matrixWithRandomCores z z' a b rank mean stddev mean stddev)
  | matrixBatchRandomCores a b rank bs mean stddev => exact RR.retTT (RR.matrixBatchWithRandomCores z z' a b rank bs mean stddev mean stddev)
  | randomTensor shape rank mean stddev => exact RR.retTT (RR.randomTensor z z' shape rank mean stddev stddev)
  | randomTensorBatch shape rank bs mean stddev => exact RR.retTT (RR.randomTensorBatch z z' shape rank bs mean stddev stddev)
  | randomMatrix a b rank mean stddev => exact RR.retTT (RR.randomMatrix z z' a b rank mean stddev stddev)
  | randomMatrixBatch a b rank bs mean stddev => exact RR.retTT (RR.randomMatrixBatch z z' a b rank bs mean stddev stddev)
  | glorot a b rank => exact RR.retTT (RR.nnInitializer z z' _ a b rank)
  | he a b rank => exact RR.retTT (RR.nnInitializer z z' _ a b rank)
  | lecun a b rank => exact RR.retTT (RR.nnInitializer z z' _ a b rank)
  | orthogonalize a b => exact RR.bind (ht a) fun _ _ h1 => RR.retTT (RR.orthogonalize qr qr' h1 b)
  | round a m e => exact RR.bind (ht a) fun _ _ h1 => RR.retTT (RR.ttRound qr qr' svd svd' h1 m e)
  | toTTTensor a m e => exact RR.bind (hx a) fun _ _ h1 => RR.retTT (RR.toTTTensor svd svd' h1 m e)
  | toTTMatrix a rows cols m e => exact RR.bind (hx a) fun _ _ h1 => RR.retTT (RR.toTTMatrix svd svd' h1 rows cols m e)
  | addN as m => exact RR.bind (RR.args ht as) fun _ _ h1 => RR.retTT (RR.addN qr qr' svd svd' h1 m)
  | reduceSumBatch a m coef =>
    exact RR.bind (ht a) fun _ _ h1 => RR.bind (RR.getOpt hx coef) fun _ _ h2 => RR.retTT (RR.reduceSumBatch qr qr' svd svd' h1 m h2)
  | project a whr => exact RR.bind (ht a) fun _ _ h1 => RR.bind (ht whr) fun _ _ h2 => RR.retOn whr (RR.project qr qr' h1 h2)
  | projectSum a whr weights =>
    exact RR.bind (ht a) fun _ _ h1 => RR.bind (ht whr) fun _ _ h2 => RR.bind (RR.getOpt hx weights) fun _ _ h3 => RR.retOn whr (RR.projectSum qr qr' h1 h2 h3)
  | projectMatmul a whr A =>
    exact RR.bind (ht a) fun _ _ h1 => RR.bind (ht whr) fun _ _ h2 => RR.bind (ht A) fun _ _ h3 => RR.retOn whr (RR.projectMatmul qr qr' h1 h2 h3)
  | pairwiseProjected a b => exact RR.bind (hp a) fun _ _ h1 => RR.bind (hp b) fun _ _ h2 => RR.retTensor (RR.pairwiseProjected h1 h2)
  | addNProjected as coef =>
    exact RR.bind (RR.args hp as) fun _ _ h1 => RR.bind (RR.getOpt hx coef) fun _ _ h2 => RR.bind (RR.addNProjected h1 h2) fun _ _ h3 => List.Forall₂.cons h3.val .nil
  | toDeltas a =>
    refine RR.bind (hp a) fun _ _ h1 => RR.bind (RR.tangentSpaceToDeltas h1) fun ds es h2 => RR.pure ?_
    clear h ht hp hx
    induction h2 with
    | nil => exact .nil
    | cons h3 _ ih => exact .cons h3 ih
  | fromDeltas ds a left right =>
    exact RR.bind (RR.args hx ds) fun _ _ h1 => RR.bind (ht a) fun _ _ h2 => RR.bind (RR.getOpt ht left) fun _ _ h3 => RR.bind (RR.getOpt ht right) fun _ _ h4 =>
      RR.retOn a (RR.deltasToTangent qr qr' h1 h2 h3 h4)
  | determinant a => exact RR.bind (ht a) fun _ _ h1 => RR.retTensor (RR.kronDeterminant h1)
  | slogDeterminant a =>
    refine RR.bind (ht a) fun _ _ h1 => RR.bind (RR.kronSlogDeterminant h1) ?_
    rintro ⟨x, y⟩ ⟨x', y'⟩ ⟨h2, h3⟩
    exact RR.pure (List.Forall₂.cons (show PyVal.SameMeta (.tensor x) (.tensor x') from h2) (List.Forall₂.cons (show PyVal.SameMeta (.log y) (.log y') from h3) .nil))
  | inv a => exact absurd trivial hc
  | cholesky a => exact absurd trivial hc

theorem RR.calls (qr qr' : QRRoutine) (svd svd' : SVDRoutine) (z z' : ℕ → ℕ → List ℕ → ℝ) : ∀ (p : List PyCall) {env env' : List PyVal}, (∀ c ∈ p, ¬ c.factors) →
    List.Forall₂ PyVal.SameMeta env env' → RR (List.Forall₂ PyVal.SameMeta) (runCalls qr svd z p env) (runCalls qr' svd' z' p env')
  | [], _, _, _, h => h
  | c :: p, _, _, hc, h => RR.bind (RR.call qr qr' svd svd' _ _ h c (hc c (by simp))) fun _ _ hab =>
      RR.calls qr qr' svd svd' z z' p (fun c hc' => hc c (List.mem_cons_of_mem _ hc')) (List.rel_append h hab)

end T3f
