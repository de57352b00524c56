import Verif.Model.Typed
import Verif.Proofs.RoundLast

/-!
# Objects all of whose cores have one data type

On such objects the functions with data types do what the functions without do (`tag_…`).
-/

namespace T3f.Dt

variable {K : Type}

/-- A tensor of data type `d`. -/
def tag (d : DType) (t : T3f.Tensor K) : Tensor K := ⟨d, t⟩

/-- An object of data type `d`. -/
def tagT (d : DType) (t : T3f.TT K) : TT K := ⟨t.cores.map (tag d), t.rawShape, t.ttRanks, t.batch⟩

section basics

variable {α β γ : Type}

theorem bind_map (g : α → β) (x : R α) (f : β → R γ) : ((g <$> x) >>= f) = x >>= fun a => f (g a) := by cases x <;> rfl

theorem map_bind (g : β → γ) (x : R α) (f : α → R β) : (g <$> (x >>= f)) = x >>= fun a => g <$> f a := by cases x <;> rfl

theorem map_map (g : β → γ) (f : α → β) (x : R α) : g <$> (f <$> x) = (fun a => g (f a)) <$> x := by cases x <;> rfl

theorem map_pure (g : α → β) (a : α) : g <$> (pure a : R α) = pure (g a) := rfl

theorem map_ok (g : α → β) (a : α) : g <$> (Except.ok a : R α) = Except.ok (g a) := rfl

theorem map_error (g : α → β) (e : Err) : g <$> (Except.error e : R α) = Except.error e := rfl

theorem map_throw (g : α → β) (e : Err) : g <$> (throw e : R α) = throw e := rfl

theorem pure_bind' (a : α) (f : α → R β) : ((pure a : R α) >>= f) = f a := rfl

theorem ok_bind (a : α) (f : α → R β) : ((Except.ok a : R α) >>= f) = f a := rfl

theorem bind_pure' (x : R α) : (x >>= fun a => pure a) = x := by cases x <;> rfl

theorem bind_pure_map (x : R α) (g : α → β) : (x >>= fun a => pure (g a)) = g <$> x := by cases x <;> rfl

theorem bind_congr' {x : R α} {f g : α → R β} (h : ∀ a, f a = g a) : (x >>= f) = x >>= g := by
  rw [funext h]

theorem map_ite (c : Prop) [Decidable c] (g : α → β) (x y : R α) : g <$> (if c then x else y) = if c then g <$> x else g <$> y := by
  split <;> rfl

theorem pyGet_map (g : α → β) (l : List α) (i : ℕ) : pyGet (l.map g) i = g <$> pyGet l i := by
  unfold pyGet
  rw [List.getElem?_map]
  cases l[i]? <;> rfl

theorem pyLast_map (g : α → β) (l : List α) : pyLast (l.map g) = g <$> pyLast l := by
  unfold pyLast
  rw [List.getLast?_map]
  cases l.getLast? <;> rfl

theorem mapM_map_result (g : α → β) (f : ℕ → R α) : ∀ l : List ℕ, (l.mapM fun i => g <$> f i) = List.map g <$> l.mapM f
  | [] => rfl
  | i :: l => by
    rw [List.mapM_cons, List.mapM_cons, mapM_map_result g f l]
    cases f i with
    | error e => rfl
    | ok a => cases l.mapM f <;> rfl

theorem mapRange_map (g : α → β) (n : ℕ) (f : ℕ → R α) : (mapRange n fun i => g <$> f i) = List.map g <$> mapRange n f :=
  mapM_map_result g f _

theorem mapRange_tag {g : α → β} {n : ℕ} {f : ℕ → R α} {f' : ℕ → R β} (h : ∀ i, f' i = g <$> f i) :
    mapRange n f' = List.map g <$> mapRange n f := by
  rw [funext h, mapRange_map]

theorem forRange_tag {σ τ : Type} {g : σ → τ} {f : ℕ → σ → R σ} {f' : ℕ → τ → R τ} (h : ∀ i s, f' i (g s) = g <$> f i s) :
    ∀ (n a : ℕ) (s : σ), forRange f' a n (g s) = g <$> forRange f a n s := by
  intro n
  induction n with
  | zero => intro a s; rfl
  | succ n ih =>
    intro a s
    unfold forRange
    rw [h, bind_map, map_bind]
    exact bind_congr' fun s => ih _ _

theorem forReversed_tag {σ τ : Type} {g : σ → τ} {f : ℕ → σ → R σ} {f' : ℕ → τ → R τ} (h : ∀ i s, f' i (g s) = g <$> f i s) :
    ∀ (n : ℕ) (s : σ), forReversed f' n (g s) = g <$> forReversed f n s := by
  intro n
  induction n with
  | zero => intro s; rfl
  | succ n ih =>
    intro s
    unfold forReversed
    rw [h, bind_map, map_bind]
    exact bind_congr' fun s => ih _

end basics

/-! ## Tensors -/

section tensors

variable (d : DType)

@[simp] theorem tag_dtype (t : T3f.Tensor K) : (tag d t).dtype = d := rfl
@[simp] theorem tag_val (t : T3f.Tensor K) : (tag d t).val = t := rfl

@[simp] theorem map_val_tag (l : List (T3f.Tensor K)) : (l.map (tag d)).map (·.val) = l := by
  rw [List.map_map]
  exact List.map_id l

theorem common_tag (l : List (T3f.Tensor K)) (h : l ≠ []) : common (l.map (tag d)) = Except.ok d := by
  cases l with
  | nil => exact absurd rfl h
  | cons t l =>
    unfold common
    rw [List.map_cons]
    refine if_pos ?_
    intro s hs
    obtain ⟨u, _, rfl⟩ := List.mem_map.mp hs
    rfl

theorem lift_tag (f : T3f.Tensor K → R (T3f.Tensor K)) (t : T3f.Tensor K) : lift f (tag d t) = tag d <$> f t := by
  unfold lift
  exact bind_pure_map _ _

theorem liftN_tag (f : List (T3f.Tensor K) → R (T3f.Tensor K)) (l : List (T3f.Tensor K)) (h : l ≠ []) :
    liftN f (l.map (tag d)) = tag d <$> f l := by
  unfold liftN
  rw [common_tag d l h, ok_bind, map_val_tag]
  exact bind_pure_map _ _

theorem reshape_tag (t : T3f.Tensor K) (s) : reshape (tag d t) s = tag d <$> T3f.reshape t s := lift_tag d _ t
theorem transpose_tag (t : T3f.Tensor K) (s) : transpose (tag d t) s = tag d <$> T3f.transpose t s := lift_tag d _ t
theorem expandDims_tag (t : T3f.Tensor K) (s) : expandDims (tag d t) s = tag d <$> T3f.expandDims t s := lift_tag d _ t
theorem squeezeAxis_tag (t : T3f.Tensor K) (s) : squeezeAxis (tag d t) s = tag d <$> T3f.squeezeAxis t s := lift_tag d _ t
theorem tile_tag (t : T3f.Tensor K) (s) : tile (tag d t) s = tag d <$> T3f.tile t s := lift_tag d _ t
theorem getItem_tag (t : T3f.Tensor K) (s) : getItem (tag d t) s = tag d <$> T3f.getItem t s := lift_tag d _ t
theorem squeezeAll_tag (t : T3f.Tensor K) : squeezeAll (tag d t) = tag d (T3f.squeezeAll t) := rfl
theorem zeros_tag [Zero K] (s : List ℕ) : (zeros d s : Tensor K) = tag d (T3f.zeros s) := rfl
theorem ones_tag [One K] (s : List ℕ) : (ones d s : Tensor K) = tag d (T3f.ones s) := rfl
theorem cast_tag (e : DType) (t : T3f.Tensor K) : cast e (tag d t) = tag e t := rfl
theorem concat_tag (ax : ℕ) (l : List (T3f.Tensor K)) (h : l ≠ []) : concat ax (l.map (tag d)) = tag d <$> T3f.concat ax l := liftN_tag d _ l h
theorem concat_tag2 (ax : ℕ) (a b : T3f.Tensor K) : concat ax [tag d a, tag d b] = tag d <$> T3f.concat ax [a, b] :=
  concat_tag d ax [a, b] (by simp)
theorem einsum_tag [CommSemiring K] (sp) (l : List (T3f.Tensor K)) (h : l ≠ []) : einsum sp (l.map (tag d)) = tag d <$> T3f.einsum sp l :=
  liftN_tag d _ l h
theorem einsum_tag2 [CommSemiring K] (sp) (a b : T3f.Tensor K) : einsum sp [tag d a, tag d b] = tag d <$> T3f.einsum sp [a, b] :=
  einsum_tag d sp [a, b] (by simp)
theorem einsum_tag3 [CommSemiring K] (sp) (a b c : T3f.Tensor K) :
    einsum sp [tag d a, tag d b, tag d c] = tag d <$> T3f.einsum sp [a, b, c] := einsum_tag d sp [a, b, c] (by simp)
theorem einsum_tag4 [CommSemiring K] (sp) (a b c e : T3f.Tensor K) :
    einsum sp [tag d a, tag d b, tag d c, tag d e] = tag d <$> T3f.einsum sp [a, b, c, e] := einsum_tag d sp [a, b, c, e] (by simp)

theorem pure_tag (a : T3f.Tensor K) : (pure (tag d a) : R (Tensor K)) = tag d <$> pure a := rfl

theorem common_tag2 (a b : T3f.Tensor K) : common [tag d a, tag d b] = Except.ok d := common_tag d [a, b] (by simp)

theorem matmul_tag [Semiring K] (a b : T3f.Tensor K) : matmul (tag d a) (tag d b) = tag d <$> T3f.matmul a b := by
  unfold matmul
  rw [common_tag2, ok_bind]
  exact bind_pure_map _ _

theorem binop_tag (f : K → K → K) (a b : T3f.Tensor K) : binop f (tag d a) (tag d b) = tag d <$> T3f.binop f a b := by
  unfold binop
  rw [common_tag2, ok_bind]
  exact bind_pure_map _ _

theorem smul_tag [Mul K] (c : K) (t : T3f.Tensor K) : smul d c (tag d t) = Except.ok (tag d (T3f.smul c t)) := by
  unfold smul
  rw [show (⟨d, scalar c⟩ : Tensor K) = tag d (scalar c) from rfl, common_tag2]
  rfl

theorem linalgQR_tag (qr : QRRoutine) (A : T3f.Tensor ℝ) :
    linalgQR qr (tag d A) = (fun p => (tag d p.1, tag d p.2)) <$> T3f.linalgQR qr A := by
  unfold linalgQR
  exact bind_pure_map _ _

end tensors

/-! ## Objects -/

section nonempty

theorem coresValid_nil (o : ℕ) (bs sh rk) : coresValid o bs [] sh rk = Except.error Err.index := rfl

theorem mkTT_ne_nil {cores : List (T3f.Tensor K)} {sh rk} {x : T3f.TT K} (h : T3f.mkTT cores sh rk = Except.ok x) : x.cores ≠ [] := by
  unfold T3f.mkTT at h
  simp only [bind_ok_iff] at h
  obtain ⟨s, -, b, hb, h⟩ := h
  split at h
  · cases h
    rintro rfl
    cases hb
  · cases h

theorem mkBatch_ne_nil {cores : List (T3f.Tensor K)} {sh rk bs} {x : T3f.TT K} (h : T3f.mkBatch cores sh rk bs = Except.ok x) : x.cores ≠ [] := by
  unfold T3f.mkBatch at h
  simp only [bind_ok_iff] at h
  obtain ⟨s, -, b, hb, h⟩ := h
  split at h
  · cases h
    rintro rfl
    cases hb
  · cases h

theorem ne_nil_of_expand {t e : T3f.TT K} (h : t.cores ≠ []) (he : T3f.expandBatchDim t = Except.ok e) : e.cores ≠ [] := by
  unfold T3f.expandBatchDim at he
  cases hb : t.batch with
  | some n => rw [hb] at he; cases he; exact h
  | none =>
    rw [hb] at he
    simp only [bind_ok_iff] at he
    obtain ⟨_, -, he⟩ := he
    exact mkBatch_ne_nil he

end nonempty

section objects

variable (d : DType)

@[simp] theorem tagT_erase (t : T3f.TT K) : (tagT d t).erase = t := by
  unfold tagT TT.erase
  rw [map_val_tag]

@[simp] theorem tagT_cores (t : T3f.TT K) : (tagT d t).cores = t.cores.map (tag d) := rfl
@[simp] theorem tagT_rawShape (t : T3f.TT K) : (tagT d t).rawShape = t.rawShape := rfl
@[simp] theorem tagT_ttRanks (t : T3f.TT K) : (tagT d t).ttRanks = t.ttRanks := rfl
@[simp] theorem tagT_batch (t : T3f.TT K) : (tagT d t).batch = t.batch := rfl
@[simp] theorem tagT_length (t : T3f.TT K) : (tagT d t).cores.length = t.ndims := by rw [tagT_cores, List.length_map]; rfl

theorem tagT_dtype (t : T3f.TT K) : (tagT d t).dtype = (fun _ => d) <$> pyGet t.cores 0 := by
  unfold TT.dtype
  rw [tagT_cores, pyGet_map, bind_map]
  exact bind_pure_map _ _

theorem dtypesCoincide_tag (l : List (T3f.Tensor K)) : dtypesCoincide (l.map (tag d)) = true := by
  cases l with
  | nil => rfl
  | cons t l => simp [dtypesCoincide]

theorem andR_true (b : R Bool) : andR (pure true) b = b := rfl

theorem map_shape_tag (l : List (T3f.Tensor K)) : (l.map (tag d)).map (fun x => x.val.shape) = l.map (·.shape) := by
  rw [List.map_map]
  rfl

theorem mkTT_tag (cores : List (T3f.Tensor K)) (sh : ShapeArg) (rk : Option (List ℕ)) :
    mkTT (cores.map (tag d)) sh rk = tagT d <$> T3f.mkTT cores sh rk := by
  unfold mkTT T3f.mkTT
  simp only [dtypesCoincide_tag, andR_true, map_shape_tag, map_bind, map_ite, map_pure, map_throw]
  rfl

theorem mkBatch_tag (cores : List (T3f.Tensor K)) (sh : ShapeArg) (rk : Option (List ℕ)) (bs : Option ℕ) :
    mkBatch (cores.map (tag d)) sh rk bs = tagT d <$> T3f.mkBatch cores sh rk bs := by
  unfold mkBatch T3f.mkBatch
  simp only [dtypesCoincide_tag, andR_true, map_shape_tag, map_bind, map_ite, map_pure, map_throw]
  rfl

theorem mkLike_tag (bs : Option ℕ) (cores : List (T3f.Tensor K)) (rows : List (List ℕ)) (rk : List ℕ) :
    mkLike bs (cores.map (tag d)) rows rk = tagT d <$> T3f.mkLike bs cores rows rk := by
  cases bs
  · exact mkTT_tag d _ _ _
  · exact mkBatch_tag d _ _ _ _

theorem length_tag (l : List (T3f.Tensor K)) : (l.map (tag d)).length = l.length := List.length_map _

/-- Rewrites functions of objects of one data type to functions without data types. -/
macro "tag_simp" : tactic => `(tactic| simp only [tagT_cores, tagT_rawShape, tagT_ttRanks, tagT_batch, tagT_erase, length_tag, T3f.TT.ndims, pyGet_map, pyLast_map,
  bind_map, reshape_tag, transpose_tag, expandDims_tag, squeezeAxis_tag, tile_tag, getItem_tag, squeezeAll_tag, zeros_tag, ones_tag, cast_tag, concat_tag2,
  einsum_tag2, einsum_tag3, einsum_tag4, matmul_tag, binop_tag, ← map_ite, ← map_bind, mapRange_map, mkBatch_tag, mkTT_tag, mkLike_tag, tag_val,
  ← List.map_set, pure_tag])

theorem expandBatchDim_tag (t : T3f.TT K) : expandBatchDim (tagT d t) = tagT d <$> T3f.expandBatchDim t := by
  unfold expandBatchDim T3f.expandBatchDim
  rw [tagT_batch]
  cases t.batch with
  | some n => rfl
  | none => tag_simp

theorem ttTranspose_tag (t : T3f.TT K) : ttTranspose (tagT d t) = tagT d <$> T3f.ttTranspose t := by
  unfold ttTranspose T3f.ttTranspose
  tag_simp

theorem batchDimGetItem_tag (t : T3f.TT K) (ix : Ix) : batchDimGetItem (tagT d t) ix = tagT d <$> T3f.batchDimGetItem t ix := by
  unfold batchDimGetItem T3f.batchDimGetItem
  tag_simp

theorem squeezeBatchDim_tag (t : T3f.TT K) : squeezeBatchDim (tagT d t) = tagT d <$> T3f.squeezeBatchDim t := by
  unfold squeezeBatchDim T3f.squeezeBatchDim
  rw [map_ite, batchDimGetItem_tag]
  rfl

theorem tagT_dtype_of {t : T3f.TT K} (h : t.cores ≠ []) : (tagT d t).dtype = Except.ok d := by
  rw [tagT_dtype]
  cases hc : t.cores with
  | nil => exact absurd hc h
  | cons c cs => rfl

variable [CommRing K]

theorem full_tag (t : T3f.TT K) : full (tagT d t) = tag d <$> T3f.full t := by
  unfold full T3f.full
  rw [tagT_batch]
  cases hb : t.batch with
  | none =>
    unfold T3f.fullTT
    simp only [T3f.TT.isBatch, hb, Option.isSome_none, Bool.false_eq_true, if_false, tagT_erase, map_bind]
    refine bind_congr' fun shape => ?_
    rw [tagT_cores, pyGet_map, bind_map]
    refine bind_congr' fun c0 => ?_
    rw [forRange_tag (g := tag d) (f := fun i res => do
      let ri ← pyGet t.ttRanks i
      let res ← T3f.reshape res [none, some ri]
      let core ← pyGet t.cores i
      let currCore ← T3f.reshape core [some ri, none]
      T3f.matmul res currCore) (fun i s => by tag_simp)]
    tag_simp
  | some n =>
    unfold T3f.fullBatch
    simp only [T3f.TT.isBatch, hb, Option.isSome_some, if_true, tagT_erase, map_bind, T3f.TT.lazyBatchSize]
    refine bind_congr' fun shape => ?_
    rw [tagT_cores, pyGet_map, bind_map]
    refine bind_congr' fun c0 => ?_
    rw [forRange_tag (g := tag d) (f := fun i res => do
      let ri ← pyGet t.ttRanks i
      let res ← T3f.reshape res [some n, none, some ri]
      let core ← pyGet t.cores i
      let currCore ← T3f.reshape core [some n, some ri, none]
      T3f.einsum (ein! "oqb,obw->oqw") [res, currCore]) (fun i s => by tag_simp)]
    tag_simp
    rfl

theorem addCore_tag (axL axR nd i : ℕ) (us ls : R (List ℕ)) (a b : T3f.Tensor K) :
    addCore d axL axR nd i us ls (tag d a) (tag d b) = tag d <$> T3f.addCore axL axR nd i us ls a b := by
  unfold addCore T3f.addCore
  tag_simp

theorem addTensorCores_tag {a : T3f.TT K} (h : a.cores ≠ []) (b : T3f.TT K) :
    addTensorCores (tagT d a) (tagT d b) = List.map (tag d) <$> T3f.addTensorCores a b := by
  unfold addTensorCores T3f.addTensorCores
  rw [tagT_dtype_of d h, ok_bind]
  simp only [tagT_cores, pyGet_map, bind_map, addCore_tag]
  tag_simp

theorem addMatrixCores_tag {a : T3f.TT K} (h : a.cores ≠ []) (b : T3f.TT K) :
    addMatrixCores (tagT d a) (tagT d b) = List.map (tag d) <$> T3f.addMatrixCores a b := by
  unfold addMatrixCores T3f.addMatrixCores
  rw [tagT_dtype_of d h, ok_bind]
  simp only [tagT_cores, pyGet_map, bind_map, addCore_tag]
  tag_simp

theorem addBatchTensorBody_tag (bs : ℕ) (ta tb : Bool) (a b a' b' : T3f.TT K) :
    addBatchTensorBody d bs ta tb (tagT d a) (tagT d b) (tagT d a') (tagT d b') = List.map (tag d) <$> T3f.addBatchTensorBody bs ta tb a b a' b' := by
  unfold addBatchTensorBody T3f.addBatchTensorBody
  cases ta <;> cases tb <;> simp only [if_true, Bool.false_eq_true, if_false, tagT_cores, pyGet_map, bind_map, tile_tag, pure_bind', addCore_tag] <;> tag_simp

theorem addBatchMatrixBody_tag (bs : ℕ) (ta tb : Bool) (a b a' b' : T3f.TT K) :
    addBatchMatrixBody d bs ta tb (tagT d a) (tagT d b) (tagT d a') (tagT d b') = List.map (tag d) <$> T3f.addBatchMatrixBody bs ta tb a b a' b' := by
  unfold addBatchMatrixBody T3f.addBatchMatrixBody
  cases ta <;> cases tb <;> simp only [if_true, Bool.false_eq_true, if_false, tagT_cores, pyGet_map, bind_map, tile_tag, pure_bind', addCore_tag] <;> tag_simp

theorem addBatchTensorCores_tag {a : T3f.TT K} (h : a.cores ≠ []) (b : T3f.TT K) :
    addBatchTensorCores (tagT d a) (tagT d b) = (fun p => (List.map (tag d) p.1, p.2)) <$> T3f.addBatchTensorCores a b := by
  unfold addBatchTensorCores T3f.addBatchTensorCores
  rw [tagT_dtype_of d h, ok_bind]
  simp only [tagT_erase, tagT_batch, expandBatchDim_tag, bind_map, addBatchTensorBody_tag, map_bind, map_pure]
  rfl

theorem addBatchMatrixCores_tag {a : T3f.TT K} (h : a.cores ≠ []) (b : T3f.TT K) :
    addBatchMatrixCores (tagT d a) (tagT d b) = (fun p => (List.map (tag d) p.1, p.2)) <$> T3f.addBatchMatrixCores a b := by
  unfold addBatchMatrixCores T3f.addBatchMatrixCores
  rw [tagT_dtype_of d h, ok_bind]
  simp only [tagT_erase, tagT_batch, expandBatchDim_tag, bind_map, addBatchMatrixBody_tag, map_bind, map_pure]
  rfl

theorem add_tag {a : T3f.TT K} (h : a.cores ≠ []) (b : T3f.TT K) : add (tagT d a) (tagT d b) = tagT d <$> T3f.add a b := by
  unfold add T3f.add
  simp only [addBatchTensorCores_tag d h, addBatchMatrixCores_tag d h, addTensorCores_tag d h, addMatrixCores_tag d h]
  tag_simp
  rfl

theorem mulCore_tag (a b : T3f.TT K) : mulCore (tagT d a) (tagT d b) = fun i => tag d <$> T3f.mulCore a b i := by
  funext i
  unfold mulCore T3f.mulCore mulCoreWith T3f.mulCoreWith
  tag_simp

theorem multiply_tag (a b : T3f.TT K) : multiply (tagT d a) (tagT d b) = tagT d <$> T3f.multiply a b := by
  unfold multiply T3f.multiply
  simp only [mulCore_tag]
  tag_simp
  rfl

theorem matmulCore_tag (a b : T3f.TT K) : matmulCore (tagT d a) (tagT d b) = fun i => tag d <$> T3f.matmulCore a b i := by
  funext i
  unfold matmulCore T3f.matmulCore
  tag_simp

theorem ttTTMatmul_tag (a b : T3f.TT K) : ttTTMatmul (tagT d a) (tagT d b) = tagT d <$> T3f.ttTTMatmul a b := by
  unfold ttTTMatmul T3f.ttTTMatmul
  simp only [squeezeBatchDim_tag, bind_map, matmulCore_tag]
  tag_simp
  rfl

theorem denseStep_tag (a : T3f.TT K) (k : ℕ) (data : T3f.Tensor K) : denseStep (tagT d a) k (tag d data) = tag d <$> T3f.denseStep a k data := by
  unfold denseStep T3f.denseStep
  tag_simp

theorem ttDenseMatmul_tag (a : T3f.TT K) (B : T3f.Tensor K) : ttDenseMatmul (tagT d a) (tag d B) = tag d <$> T3f.ttDenseMatmul a B := by
  unfold ttDenseMatmul T3f.ttDenseMatmul
  simp only [tagT_erase, tagT_batch, tag_val, transpose_tag, bind_map, reshape_tag, tagT_rawShape, forReversed_tag (denseStep_tag d a)]
  tag_simp

theorem denseTTMatmul_tag (A : T3f.Tensor K) (b : T3f.TT K) : denseTTMatmul (tag d A) (tagT d b) = tag d <$> T3f.denseTTMatmul A b := by
  unfold denseTTMatmul T3f.denseTTMatmul
  simp only [tag_val, transpose_tag, ttTranspose_tag, bind_map, ttDenseMatmul_tag]
  tag_simp

theorem innerLoop_tag (a b : T3f.TT K) (n : ℕ) (ax la lb lr : List Char) :
    innerLoop (tagT d a) (tagT d b) n ax la lb lr = tag d <$> T3f.innerLoop a b n ax la lb lr := by
  unfold innerLoop T3f.innerLoop
  simp only [tagT_cores, pyGet_map, bind_map, einsum_tag2, map_bind]
  refine bind_congr' fun a0 => bind_congr' fun b0 => bind_congr' fun res => ?_
  exact forRange_tag (fun k s => by tag_simp) _ _ _

theorem flatInner_tag (a b : T3f.TT K) : flatInner (tagT d a) (tagT d b) = tag d <$> T3f.flatInner a b := by
  unfold flatInner T3f.flatInner
  simp only [squeezeBatchDim_tag, bind_map, innerLoop_tag]
  tag_simp
  rfl

end objects

section more

variable (d : DType)

theorem ttGetItemStep_tag [CommRing K] (t : T3f.TT K) (spec : List Ix) (i : ℕ) (st : List (T3f.Tensor K) × Option (T3f.Tensor K)) :
    ttGetItemStep (tagT d t) spec i (st.1.map (tag d), st.2.map (tag d)) =
      (fun s : List (T3f.Tensor K) × Option (T3f.Tensor K) => (s.1.map (tag d), s.2.map (tag d))) <$> T3f.ttGetItemStep t spec i st := by
  unfold ttGetItemStep T3f.ttGetItemStep
  obtain ⟨l, _ | r⟩ := st
  · simp only [tagT_cores, tagT_erase, pyGet_map, bind_map, getItem_tag, map_bind, map_ite, map_throw, tag_val, map_pure, Option.map_none, Option.map_some,
      List.map_append, List.map_cons, List.map_nil]
    rfl
  · simp only [tagT_cores, tagT_erase, pyGet_map, bind_map, getItem_tag, map_bind, map_ite, map_throw, tag_val, map_pure, Option.map_none, Option.map_some,
      List.map_append, List.map_cons, List.map_nil, matmul_tag, einsum_tag2]

theorem map_dropLast_append (l : List (T3f.Tensor K)) (s : T3f.Tensor K) : (l.map (tag d)).dropLast ++ [tag d s] = (l.dropLast ++ [s]).map (tag d) := by
  rw [List.map_append, List.map_dropLast]
  rfl

theorem ttGetItem_tag [CommRing K] (t : T3f.TT K) (spec : List Ix) : ttGetItem (tagT d t) spec = tagT d <$> T3f.ttGetItem t spec := by
  unfold ttGetItem T3f.ttGetItem
  rw [tagT_length]
  simp only [map_bind]
  refine bind_congr' fun _ => ?_
  have h := forRange_tag (ttGetItemStep_tag d t spec) t.ndims 0 ([], none)
  rw [show (([] : List (Tensor K)), (none : Option (Tensor K))) = (([] : List (T3f.Tensor K)).map (tag d), (none : Option (T3f.Tensor K)).map (tag d)) from rfl, h,
    bind_map]
  refine bind_congr' fun st => ?_
  obtain ⟨l, _ | r⟩ := st
  · exact mkTT_tag d l _ _
  · simp only [Option.map_some, pyLast_map, bind_map, einsum_tag2, map_dropLast_append, mkTT_tag, map_bind]

theorem batchFullGetItemStep_tag [CommRing K] (t : T3f.TT K) (b0 : Ix) (spec : List Ix) (i : ℕ) (st : List (T3f.Tensor K) × Option (T3f.Tensor K)) :
    batchFullGetItemStep (tagT d t) b0 spec i (st.1.map (tag d), st.2.map (tag d)) =
      (fun s : List (T3f.Tensor K) × Option (T3f.Tensor K) => (s.1.map (tag d), s.2.map (tag d))) <$> T3f.batchFullGetItemStep t b0 spec i st := by
  unfold batchFullGetItemStep T3f.batchFullGetItemStep
  obtain ⟨l, _ | r⟩ := st
  · simp only [tagT_cores, tagT_erase, pyGet_map, bind_map, getItem_tag, map_bind, map_ite, map_throw, map_pure, Option.map_none, Option.map_some,
      List.map_append, List.map_cons, List.map_nil]
  · cases doCollapseDim b0 <;>
      simp only [tagT_cores, tagT_erase, pyGet_map, bind_map, getItem_tag, map_bind, map_ite, map_throw, map_pure, Option.map_none, Option.map_some,
        List.map_append, List.map_cons, List.map_nil, einsum_tag2, if_true, Bool.false_eq_true, if_false]

theorem batchFullGetItem_tag [CommRing K] (t : T3f.TT K) (b0 : Ix) (spec : List Ix) :
    batchFullGetItem (tagT d t) b0 spec = tagT d <$> T3f.batchFullGetItem t b0 spec := by
  unfold batchFullGetItem T3f.batchFullGetItem
  rw [tagT_length]
  simp only [map_bind]
  refine bind_congr' fun _ => ?_
  have h := forRange_tag (batchFullGetItemStep_tag d t b0 spec) t.ndims 0 ([], none)
  rw [show (([] : List (Tensor K)), (none : Option (Tensor K))) = (([] : List (T3f.Tensor K)).map (tag d), (none : Option (T3f.Tensor K)).map (tag d)) from rfl, h,
    bind_map]
  refine bind_congr' fun st => ?_
  obtain ⟨l, _ | r⟩ := st
  · cases doCollapseDim b0 <;>
      simp only [Option.map_none, pure_bind', mkTT_tag, mkBatch_tag, if_true, Bool.false_eq_true, if_false]
  · cases doCollapseDim b0 <;>
      simp only [Option.map_some, pyLast_map, bind_map, einsum_tag2, map_dropLast_append, mkTT_tag, mkBatch_tag, map_bind, if_true, Bool.false_eq_true, if_false,
        pure_bind']

theorem batchGetItem_tag [CommRing K] (t : T3f.TT K) (b0 : Ix) (spec : List Ix) :
    batchGetItem (tagT d t) b0 spec = tagT d <$> T3f.batchGetItem t b0 spec := by
  unfold batchGetItem T3f.batchGetItem
  rw [batchDimGetItem_tag, batchFullGetItem_tag, tagT_length, map_ite, map_ite, map_throw]

theorem ttCast_tag (e : DType) (t : T3f.TT K) : ttCast e (tagT d t) = (do
    let cores ← mapRange t.ndims (pyGet t.cores)
    tagT e <$> T3f.mkLike t.batch cores t.rawShape t.ttRanks) := by
  unfold ttCast
  rw [tagT_length]
  simp only [tagT_cores, pyGet_map, bind_pure_map, map_map, cast_tag, mapRange_map, bind_map, mkLike_tag, tagT_batch, tagT_rawShape, tagT_ttRanks]

theorem mapM_smul_tag [Mul K] (c : K) : ∀ l : List (T3f.Tensor K), (l.map (tag d)).mapM (smul d c) = Except.ok ((l.map (T3f.smul c)).map (tag d))
  | [] => rfl
  | t :: l => by
    rw [List.map_cons, List.mapM_cons, smul_tag, mapM_smul_tag c l]
    rfl

theorem mulScalar_tag [Mul K] (t : T3f.Tensor K) (c : K) : mulScalar (tag d t) d c = Except.ok (tag d (t.map (· * c))) := by
  unfold mulScalar
  rw [show (⟨d, scalar c⟩ : Tensor K) = tag d (scalar c) from rfl, common_tag2]
  rfl

theorem multiplyNumber_tag {a : T3f.TT ℝ} (h : a.cores ≠ []) (c : Number) :
    multiplyNumber (tagT d a) c = tagT d <$> T3f.multiplyScalar a c.value := by
  unfold multiplyNumber T3f.multiplyScalar
  rw [tagT_dtype_of d h, ok_bind]
  simp only [tagT_cores, mapM_smul_tag, ok_bind, pyGet_map, bind_map, mulScalar_tag, ← List.map_set, length_tag, tagT_batch, tagT_rawShape, tagT_ttRanks, mkLike_tag,
    map_bind]
  rfl

theorem neg_tag {a : T3f.TT ℝ} (h : a.cores ≠ []) : neg (tagT d a) = tagT d <$> T3f.neg a := multiplyNumber_tag d h _

theorem sub_tag {a b : T3f.TT ℝ} (ha : a.cores ≠ []) (hb : b.cores ≠ []) : sub (tagT d a) (tagT d b) = tagT d <$> T3f.sub a b := by
  unfold sub T3f.sub
  simp only [multiplyNumber_tag d hb, bind_map, add_tag d ha, map_bind]
  rfl

end more

end T3f.Dt
