import Verif.Proofs.RoundContract
import Verif.Model.Multiply

/-!
# Three runs of the operations on TT objects that move elements
-/

namespace T3f

/-- TT objects that differ only in the elements of the cores, which are related. -/
structure TTri (ρ : ℕ → ℝ → ℝ → ℝ → Prop) (a b c : TT ℝ) : Prop where
  raw₂ : b.rawShape = a.rawShape
  raw₃ : c.rawShape = a.rawShape
  ranks₂ : b.ttRanks = a.ttRanks
  ranks₃ : c.ttRanks = a.ttRanks
  batch₂ : b.batch = a.batch
  batch₃ : c.batch = a.batch
  cores : Each (fun k => Tri (ρ k)) a.cores b.cores c.cores

/-- Moving elements: the shapes of the cores in the three runs. -/
theorem Each.shapes {ρ : ℕ → ℝ → ℝ → ℝ → Prop} {a b c : List (Tensor ℝ)} (h : Each (fun k => Tri (ρ k)) a b c) :
    b.map Tensor.shape = a.map Tensor.shape ∧ c.map Tensor.shape = a.map Tensor.shape := by
  have hk : ∀ k (ha : k < a.length), (b[k]'(h.len₂ ▸ ha)).shape = a[k].shape ∧ (c[k]'(h.len₃ ▸ ha)).shape = a[k].shape := fun k ha => by
    have := h.item k _ _ _ (List.getElem?_eq_getElem ha) (List.getElem?_eq_getElem (h.len₂ ▸ ha)) (List.getElem?_eq_getElem (h.len₃ ▸ ha))
    exact ⟨this.shape₂, this.shape₃⟩
  constructor
  · refine List.ext_getElem (by simp [h.len₂]) fun k h1 h2 => ?_
    rw [List.getElem_map, List.getElem_map]
    exact (hk k (by simpa using h2)).1
  · refine List.ext_getElem (by simp [h.len₃]) fun k h1 h2 => ?_
    rw [List.getElem_map, List.getElem_map]
    exact (hk k (by simpa using h2)).2

section

variable {ρ σ : ℕ → ℝ → ℝ → ℝ → Prop}

theorem sync_mkTT {a b c : List (Tensor ℝ)} (h : Each (fun k => Tri (ρ k)) a b c) (s : ShapeArg) (r : Option (List ℕ)) :
    Sync (TTri ρ) (mkTT a s r) (mkTT b s r) (mkTT c s r) := by
  unfold mkTT
  obtain ⟨s2, s3⟩ := h.shapes
  simp only [s2, s3]
  refine Sync.bind_same _ fun sh _ => Sync.bind_same _ fun v _ => ?_
  split_ifs
  · exact Sync.ok ⟨rfl, rfl, rfl, rfl, rfl, rfl, h⟩
  · exact Sync.error _

theorem sync_mkBatch {a b c : List (Tensor ℝ)} (h : Each (fun k => Tri (ρ k)) a b c) (s : ShapeArg) (r : Option (List ℕ)) (n : Option ℕ) :
    Sync (TTri ρ) (mkBatch a s r n) (mkBatch b s r n) (mkBatch c s r n) := by
  unfold mkBatch
  obtain ⟨s2, s3⟩ := h.shapes
  simp only [s2, s3]
  refine Sync.bind_same _ fun sh _ => Sync.bind_same _ fun v _ => ?_
  split_ifs
  · exact Sync.ok ⟨rfl, rfl, rfl, rfl, rfl, rfl, h⟩
  · exact Sync.error _

theorem sync_mkLike {a b c : List (Tensor ℝ)} (h : Each (fun k => Tri (ρ k)) a b c) (n : Option ℕ) (rows : List (List ℕ)) (r : List ℕ) :
    Sync (TTri ρ) (mkLike n a rows r) (mkLike n b rows r) (mkLike n c rows r) := by
  cases n with
  | none => exact sync_mkTT h _ _
  | some n => exact sync_mkBatch h _ _ _

namespace TTri

variable {a b c a' b' c' : TT ℝ}

theorem mono (h : TTri ρ a b c) (hρ : ∀ k x y z, ρ k x y z → σ k x y z) : TTri σ a b c :=
  ⟨h.raw₂, h.raw₃, h.ranks₂, h.ranks₃, h.batch₂, h.batch₃, h.cores.mono fun k _ _ _ hk => hk.mono (hρ k)⟩

theorem ndims (h : TTri ρ a b c) : b.ndims = a.ndims ∧ c.ndims = a.ndims := ⟨h.cores.len₂, h.cores.len₃⟩

theorem isMatrix (h : TTri ρ a b c) : (b.isMatrix ↔ a.isMatrix) ∧ (c.isMatrix ↔ a.isMatrix) := by
  unfold TT.isMatrix
  rw [h.raw₂, h.raw₃]
  exact ⟨Iff.rfl, Iff.rfl⟩

theorem isBatch (h : TTri ρ a b c) : b.isBatch = a.isBatch ∧ c.isBatch = a.isBatch := by
  unfold TT.isBatch
  rw [h.batch₂, h.batch₃]
  exact ⟨rfl, rfl⟩

theorem getShape (h : TTri ρ a b c) : b.getShape = a.getShape ∧ c.getShape = a.getShape := by
  unfold TT.getShape
  simp only [h.isMatrix.1, h.isMatrix.2, h.raw₂, h.raw₃, h.batch₂, h.batch₃, and_self]

theorem lazyBatchSize (h : TTri ρ a b c) : b.lazyBatchSize = a.lazyBatchSize ∧ c.lazyBatchSize = a.lazyBatchSize := by
  unfold TT.lazyBatchSize
  simp only [h.batch₂, h.batch₃, and_self]

theorem broadcasting (h : TTri ρ a b c) (h' : TTri σ a' b' c') : isBatchBroadcastingPossible b b' = isBatchBroadcastingPossible a a' ∧
    isBatchBroadcastingPossible c c' = isBatchBroadcastingPossible a a' := by
  unfold isBatchBroadcastingPossible
  simp only [h.batch₂, h.batch₃, h'.batch₂, h'.batch₃, and_self]

theorem expandBatchDim (h : TTri ρ a b c) : Sync (TTri ρ) (expandBatchDim a) (expandBatchDim b) (expandBatchDim c) := by
  unfold T3f.expandBatchDim
  rw [h.batch₂, h.batch₃]
  cases a.batch with
  | some n => exact Sync.ok h
  | none =>
    simp only [h.ndims.1, h.ndims.2, h.raw₂, h.raw₃, h.ranks₂, h.ranks₃]
    refine Sync.bind (Sync.mapRange (Q := fun k => Tri (ρ k)) _ fun k _ => Sync.bind (h.cores.pyGet k) fun x y z hx => hx.expandDims 0) fun x y z hx =>
      sync_mkBatch hx.1 _ _ _

theorem batchDimGetItem (h : TTri ρ a b c) (ix : Ix) : Sync (TTri ρ) (batchDimGetItem a ix) (batchDimGetItem b ix) (batchDimGetItem c ix) := by
  unfold T3f.batchDimGetItem
  simp only [h.ndims.1, h.ndims.2, h.raw₂, h.raw₃, h.ranks₂, h.ranks₃, h.isMatrix.1, h.isMatrix.2]
  refine Sync.bind (Sync.mapRange (Q := fun k => Tri (ρ k)) _ fun k _ => Sync.bind (h.cores.pyGet k) fun x y z hx => ?_) fun x y z hx => ?_
  · split_ifs <;> exact hx.getItem _
  · split_ifs
    · exact sync_mkTT hx.1 _ _
    · refine Sync.bind (hx.1.pyGet 0) fun x0 y0 z0 h0 => ?_
      rw [h0.shape₂, h0.shape₃]
      exact Sync.bind_same _ fun n _ => sync_mkBatch hx.1 _ _ _

theorem squeezeBatchDim (h : TTri ρ a b c) : Sync (TTri ρ) (squeezeBatchDim a) (squeezeBatchDim b) (squeezeBatchDim c) := by
  unfold T3f.squeezeBatchDim
  rw [h.batch₂, h.batch₃]
  split_ifs
  · exact h.batchDimGetItem _
  · exact Sync.ok h

theorem ttTranspose (h : TTri ρ a b c) : Sync (TTri ρ) (ttTranspose a) (ttTranspose b) (ttTranspose c) := by
  unfold T3f.ttTranspose
  simp only [h.ndims.1, h.ndims.2, h.raw₂, h.raw₃, h.ranks₂, h.ranks₃, h.isMatrix.1, h.isMatrix.2, h.isBatch.1, h.isBatch.2, h.batch₂, h.batch₃]
  refine Sync.bind_same _ fun _ _ => Sync.bind (Sync.mapRange (Q := fun k => Tri (ρ k)) _ fun k _ => Sync.bind (h.cores.pyGet k) fun x y z hx => ?_)
    fun x y z hx => Sync.bind_same _ fun r0 _ => Sync.bind_same _ fun r1 _ => sync_mkLike hx.1 _ _ _
  split_ifs <;> exact hx.transpose _

end TTri

/-! ### Sums -/

theorem sync_addCore {ρ : ℝ → ℝ → ℝ → Prop} (h0 : ρ 0 0 0) {a b c a' b' c' : Tensor ℝ} (h : Tri ρ a b c) (h' : Tri ρ a' b' c') (axL axR d i : ℕ)
    (us ls : R (List ℕ)) : Sync (Tri ρ) (addCore axL axR d i us ls a a') (addCore axL axR d i us ls b b') (addCore axL axR d i us ls c c') := by
  unfold addCore
  split_ifs
  · exact h.concat_pair h' _
  · exact h.concat_pair h' _
  · refine Sync.bind_same _ fun us _ => Sync.bind_same _ fun ls _ => Sync.bind (h.concat_pair (Tri.zeros h0 us) _) fun x y z hx =>
      Sync.bind ((Tri.zeros h0 ls).concat_pair h' _) fun x' y' z' hx' => hx.concat_pair hx' _

variable {a b c a' b' c' : TT ℝ}

theorem TTri.addRanks (h : TTri ρ a b c) (h' : TTri σ a' b' c') : addRanks b b' = addRanks a a' ∧ addRanks c c' = addRanks a a' := by
  unfold T3f.addRanks
  simp only [h.ndims.1, h.ndims.2, h.ranks₂, h.ranks₃, h'.ranks₂, h'.ranks₃, and_self]

theorem TTri.addTensorCores (h0 : ∀ k, ρ k 0 0 0) (h : TTri ρ a b c) (h' : TTri ρ a' b' c') :
    Sync (fun x y z => Each (fun k => Tri (ρ k)) x y z) (addTensorCores a a') (addTensorCores b b') (addTensorCores c c') := by
  unfold T3f.addTensorCores
  simp only [h.ndims.1, h.ndims.2, h.raw₂, h.raw₃, h.ranks₂, h.ranks₃, h'.ranks₂, h'.ranks₃]
  refine Sync.bind_same _ fun row _ => Sync.mono (Sync.mapRange (Q := fun k => Tri (ρ k)) _ fun k _ => ?_) fun _ _ _ hx => hx.1
  exact Sync.bind (h.cores.pyGet k) fun x y z hx =>
    Sync.bind (h'.cores.pyGet k) fun x' y' z' hx' => sync_addCore (h0 k) hx hx' _ _ _ _ _ _

theorem TTri.addMatrixCores (h0 : ∀ k, ρ k 0 0 0) (h : TTri ρ a b c) (h' : TTri ρ a' b' c') :
    Sync (fun x y z => Each (fun k => Tri (ρ k)) x y z) (addMatrixCores a a') (addMatrixCores b b') (addMatrixCores c c') := by
  unfold T3f.addMatrixCores
  simp only [h.ndims.1, h.ndims.2, h.raw₂, h.raw₃, h.ranks₂, h.ranks₃, h'.ranks₂, h'.ranks₃]
  refine Sync.bind_same _ fun row _ => Sync.bind_same _ fun row1 _ => Sync.mono (Sync.mapRange (Q := fun k => Tri (ρ k)) _ fun k _ => ?_) fun _ _ _ hx => hx.1
  exact
    Sync.bind (h.cores.pyGet k) fun x y z hx =>
    Sync.bind (h'.cores.pyGet k) fun x' y' z' hx' => sync_addCore (h0 k) hx hx' _ _ _ _ _ _

theorem TTri.addBatchTensorBody (h0 : ∀ k, ρ k 0 0 0) (h : TTri ρ a b c) (h' : TTri ρ a' b' c') {x y z x' y' z' : TT ℝ} (k : TTri ρ x y z)
    (k' : TTri ρ x' y' z') (bs : ℕ) (ta tb : Bool) :
    Sync (fun x y z => Each (fun k => Tri (ρ k)) x y z) (addBatchTensorBody bs ta tb a a' x x') (addBatchTensorBody bs ta tb b b' y y')
      (addBatchTensorBody bs ta tb c c' z z') := by
  unfold T3f.addBatchTensorBody
  simp only [h.ndims.1, h.ndims.2, h.raw₂, h.raw₃, h.ranks₂, h.ranks₃, h'.ranks₂, h'.ranks₃]
  refine Sync.bind_same _ fun row _ => Sync.mono (Sync.mapRange (Q := fun k => Tri (ρ k)) _ fun i _ => ?_) fun _ _ _ hx => hx.1
  refine Sync.bind (k.cores.pyGet i) fun _ _ _ hx => ?_
  have fin := fun {x y z x' y' z'} (hx : Tri (ρ i) x y z) (hx' : Tri (ρ i) x' y' z') axL axR us ls => sync_addCore (h0 i) hx hx' axL axR a.ndims i us ls
  split_ifs
  · exact Sync.bind (hx.tile _) fun _ _ _ hx => Sync.bind (k'.cores.pyGet i) fun _ _ _ hx' => Sync.bind (hx'.tile _) fun _ _ _ hx' => fin hx hx' _ _ _ _
  · exact Sync.bind (hx.tile _) fun _ _ _ hx => Sync.bind (k'.cores.pyGet i) fun _ _ _ hx' => Sync.bind (Sync.ok hx') fun _ _ _ hx' => fin hx hx' _ _ _ _
  · exact Sync.bind (Sync.ok hx) fun _ _ _ hx => Sync.bind (k'.cores.pyGet i) fun _ _ _ hx' => Sync.bind (hx'.tile _) fun _ _ _ hx' => fin hx hx' _ _ _ _
  · exact Sync.bind (Sync.ok hx) fun _ _ _ hx => Sync.bind (k'.cores.pyGet i) fun _ _ _ hx' => Sync.bind (Sync.ok hx') fun _ _ _ hx' => fin hx hx' _ _ _ _

theorem TTri.addBatchMatrixBody (h0 : ∀ k, ρ k 0 0 0) (h : TTri ρ a b c) (h' : TTri ρ a' b' c') {x y z x' y' z' : TT ℝ} (k : TTri ρ x y z)
    (k' : TTri ρ x' y' z') (bs : ℕ) (ta tb : Bool) :
    Sync (fun x y z => Each (fun k => Tri (ρ k)) x y z) (addBatchMatrixBody bs ta tb a a' x x') (addBatchMatrixBody bs ta tb b b' y y')
      (addBatchMatrixBody bs ta tb c c' z z') := by
  unfold T3f.addBatchMatrixBody
  simp only [h.ndims.1, h.ndims.2, h.raw₂, h.raw₃, h.ranks₂, h.ranks₃, h'.ranks₂, h'.ranks₃]
  refine Sync.bind_same _ fun row _ => Sync.bind_same _ fun row1 _ => Sync.mono (Sync.mapRange (Q := fun k => Tri (ρ k)) _ fun i _ => ?_) fun _ _ _ hx => hx.1
  refine Sync.bind (k.cores.pyGet i) fun _ _ _ hx => ?_
  have fin := fun {x y z x' y' z'} (hx : Tri (ρ i) x y z) (hx' : Tri (ρ i) x' y' z') axL axR us ls => sync_addCore (h0 i) hx hx' axL axR a.ndims i us ls
  split_ifs
  · exact Sync.bind (hx.tile _) fun _ _ _ hx => Sync.bind (k'.cores.pyGet i) fun _ _ _ hx' => Sync.bind (hx'.tile _) fun _ _ _ hx' => fin hx hx' _ _ _ _
  · exact Sync.bind (hx.tile _) fun _ _ _ hx => Sync.bind (k'.cores.pyGet i) fun _ _ _ hx' => Sync.bind (Sync.ok hx') fun _ _ _ hx' => fin hx hx' _ _ _ _
  · exact Sync.bind (Sync.ok hx) fun _ _ _ hx => Sync.bind (k'.cores.pyGet i) fun _ _ _ hx' => Sync.bind (hx'.tile _) fun _ _ _ hx' => fin hx hx' _ _ _ _
  · exact Sync.bind (Sync.ok hx) fun _ _ _ hx => Sync.bind (k'.cores.pyGet i) fun _ _ _ hx' => Sync.bind (Sync.ok hx') fun _ _ _ hx' => fin hx hx' _ _ _ _

theorem TTri.addBatchSize (h : TTri ρ a b c) (h' : TTri σ a' b' c') : addBatchSize b b' = addBatchSize a a' ∧ addBatchSize c c' = addBatchSize a a' := by
  unfold T3f.addBatchSize
  simp only [h.batch₂, h.batch₃, h.lazyBatchSize.1, h.lazyBatchSize.2, h'.lazyBatchSize.1, h'.lazyBatchSize.2, and_self]

theorem TTri.addBatchTensorCores (h0 : ∀ k, ρ k 0 0 0) (h : TTri ρ a b c) (h' : TTri ρ a' b' c') :
    Sync (fun x y z => Each (fun k => Tri (ρ k)) x.1 y.1 z.1 ∧ y.2 = x.2 ∧ z.2 = x.2) (addBatchTensorCores a a') (addBatchTensorCores b b')
      (addBatchTensorCores c c') := by
  unfold T3f.addBatchTensorCores
  rw [(h.addBatchSize h').1, (h.addBatchSize h').2]
  refine Sync.bind_same _ fun bs _ => Sync.bind h.expandBatchDim fun x y z hx => Sync.bind h'.expandBatchDim fun x' y' z' hx' => ?_
  rw [hx.batch₂, hx.batch₃, hx'.batch₂, hx'.batch₃]
  exact Sync.bind (TTri.addBatchTensorBody h0 h h' hx hx' _ _ _) fun _ _ _ he => Sync.ok ⟨he, rfl, rfl⟩

theorem TTri.addBatchMatrixCores (h0 : ∀ k, ρ k 0 0 0) (h : TTri ρ a b c) (h' : TTri ρ a' b' c') :
    Sync (fun x y z => Each (fun k => Tri (ρ k)) x.1 y.1 z.1 ∧ y.2 = x.2 ∧ z.2 = x.2) (addBatchMatrixCores a a') (addBatchMatrixCores b b')
      (addBatchMatrixCores c c') := by
  unfold T3f.addBatchMatrixCores
  rw [(h.addBatchSize h').1, (h.addBatchSize h').2]
  refine Sync.bind_same _ fun bs _ => Sync.bind h.expandBatchDim fun x y z hx => Sync.bind h'.expandBatchDim fun x' y' z' hx' => ?_
  rw [hx.batch₂, hx.batch₃, hx'.batch₂, hx'.batch₃]
  exact Sync.bind (TTri.addBatchMatrixBody h0 h h' hx hx' _ _ _) fun _ _ _ he => Sync.ok ⟨he, rfl, rfl⟩

theorem TTri.add (h0 : ∀ k, ρ k 0 0 0) (h : TTri ρ a b c) (h' : TTri ρ a' b' c') : Sync (TTri ρ) (add a a') (add b b') (add c c') := by
  unfold T3f.add
  simp only [h.isMatrix.1, h.isMatrix.2, h'.isMatrix.1, h'.isMatrix.2, h.raw₂, h.raw₃, h'.raw₂, h'.raw₃, (h.broadcasting h').1, (h.broadcasting h').2,
    h.isBatch.1, h.isBatch.2, h'.isBatch.1, h'.isBatch.2, (h.addRanks h').1, (h.addRanks h').2]
  refine Sync.bind_same _ fun _ _ => Sync.bind_same _ fun _ _ => Sync.bind_same _ fun _ _ => ?_
  split_ifs with h1 h2 h2
  · refine Sync.bind (TTri.addBatchMatrixCores h0 h h') ?_
    rintro ⟨x, n⟩ ⟨y, n2⟩ ⟨z, n3⟩ ⟨he, rfl, rfl⟩
    exact Sync.bind_same _ fun r _ => sync_mkBatch he _ _ _
  · refine Sync.bind (TTri.addBatchTensorCores h0 h h') ?_
    rintro ⟨x, n⟩ ⟨y, n2⟩ ⟨z, n3⟩ ⟨he, rfl, rfl⟩
    exact Sync.bind_same _ fun r _ => sync_mkBatch he _ _ _
  · exact Sync.bind (TTri.addMatrixCores h0 h h') fun x y z he => Sync.bind_same _ fun r _ => sync_mkTT he _ _
  · exact Sync.bind (TTri.addTensorCores h0 h h') fun x y z he => Sync.bind_same _ fun r _ => sync_mkTT he _ _

end

end T3f
