import Verif.Proofs.TypedOrtho
import Verif.Proofs.TypedTangent
import Verif.Spec.Entry

/-!
# Objects of two different data types
-/

namespace T3f.Dt

variable {K α β γ δ : Type}

/-- The computation `x` fails, and if the computation `y` without data types succeeds then because of the data types. -/
def Mixed (x : R α) (y : R β) : Prop := (∃ e, x = Except.error e) ∧ ∀ c, y = Except.ok c → x = Except.error Err.tf

namespace Mixed

theorem of_tf (y : R β) : Mixed (Except.error Err.tf : R α) y := ⟨⟨_, rfl⟩, fun _ _ => rfl⟩

theorem of_error {e : Err} {e' : Err} : Mixed (Except.error e : R α) (Except.error e' : R β) := ⟨⟨_, rfl⟩, fun _ h => by cases h⟩

theorem bind_same {x : R α} {f : α → R β} {g : α → R γ} (h : ∀ a, x = Except.ok a → Mixed (f a) (g a)) : Mixed (x >>= f) (x >>= g) := by
  cases x with
  | error e => exact of_error
  | ok a => exact h a rfl

theorem bind_tag {x : R α} {t : α → δ} {f : δ → R β} {g : α → R γ} (h : ∀ a, x = Except.ok a → Mixed (f (t a)) (g a)) : Mixed ((t <$> x) >>= f) (x >>= g) := by
  cases x with
  | error e => exact of_error
  | ok a => exact h a rfl

theorem bind_left {x : R α} {y : R β} (h : Mixed x y) (f : α → R γ) (g : β → R δ) : Mixed (x >>= f) (y >>= g) := by
  obtain ⟨⟨e, rfl⟩, h2⟩ := h
  cases y with
  | error e' => exact of_error
  | ok b =>
    rw [h2 b rfl]
    exact of_tf _

theorem mapRange {n : ℕ} (hn : 0 < n) {f : ℕ → R α} {g : ℕ → R β} (h : Mixed (f 0) (g 0)) : Mixed (mapRange n f) (mapRange n g) := by
  obtain ⟨m, rfl⟩ : ∃ m, n = m + 1 := ⟨n - 1, by omega⟩
  unfold T3f.mapRange
  rw [List.range_succ_eq_map, List.mapM_cons, List.mapM_cons]
  exact bind_left h _ _

end Mixed

variable {d e : DType}

theorem common_mixed (h : d ≠ e) (a b : T3f.Tensor K) : common [tag d a, tag e b] = Except.error Err.tf := by
  unfold common
  refine if_neg ?_
  intro h'
  exact h (h' (tag e b) (by simp)).symm

theorem concat_mixed (h : d ≠ e) (ax : ℕ) (a b : T3f.Tensor K) : concat ax [tag d a, tag e b] = Except.error Err.tf := by
  unfold concat liftN
  rw [common_mixed h]
  rfl

theorem einsum_mixed [CommSemiring K] (h : d ≠ e) (sp) (a b : T3f.Tensor K) : einsum sp [tag d a, tag e b] = Except.error Err.tf := by
  unfold einsum liftN
  rw [common_mixed h]
  rfl

theorem ne_nil_of_wf [Zero K] {t : T3f.TT K} (h : t.WF) : t.cores ≠ [] := by
  intro h0
  have := h.pos
  unfold T3f.TT.ndims at this
  rw [h0] at this
  exact Nat.lt_irrefl _ this

variable [CommRing K] {a b : T3f.TT K}

theorem addCore_mixed (h : d ≠ e) (axL axR nd : ℕ) (us ls : R (List ℕ)) (x y : T3f.Tensor K) :
    Mixed (addCore d axL axR nd 0 us ls (tag d x) (tag e y)) (T3f.addCore axL axR nd 0 us ls x y) := by
  unfold addCore
  rw [if_pos rfl, concat_mixed h]
  exact Mixed.of_tf _

theorem addTensorCores_mixed (h : d ≠ e) (ha : a.cores ≠ []) : Mixed (addTensorCores (tagT d a) (tagT e b)) (T3f.addTensorCores a b) := by
  unfold addTensorCores T3f.addTensorCores
  rw [tagT_dtype_of d ha, ok_bind, tagT_length, tagT_cores, tagT_cores, tagT_rawShape]
  simp only [pyGet_map]
  refine Mixed.bind_same fun row _ => Mixed.mapRange (List.length_pos_iff.2 ha) ?_
  exact Mixed.bind_tag fun x _ => Mixed.bind_tag fun y _ => addCore_mixed h _ _ _ _ _ _ _

theorem addMatrixCores_mixed (h : d ≠ e) (ha : a.cores ≠ []) : Mixed (addMatrixCores (tagT d a) (tagT e b)) (T3f.addMatrixCores a b) := by
  unfold addMatrixCores T3f.addMatrixCores
  rw [tagT_dtype_of d ha, ok_bind, tagT_length, tagT_cores, tagT_cores, tagT_rawShape]
  simp only [pyGet_map]
  refine Mixed.bind_same fun row _ => Mixed.bind_same fun row1 _ => Mixed.mapRange (List.length_pos_iff.2 ha) ?_
  exact Mixed.bind_tag fun x _ => Mixed.bind_tag fun y _ => addCore_mixed h _ _ _ _ _ _ _

theorem addBatchTensorBody_mixed (h : d ≠ e) (ha : a.cores ≠ []) (bs : ℕ) (ta tb : Bool) (a' b' : T3f.TT K) :
    Mixed (addBatchTensorBody d bs ta tb (tagT d a) (tagT e b) (tagT d a') (tagT e b')) (T3f.addBatchTensorBody bs ta tb a b a' b') := by
  unfold addBatchTensorBody T3f.addBatchTensorBody
  rw [tagT_length, tagT_cores, tagT_cores, tagT_rawShape]
  simp only [pyGet_map]
  refine Mixed.bind_same fun row _ => Mixed.mapRange (List.length_pos_iff.2 ha) ?_
  refine Mixed.bind_tag fun x _ => ?_
  cases ta <;> cases tb <;> simp only [if_true, Bool.false_eq_true, if_false, pure_bind', tile_tag]
  · exact Mixed.bind_tag fun y _ => addCore_mixed h _ _ _ _ _ _ _
  · exact Mixed.bind_tag fun y _ => Mixed.bind_tag fun y _ => addCore_mixed h _ _ _ _ _ _ _
  · exact Mixed.bind_tag fun y _ => Mixed.bind_tag fun y _ => addCore_mixed h _ _ _ _ _ _ _
  · exact Mixed.bind_tag fun y _ => Mixed.bind_tag fun y _ => Mixed.bind_tag fun y _ => addCore_mixed h _ _ _ _ _ _ _

theorem addBatchMatrixBody_mixed (h : d ≠ e) (ha : a.cores ≠ []) (bs : ℕ) (ta tb : Bool) (a' b' : T3f.TT K) :
    Mixed (addBatchMatrixBody d bs ta tb (tagT d a) (tagT e b) (tagT d a') (tagT e b')) (T3f.addBatchMatrixBody bs ta tb a b a' b') := by
  unfold addBatchMatrixBody T3f.addBatchMatrixBody
  rw [tagT_length, tagT_cores, tagT_cores, tagT_rawShape]
  simp only [pyGet_map]
  refine Mixed.bind_same fun row _ => Mixed.bind_same fun row1 _ => Mixed.mapRange (List.length_pos_iff.2 ha) ?_
  refine Mixed.bind_tag fun x _ => ?_
  cases ta <;> cases tb <;> simp only [if_true, Bool.false_eq_true, if_false, pure_bind', tile_tag]
  · exact Mixed.bind_tag fun y _ => addCore_mixed h _ _ _ _ _ _ _
  · exact Mixed.bind_tag fun y _ => Mixed.bind_tag fun y _ => addCore_mixed h _ _ _ _ _ _ _
  · exact Mixed.bind_tag fun y _ => Mixed.bind_tag fun y _ => addCore_mixed h _ _ _ _ _ _ _
  · exact Mixed.bind_tag fun y _ => Mixed.bind_tag fun y _ => Mixed.bind_tag fun y _ => addCore_mixed h _ _ _ _ _ _ _

theorem addBatchTensorCores_mixed (h : d ≠ e) (ha : a.cores ≠ []) : Mixed (addBatchTensorCores (tagT d a) (tagT e b)) (T3f.addBatchTensorCores a b) := by
  unfold addBatchTensorCores T3f.addBatchTensorCores
  rw [tagT_dtype_of d ha, ok_bind, tagT_erase, tagT_erase]
  simp only [expandBatchDim_tag]
  exact Mixed.bind_same fun bs _ => Mixed.bind_tag fun a' _ => Mixed.bind_tag fun b' _ => Mixed.bind_left (addBatchTensorBody_mixed h ha _ _ _ _ _) _ _

theorem addBatchMatrixCores_mixed (h : d ≠ e) (ha : a.cores ≠ []) : Mixed (addBatchMatrixCores (tagT d a) (tagT e b)) (T3f.addBatchMatrixCores a b) := by
  unfold addBatchMatrixCores T3f.addBatchMatrixCores
  rw [tagT_dtype_of d ha, ok_bind, tagT_erase, tagT_erase]
  simp only [expandBatchDim_tag]
  exact Mixed.bind_same fun bs _ => Mixed.bind_tag fun a' _ => Mixed.bind_tag fun b' _ => Mixed.bind_left (addBatchMatrixBody_mixed h ha _ _ _ _ _) _ _

theorem add_mixed (h : d ≠ e) (ha : a.cores ≠ []) : Mixed (add (tagT d a) (tagT e b)) (T3f.add a b) := by
  unfold add T3f.add
  simp only [tagT_erase, tagT_rawShape]
  refine Mixed.bind_same fun _ _ => Mixed.bind_same fun _ _ => Mixed.bind_same fun _ _ => ?_
  by_cases hb : (a.isBatch || b.isBatch) = true <;> by_cases hm : a.isMatrix <;> simp only [hb, hm, if_true, if_false]
  · exact Mixed.bind_left (addBatchMatrixCores_mixed h ha) _ _
  · exact Mixed.bind_left (addBatchTensorCores_mixed h ha) _ _
  · exact Mixed.bind_left (addMatrixCores_mixed h ha) _ _
  · exact Mixed.bind_left (addTensorCores_mixed h ha) _ _

theorem mulCore_mixed (h : d ≠ e) (i : ℕ) : Mixed (mulCore (tagT d a) (tagT e b) i) (T3f.mulCore a b i) := by
  unfold mulCore T3f.mulCore mulCoreWith T3f.mulCoreWith
  simp only [tagT_erase, tagT_cores, pyGet_map, tagT_ttRanks]
  refine Mixed.bind_tag fun x _ => Mixed.bind_tag fun y _ => Mixed.bind_same fun _ _ => Mixed.bind_same fun _ _ => Mixed.bind_same fun _ _ =>
    Mixed.bind_same fun _ _ => ?_
  simp only [einsum_mixed h]
  by_cases hm : a.isMatrix <;> simp only [hm, if_true, if_false] <;> exact Mixed.of_tf _

theorem multiply_mixed (h : d ≠ e) (ha : a.WF) : Mixed (multiply (tagT d a) (tagT e b)) (T3f.multiply a b) := by
  unfold multiply T3f.multiply
  simp only [tagT_erase, tagT_rawShape]
  rw [tagT_length]
  exact Mixed.bind_same fun _ _ => Mixed.bind_same fun _ _ => Mixed.bind_same fun _ _ => Mixed.bind_left (Mixed.mapRange ha.pos (mulCore_mixed h 0)) _ _

theorem matmulCore_mixed (h : d ≠ e) (i : ℕ) : Mixed (matmulCore (tagT d a) (tagT e b) i) (T3f.matmulCore a b i) := by
  unfold matmulCore T3f.matmulCore
  simp only [tagT_cores, pyGet_map]
  refine Mixed.bind_tag fun x _ => Mixed.bind_tag fun y _ => ?_
  rw [einsum_mixed h]
  exact Mixed.of_tf _

theorem ttTTMatmul_mixed (h : d ≠ e) (ha : a.WF) : Mixed (ttTTMatmul (tagT d a) (tagT e b)) (T3f.ttTTMatmul a b) := by
  unfold ttTTMatmul T3f.ttTTMatmul
  simp only [tagT_erase, squeezeBatchDim_tag]
  rw [tagT_length, tagT_length]
  exact Mixed.bind_same fun _ _ => Mixed.bind_same fun _ _ => Mixed.bind_same fun _ _ => Mixed.bind_tag fun _ _ => Mixed.bind_tag fun _ _ =>
    Mixed.bind_left (Mixed.mapRange ha.pos (matmulCore_mixed h 0)) _ _

theorem flatInner_mixed (h : d ≠ e) : Mixed (flatInner (tagT d a) (tagT e b)) (T3f.flatInner a b) := by
  unfold flatInner T3f.flatInner
  simp only [tagT_erase, squeezeBatchDim_tag]
  rw [tagT_length, tagT_length]
  refine Mixed.bind_same fun _ _ => Mixed.bind_same fun _ _ => Mixed.bind_same fun _ _ => Mixed.bind_tag fun a' _ => Mixed.bind_tag fun b' _ => ?_
  refine Mixed.bind_left ?_ _ _
  unfold innerLoop T3f.innerLoop
  simp only [tagT_cores, pyGet_map]
  refine Mixed.bind_tag fun x _ => Mixed.bind_tag fun y _ => ?_
  rw [einsum_mixed h]
  exact Mixed.of_tf _

theorem ttDenseMatmul_mixed (h : d ≠ e) (ha : a.WF) (B : T3f.Tensor K) : Mixed (ttDenseMatmul (tagT d a) (tag e B)) (T3f.ttDenseMatmul a B) := by
  unfold ttDenseMatmul T3f.ttDenseMatmul
  simp only [tagT_erase, tagT_batch, tag_val, transpose_tag, tagT_rawShape]
  refine Mixed.bind_same fun _ _ => Mixed.bind_same fun _ _ => Mixed.bind_same fun _ _ => Mixed.bind_same fun _ _ => Mixed.bind_same fun _ _ =>
    Mixed.bind_same fun _ _ => Mixed.bind_tag fun _ _ => Mixed.bind_same fun _ _ => Mixed.bind_same fun _ _ => ?_
  rw [reshape_tag]
  refine Mixed.bind_tag fun x _ => Mixed.bind_left ?_ _ _
  rw [tagT_length]
  obtain ⟨m, hm⟩ : ∃ m, a.ndims = m + 1 := ⟨a.ndims - 1, by have := ha.pos; omega⟩
  rw [hm]
  unfold forReversed
  refine Mixed.bind_left ?_ _ _
  unfold denseStep T3f.denseStep
  rw [tagT_cores, pyGet_map]
  refine Mixed.bind_tag fun y _ => ?_
  rw [einsum_mixed h]
  exact Mixed.of_tf _

theorem projectChecks_mixed {what whr : T3f.TT ℝ} (h : d ≠ e) (h1 : what.cores ≠ []) (h2 : whr.cores ≠ []) :
    projectChecks (tagT d what) (tagT e whr) = Except.error Err.value := by
  unfold projectChecks T3f.projectChecks
  rw [tagT_dtype_of d h1, tagT_dtype_of e h2, tagT_erase, tagT_erase, ok_bind, ok_bind, require_neg h.symm]
  by_cases hc : whr.batch = none
  · by_cases hr : whr.rawShape = what.rawShape
    · rw [require_pos hc, require_pos hr]; rfl
    · rw [require_pos hc, require_neg hr]; rfl
  · rw [require_neg hc]; rfl

theorem project_mixed (qr : QRRoutine) {what whr : T3f.TT ℝ} (h : d ≠ e) (h1 : what.cores ≠ []) (h2 : whr.cores ≠ []) :
    project qr (tagT d what) (tagT e whr) = Except.error Err.value := by
  unfold project
  rw [projectChecks_mixed h h1 h2]
  rfl

theorem projectMatmul_mixed (qr : QRRoutine) {what whr : T3f.TT ℝ} (h : d ≠ e) (h1 : what.cores ≠ []) (h2 : whr.cores ≠ []) (A : TT ℝ) :
    projectMatmul qr (tagT d what) (tagT e whr) A = Except.error Err.value := by
  unfold projectMatmul
  rw [projectChecks_mixed h h1 h2]
  rfl

end T3f.Dt
