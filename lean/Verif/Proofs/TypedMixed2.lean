import Verif.Proofs.TypedMixed
import Verif.Spec.Typed
import Verif.Proofs.AutodiffError
import Verif.Proofs.Project
import Verif.Proofs.DescribedApprox

/-!
# Objects of two different data types: concatenation and the matrix of `project_matmul`
-/

namespace T3f.Dt

variable {K α β γ δ : Type}

theorem Mixed.forRange {σ τ : Type} {a n : ℕ} (hn : 0 < n) {f : ℕ → σ → R σ} {g : ℕ → τ → R τ} {s : σ} {t : τ} (h : Mixed (f a s) (g a t)) :
    Mixed (forRange f a n s) (forRange g a n t) := by
  obtain ⟨m, rfl⟩ : ∃ m, n = m + 1 := ⟨n - 1, by omega⟩
  unfold T3f.forRange
  exact Mixed.bind_left h _ _

theorem common_of_ne {ts : List (Tensor K)} {x y : Tensor K} (hx : x ∈ ts) (hy : y ∈ ts) (h : x.dtype ≠ y.dtype) : common ts = Except.error Err.tf := by
  cases ts with
  | nil => rfl
  | cons t ts =>
    unfold common
    refine if_neg fun h' => h ?_
    have : ∀ z ∈ t :: ts, z.dtype = t.dtype := by
      intro z hz
      rcases List.mem_cons.mp hz with rfl | hz
      · rfl
      · exact h' z hz
    rw [this x hx, this y hy]

theorem einsum_of_ne [CommSemiring K] {sp} {ts : List (Tensor K)} {x y : Tensor K} (hx : x ∈ ts) (hy : y ∈ ts) (h : x.dtype ≠ y.dtype) :
    einsum sp ts = Except.error Err.tf := by
  unfold einsum liftN
  rw [common_of_ne hx hy h]
  rfl

theorem concat_of_ne {ax : ℕ} {ts : List (Tensor K)} {x y : Tensor K} (hx : x ∈ ts) (hy : y ∈ ts) (h : x.dtype ≠ y.dtype) :
    concat ax ts = Except.error Err.tf := by
  unfold concat liftN
  rw [common_of_ne hx hy h]
  rfl

variable {d e : DType}

theorem denseTTMatmul_mixed [CommRing K] (h : d ≠ e) (A : T3f.Tensor K) {b : T3f.TT K} (hb : ∀ t, T3f.ttTranspose b = Except.ok t → t.WF) :
    Mixed (denseTTMatmul (tag d A) (tagT e b)) (T3f.denseTTMatmul A b) := by
  unfold denseTTMatmul T3f.denseTTMatmul
  rw [transpose_tag, ttTranspose_tag]
  exact Mixed.bind_tag fun A' _ => Mixed.bind_tag fun t ht => Mixed.bind_left (ttDenseMatmul_mixed h.symm (hb t ht) _) _ _

theorem projectMatmul_matrix_mixed (qr : QRRoutine) {what whr A : T3f.TT ℝ} (h : d ≠ e) (h1 : what.cores ≠ []) (h2 : whr.cores ≠ []) :
    Mixed (projectMatmul qr (tagT d what) (tagT d whr) (tagT e A)) (T3f.projectMatmul qr what whr A) := by
  unfold projectMatmul T3f.projectMatmul
  rw [tagT_length]
  simp only [projectChecks_tag d h1 h2, tangentFrame_tag, bind_map, tagT_dtype_of d h2, ok_bind, expandBatchDim_tag, tagT_erase, start_tag]
  refine Mixed.bind_same fun _ _ => Mixed.bind_same fun p _ => Mixed.bind_same fun n _ => Mixed.bind_same fun w _ => ?_
  have hpos : 0 < whr.ndims := List.length_pos_iff.mpr h2
  by_cases hd : 0 < whr.ndims - 1
  · refine Mixed.bind_left (Mixed.forRange hd ?_) _ _
    unfold rhsMatStep T3f.rhsMatStep
    simp only [tagT_cores, pyGet_map, bind_map]
    refine Mixed.bind_same fun wc _ => Mixed.bind_same fun rc _ => Mixed.bind_same fun mc _ => Mixed.bind_same fun nxt _ => Mixed.bind_left ?_ _ _
    rw [einsum_of_ne (x := tag e mc) (y := tag d rc) (by simp) (by simp) h.symm]
    exact Mixed.of_tf _
  · have hz : whr.ndims - 1 = 0 := by omega
    rw [hz]
    unfold T3f.forRange
    rw [ok_bind, ok_bind, ok_bind, ok_bind]
    refine Mixed.bind_left (Mixed.mapRange hpos ?_) _ _
    simp only [tagT_cores, pyGet_map, bind_map]
    refine Mixed.bind_same fun wc _ => Mixed.bind_same fun mc _ => Mixed.bind_same fun lc _ => Mixed.bind_same fun rc _ => Mixed.bind_left ?_ _ _
    unfold projectMatBlock T3f.projectMatBlock
    rw [if_neg (by omega), if_neg (by omega)]
    simp only [pyGet_map, bind_map]
    refine Mixed.bind_same fun cur _ => ?_
    rw [einsum_of_ne (x := tag e mc) (y := tag d wc) (by simp) (by simp) h.symm]
    exact Mixed.of_tf _

theorem projectSum_mixed (qr : QRRoutine) {what whr : T3f.TT ℝ} (h : d ≠ e) (h1 : what.WF) (h2 : whr.cores ≠ []) (w : Option (Arg ℝ)) :
    projectSum qr (tagT d what) (tagT e whr) w = Except.error Err.value := by
  unfold projectSum
  rw [expandBatchDim_tag]
  cases he : T3f.expandBatchDim what with
  | error err =>
    obtain ⟨w, n, hw, -⟩ := expand_fl h1
    rw [hw] at he
    cases he
  | ok x =>
    rw [map_ok, ok_bind]
    have hc : convertWeights (tagT e whr) w = Except.error Err.value ∨ ∃ y, convertWeights (tagT e whr) w = Except.ok y := by
      cases w with
      | none => exact Or.inr ⟨none, rfl⟩
      | some w =>
        simp only [convertWeights, tagT_dtype_of e h2, ok_bind]
        cases w with
        | python y => exact Or.inr ⟨_, rfl⟩
        | tensor y =>
          by_cases hy : y.dtype = e
          · exact Or.inr ⟨some y, by simp only [convertToTensor, hy, if_true]; rfl⟩
          · exact Or.inl (by simp only [convertToTensor, hy, if_false]; rfl)
    rcases hc with hc | ⟨y, hc⟩
    · rw [hc]
      rfl
    · rw [hc, ok_bind, projectChecks_mixed h (ne_nil_of_expand (ne_nil_of_wf h1) he) h2]
      rfl

theorem concatAlongBatchDim_mixed [Zero K] {ts : List (TT K)} (hw : ∀ t ∈ ts, t.cores ≠ []) {x y : TT K} (hx : x ∈ ts) (hy : y ∈ ts)
    (hxd : x.Uniform d) (hyd : y.Uniform e) (h : d ≠ e) :
    Mixed (concatAlongBatchDim ts) (T3f.concatAlongBatchDim (ts.map TT.erase)) := by
  unfold concatAlongBatchDim T3f.concatAlongBatchDim
  simp only [pyGet_map, bind_map, List.length_map]
  refine Mixed.bind_same fun first hf => Mixed.bind_same fun _ _ => Mixed.bind_same fun _ _ => Mixed.bind_left ?_ _ _
  have hpos : 0 < first.cores.length := List.length_pos_iff.mpr (hw first (pyGet_mem hf))
  rw [show first.erase.ndims = first.cores.length from List.length_map _]
  refine Mixed.mapRange hpos ?_
  have hcs : (mapRange ts.length fun i => do
      let t ← pyGet ts i
      pyGet t.erase.cores 0) = List.map (·.val) <$> (mapRange ts.length fun i => do
      let t ← pyGet ts i
      pyGet t.cores 0) := by
    rw [← mapRange_map]
    congr 1
    funext i
    rw [map_bind]
    exact bind_congr' fun t => pyGet_map _ _ _
  rw [hcs, bind_map]
  refine Mixed.bind_same fun cs hc => ?_
  have key : ∀ z ∈ ts, ∀ f, z.Uniform f → ∃ c ∈ cs, c.dtype = f := by
    intro z hz f hzf
    have : Inhabited (Tensor K) := ⟨⟨f, ⟨[], fun _ => 0⟩⟩⟩
    obtain ⟨hl, hv⟩ := mapRange_inv hc
    obtain ⟨k, hk, rfl⟩ := List.getElem_of_mem hz
    have := hv k hk
    rw [show pyGet ts k = Except.ok ts[k] by simp [pyGet, hk], ok_bind] at this
    refine ⟨cs.getD k default, ?_, hzf _ (pyGet_mem this)⟩
    rw [List.getD, List.getElem?_eq_getElem (by omega), Option.getD_some]
    exact List.getElem_mem _
  obtain ⟨c1, m1, rfl⟩ := key x hx d hxd
  obtain ⟨c2, m2, rfl⟩ := key y hy e hyd
  rw [concat_of_ne m1 m2 h]
  exact Mixed.of_tf _

end T3f.Dt
