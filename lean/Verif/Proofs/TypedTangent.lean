import Verif.Model.TypedTangent
import Verif.Proofs.TypedOrtho

/-!
# Projections of objects of one data type
-/

namespace T3f.Dt

variable (d : DType)

/-- As `tag_simp`, for the functions of the projections. -/
macro "tag_simp'" : tactic => `(tactic| simp only [tagT_cores, tagT_rawShape, tagT_ttRanks, tagT_batch, tagT_erase, pyGet_map,
  bind_map, expandDims_tag, tile_tag, zeros_tag, concat_tag2, einsum_tag2, einsum_tag3, einsum_tag4, binop_tag, ← map_ite, ← map_bind, tag_val,
  ← List.map_set, map_pure])

theorem projectChecks_tag {what whr : T3f.TT ℝ} (h1 : what.cores ≠ []) (h2 : whr.cores ≠ []) :
    projectChecks (tagT d what) (tagT d whr) = T3f.projectChecks what whr := by
  unfold projectChecks
  rw [tagT_dtype_of d h1, tagT_dtype_of d h2, ok_bind, ok_bind, require_pos rfl, tagT_erase, tagT_erase]
  cases T3f.projectChecks what whr <;> rfl

theorem tangentFrame_tag (qr : QRRoutine) (whr : T3f.TT ℝ) :
    tangentFrame qr (tagT d whr) = (fun p => (tagT d p.1, tagT d p.2)) <$> T3f.tangentFrame qr whr := by
  unfold tangentFrame T3f.tangentFrame
  simp only [orthogonalize_tag, bind_map, map_bind, map_pure]

theorem rhsStep_tag (ax : List Char) (what right : T3f.TT ℝ) (k : ℕ) (rhs : List (T3f.Tensor ℝ)) :
    rhsStep ax (tagT d what) (tagT d right) k (rhs.map (tag d)) = List.map (tag d) <$> T3f.rhsStep ax what right k rhs := by
  unfold rhsStep T3f.rhsStep
  simp only [tagT_cores, pyGet_map, bind_map, einsum_tag3, ← List.map_set, map_bind, map_pure]

theorem lhsStep_tag (ax : List Char) (what left : T3f.TT ℝ) (k : ℕ) (lhs : List (T3f.Tensor ℝ)) :
    lhsStep ax (tagT d what) (tagT d left) k (lhs.map (tag d)) = List.map (tag d) <$> T3f.lhsStep ax what left k lhs := by
  unfold lhsStep T3f.lhsStep
  simp only [tagT_cores, pyGet_map, bind_map, einsum_tag3, ← List.map_set, map_bind, map_pure]

theorem start_tag (m k : ℕ) (s : List ℕ) :
    (List.replicate m (⟨d, default⟩ : Tensor ℝ)).set k (ones d s) = ((List.replicate m default).set k (T3f.ones s)).map (tag d) := by
  rw [List.map_set, List.map_replicate]
  rfl

theorem projectRhs_tag (ax : List Char) (what right : T3f.TT ℝ) (m n : ℕ) :
    projectRhs d ax (tagT d what) (tagT d right) m n = List.map (tag d) <$> T3f.projectRhs ax what right m n := by
  unfold projectRhs T3f.projectRhs
  rw [start_tag]
  exact forRange_tag (fun j => rhsStep_tag d ax what right _) _ _ _

theorem projectLhs_tag (ax : List Char) (what left : T3f.TT ℝ) (m n : ℕ) :
    projectLhs d ax (tagT d what) (tagT d left) m n = List.map (tag d) <$> T3f.projectLhs ax what left m n := by
  unfold projectLhs T3f.projectLhs
  rw [start_tag]
  exact forRange_tag (fun j => lhsStep_tag d ax what left _) _ _ _

theorem projectDiff_tag (ax : List Char) (lhs : List (T3f.Tensor ℝ)) (k : ℕ) (wc lc : T3f.Tensor ℝ) :
    projectDiff ax (lhs.map (tag d)) k (tag d wc) (tag d lc) = tag d <$> T3f.projectDiff ax lhs k wc lc := by
  unfold projectDiff T3f.projectDiff
  tag_simp'

theorem projectBlock_tag (ax : List Char) (keep : Bool) (lhs rhs : List (T3f.Tensor ℝ)) (m k : ℕ) (wc lc : T3f.Tensor ℝ) :
    projectBlock ax keep (lhs.map (tag d)) (rhs.map (tag d)) m k (tag d wc) (tag d lc) = tag d <$> T3f.projectBlock ax keep lhs rhs m k wc lc := by
  unfold projectBlock T3f.projectBlock
  simp only [projectDiff_tag]
  tag_simp'

theorem extendCore_tag (isMat : Prop) [Decidable isMat] (out : Option ℕ) (c : T3f.Tensor ℝ) :
    extendCore isMat out (tag d c) = tag d <$> T3f.extendCore isMat out c := by
  unfold extendCore T3f.extendCore
  cases out with
  | none => rfl
  | some n => tag_simp'

theorem tangentCore_tag (axL axR m k : ℕ) (zs : R (List ℕ)) (lc rc p : T3f.Tensor ℝ) :
    tangentCore d axL axR m k zs (tag d lc) (tag d rc) (tag d p) = tag d <$> T3f.tangentCore axL axR m k zs lc rc p := by
  unfold tangentCore T3f.tangentCore
  tag_simp'

theorem mkTangent_tag (out : Option ℕ) (cores : List (T3f.Tensor ℝ)) (rows : List (List ℕ)) :
    mkTangent out (cores.map (tag d)) rows = tagT d <$> T3f.mkTangent out cores rows := by
  unfold mkTangent T3f.mkTangent
  cases out with
  | none => exact mkTT_tag d _ _ _
  | some n => exact mkBatch_tag d _ _ _ _

theorem project_tag (qr : QRRoutine) {what whr : T3f.TT ℝ} (h1 : what.cores ≠ []) (h2 : whr.cores ≠ []) :
    project qr (tagT d what) (tagT d whr) = tagT d <$> T3f.project qr what whr := by
  unfold project T3f.project
  simp only [projectChecks_tag d h1 h2, tangentFrame_tag, bind_map, tagT_dtype_of d h2, ok_bind, expandBatchDim_tag, tagT_erase, projectRhs_tag, projectLhs_tag,
    tagT_cores, tagT_batch, tagT_rawShape, length_tag, pyGet_map, projectBlock_tag, extendCore_tag, tangentCore_tag, ← map_bind, mapRange_map, mkTangent_tag]
  rfl

theorem projectSumBlock_tag (ax : List Char) (w : Option (T3f.Tensor ℝ)) (lhs rhs : List (T3f.Tensor ℝ)) (m k : ℕ) (wc lc : T3f.Tensor ℝ) :
    projectSumBlock ax (w.map (tag d)) (lhs.map (tag d)) (rhs.map (tag d)) m k (tag d wc) (tag d lc) =
      tag d <$> T3f.projectSumBlock ax w lhs rhs m k wc lc := by
  unfold projectSumBlock T3f.projectSumBlock
  cases w with
  | none => exact projectBlock_tag d _ _ _ _ _ _ _ _
  | some w =>
    simp only [Option.map_some, projectBlock_tag, tag_val]
    tag_simp'

theorem rhsMatStep_tag (what right A : T3f.TT ℝ) (k : ℕ) (rhs : List (T3f.Tensor ℝ)) :
    rhsMatStep (tagT d what) (tagT d right) (tagT d A) k (rhs.map (tag d)) = List.map (tag d) <$> T3f.rhsMatStep what right A k rhs := by
  unfold rhsMatStep T3f.rhsMatStep
  simp only [tagT_cores, pyGet_map, bind_map, einsum_tag4, ← List.map_set, map_bind, map_pure]

theorem lhsMatStep_tag (what left A : T3f.TT ℝ) (k : ℕ) (lhs : List (T3f.Tensor ℝ)) :
    lhsMatStep (tagT d what) (tagT d left) (tagT d A) k (lhs.map (tag d)) = List.map (tag d) <$> T3f.lhsMatStep what left A k lhs := by
  unfold lhsMatStep T3f.lhsMatStep
  simp only [tagT_cores, pyGet_map, bind_map, einsum_tag4, ← List.map_set, map_bind, map_pure]

theorem projectMatBlock_tag (lhs rhs : List (T3f.Tensor ℝ)) (m k : ℕ) (wc lc mc : T3f.Tensor ℝ) :
    projectMatBlock (lhs.map (tag d)) (rhs.map (tag d)) m k (tag d wc) (tag d lc) (tag d mc) = tag d <$> T3f.projectMatBlock lhs rhs m k wc lc mc := by
  unfold projectMatBlock T3f.projectMatBlock
  tag_simp'

theorem projectMatmul_tag (qr : QRRoutine) {what whr : T3f.TT ℝ} (A : T3f.TT ℝ) (h1 : what.cores ≠ []) (h2 : whr.cores ≠ []) :
    projectMatmul qr (tagT d what) (tagT d whr) (tagT d A) = tagT d <$> T3f.projectMatmul qr what whr A := by
  unfold projectMatmul T3f.projectMatmul
  rw [tagT_length]
  simp only [projectChecks_tag d h1 h2, tangentFrame_tag, bind_map, tagT_dtype_of d h2, ok_bind, expandBatchDim_tag, tagT_erase, start_tag, map_bind]
  refine bind_congr' fun _ => bind_congr' fun p => bind_congr' fun n => bind_congr' fun w => ?_
  rw [forRange_tag (fun j => rhsMatStep_tag d w p.2 A (whr.ndims - 1 - j)), bind_map]
  refine bind_congr' fun rhs => ?_
  rw [forRange_tag (lhsMatStep_tag d w p.1 A), bind_map]
  refine bind_congr' fun lhs => ?_
  simp only [tagT_cores, tagT_batch, tagT_rawShape, tagT_ttRanks, pyGet_map, bind_map, projectMatBlock_tag, extendCore_tag, tangentCore_tag, ← map_bind,
    mapRange_map, mkTangent_tag]

theorem map_val_tag_option (x : Option (T3f.Tensor ℝ)) : (x.map (tag d)).map (·.val) = x := by
  cases x <;> rfl

theorem projectSum_tag (qr : QRRoutine) {what whr : T3f.TT ℝ} (h1 : what.cores ≠ []) (h2 : whr.cores ≠ []) {w : Option (Arg ℝ)} {x : Option (T3f.Tensor ℝ)}
    (hw : convertWeights (tagT d whr) w = Except.ok (x.map (tag d))) :
    projectSum qr (tagT d what) (tagT d whr) w = tagT d <$> T3f.projectSum qr what whr x := by
  unfold projectSum T3f.projectSum
  rw [expandBatchDim_tag, bind_map, map_bind]
  cases he : T3f.expandBatchDim what with
  | error e => rfl
  | ok e =>
    rw [ok_bind, ok_bind, hw, ok_bind]
    simp only [projectChecks_tag d (ne_nil_of_expand h1 he) h2, tangentFrame_tag, bind_map, tagT_dtype_of d h2, ok_bind, tagT_erase, map_val_tag_option,
      projectRhs_tag, projectLhs_tag, tagT_cores, tagT_rawShape, length_tag, pyGet_map, projectSumBlock_tag, extendCore_tag, tangentCore_tag, ← map_bind,
      mapRange_map, mkTangent_tag]
    rfl

end T3f.Dt
