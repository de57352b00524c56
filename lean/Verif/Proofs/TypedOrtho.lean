import Verif.Proofs.Typed

/-!
# Orthogonalization, rounding and batches of objects of one data type
-/

namespace T3f.Dt

variable {K : Type} (d : DType)

theorem orthoLRStep_tag (qr : QRRoutine) (t : T3f.TT ℝ) (i : ℕ) (s : List (T3f.Tensor ℝ) × ℕ) :
    orthoLRStep qr (tagT d t) i (s.1.map (tag d), s.2) = (fun s : List (T3f.Tensor ℝ) × ℕ => (s.1.map (tag d), s.2)) <$> T3f.orthoLRStep qr t i s := by
  unfold orthoLRStep T3f.orthoLRStep
  simp only [pyGet_map, bind_map, tagT_ttRanks, tagT_batch, tagT_erase, reshape_tag, linalgQR_tag, tag_val, matmul_tag, ← List.map_set, map_bind, map_pure]

theorem orthoLR_tag (qr : QRRoutine) (t : T3f.TT ℝ) : orthoLR qr (tagT d t) = tagT d <$> T3f.orthoLR qr t := by
  unfold orthoLR T3f.orthoLR
  rw [tagT_length]
  simp only [tagT_ttRanks, map_bind]
  refine bind_congr' fun r0 => ?_
  rw [tagT_cores, forRange_tag (orthoLRStep_tag d qr t) _ 0 (t.cores, r0), bind_map]
  refine bind_congr' fun s => ?_
  rw [pyGet_map, bind_map]
  refine bind_congr' fun last => ?_
  rw [tagT_batch, tagT_erase, reshape_tag, bind_map]
  refine bind_congr' fun last => ?_
  rw [tagT_rawShape, ← List.map_set]
  cases t.batch with
  | none => exact mkTT_tag d _ _ _
  | some n => exact mkBatch_tag d _ _ _ _

theorem orthoRLStep_tag (qr : QRRoutine) (t : T3f.TT ℝ) (i : ℕ) (s : List (T3f.Tensor ℝ) × ℕ) :
    orthoRLStep qr (tagT d t) i (s.1.map (tag d), s.2) = (fun s : List (T3f.Tensor ℝ) × ℕ => (s.1.map (tag d), s.2)) <$> T3f.orthoRLStep qr t i s := by
  unfold orthoRLStep T3f.orthoRLStep
  simp only [pyGet_map, bind_map, tagT_ttRanks, tagT_erase, reshape_tag, transpose_tag, linalgQR_tag, tag_val, matmul_tag, ← List.map_set, map_bind, map_pure]

theorem orthoRL_tag (qr : QRRoutine) (t : T3f.TT ℝ) : orthoRL qr (tagT d t) = tagT d <$> T3f.orthoRL qr t := by
  unfold orthoRL T3f.orthoRL
  rw [tagT_length]
  simp only [tagT_ttRanks, map_bind]
  refine bind_congr' fun r0 => ?_
  rw [tagT_cores, forRange_tag (fun j => orthoRLStep_tag d qr t (t.ndims - 1 - j)) _ 0 (t.cores, r0), bind_map]
  refine bind_congr' fun s => ?_
  simp only [pyGet_map, bind_map, tagT_erase, reshape_tag, tagT_rawShape, ← List.map_set, mkTT_tag]

theorem orthogonalize_tag (qr : QRRoutine) (t : T3f.TT ℝ) (lr : Bool) : orthogonalize qr (tagT d t) lr = tagT d <$> T3f.orthogonalize qr t lr := by
  unfold orthogonalize T3f.orthogonalize
  rw [orthoLR_tag, orthoRL_tag, tagT_erase, map_ite, map_ite, map_error]

theorem linalgSVD_tag (svd : SVDRoutine) (A : T3f.Tensor ℝ) :
    linalgSVD svd (tag d A) = (fun p => (tag d p.1, tag d p.2.1, tag d p.2.2)) <$> T3f.linalgSVD svd A := by
  unfold linalgSVD
  exact bind_pure_map _ _

theorem takeLast_tag (x : T3f.Tensor K) (n r : ℕ) : takeLast (tag d x) n r = tag d <$> T3f.takeLast x n r := lift_tag d _ x

theorem linalgDiag_tag (s : T3f.Tensor ℝ) : linalgDiag (tag d s) = tag d <$> T3f.linalgDiag s := lift_tag d _ s

theorem roundStep_tag (svd : SVDRoutine) (t : T3f.TT ℝ) (bounds : List ℕ) (i : ℕ) (s : List (T3f.Tensor ℝ) × List ℕ) :
    roundStep svd (tagT d t) bounds i (s.1.map (tag d), s.2) =
      (fun s : List (T3f.Tensor ℝ) × List ℕ => (s.1.map (tag d), s.2)) <$> T3f.roundStep svd t bounds i s := by
  unfold roundStep T3f.roundStep
  simp only [pyGet_map, bind_map, tagT_batch, tagT_erase, reshape_tag, transpose_tag, linalgSVD_tag, takeLast_tag, linalgDiag_tag, tag_val, matmul_tag,
    ← List.map_set, map_bind, map_pure]

theorem roundWith_tag (qr : QRRoutine) (svd : SVDRoutine) (t : T3f.TT ℝ) (bounds : List ℕ) :
    roundWith qr svd (tagT d t) bounds = tagT d <$> T3f.roundWith qr svd t bounds := by
  unfold roundWith T3f.roundWith
  rw [tagT_length]
  simp only [orthogonalize_tag, bind_map, map_bind]
  refine bind_congr' fun o => ?_
  rw [tagT_cores, forRange_tag (fun j => roundStep_tag d svd t bounds (t.ndims - 1 - j)) _ 0 (o.cores, List.replicate (t.ndims + 1) 1), bind_map]
  refine bind_congr' fun s => ?_
  simp only [pyGet_map, bind_map, tagT_erase, tagT_batch, reshape_tag, tagT_rawShape, ← List.map_set]
  refine bind_congr' fun r0 => bind_congr' fun r1 => bind_congr' fun f => bind_congr' fun f => ?_
  cases t.batch with
  | none => exact mkTT_tag d _ _ _
  | some n => exact mkBatch_tag d _ _ _ _

theorem ttRound_tag (qr : QRRoutine) (svd : SVDRoutine) (t : T3f.TT ℝ) (m : MaxRank) (eps : Option ℝ) :
    ttRound qr svd (tagT d t) m eps = tagT d <$> T3f.ttRound qr svd t m eps := by
  unfold ttRound T3f.ttRound
  rw [tagT_length, tagT_erase]
  simp only [roundWith_tag, map_bind, map_ite]

theorem renormalize_tag {t : T3f.TT ℝ} (h : t.cores ≠ []) (eps : ℝ) : renormalize (tagT d t) eps = tagT d <$> T3f.renormalize t eps := by
  unfold renormalize
  rw [tagT_dtype_of d h, ok_bind, show (⟨d, scalar eps⟩ : Tensor ℝ) :: (tagT d t).cores = (scalar eps :: t.cores).map (tag d) from rfl,
    common_tag d _ (by simp), ok_bind, tagT_erase]
  exact bind_pure_map _ _

theorem concat_tag_all (ax : ℕ) (l : List (T3f.Tensor K)) : concat ax (l.map (tag d)) = tag d <$> T3f.concat ax l := by
  cases l with
  | nil => rfl
  | cons t l => exact concat_tag d ax _ (by simp)

theorem concatAlongBatchDim_tag (ts : List (T3f.TT K)) : concatAlongBatchDim (ts.map (tagT d)) = tagT d <$> T3f.concatAlongBatchDim ts := by
  unfold concatAlongBatchDim T3f.concatAlongBatchDim
  simp only [List.length_map, pyGet_map, bind_map, tagT_cores, tagT_erase, tagT_rawShape, tagT_ttRanks, T3f.TT.ndims, ← map_bind, mapRange_map, concat_tag_all,
    List.map_map, mkBatch_tag]
  rfl

theorem convertToTensor_dtype {w : Arg K} {x : Tensor K} (h : convertToTensor d w = Except.ok x) : x.dtype = d := by
  cases w with
  | python y => cases h; rfl
  | tensor y =>
    by_cases e : y.dtype = d
    · rw [convertToTensor, if_pos e] at h
      cases h
      exact e
    · rw [convertToTensor, if_neg e] at h
      cases h

theorem multiplyAlongBatchDim_tag [Mul K] {t : T3f.TT K} (h : t.cores ≠ []) (w : Arg K) :
    multiplyAlongBatchDim (tagT d t) w = (do
      let w ← convertToTensor d w
      tagT d <$> T3f.multiplyAlongBatchDim t w.val) := by
  unfold multiplyAlongBatchDim T3f.multiplyAlongBatchDim
  rw [tagT_dtype_of d h, ok_bind]
  cases hc : convertToTensor d w with
  | error e => rfl
  | ok x =>
    obtain rfl := convertToTensor_dtype d hc
    rw [ok_bind, ok_bind]
    simp only [tagT_cores, tagT_erase, pyGet_map, bind_map, tagT_batch, tagT_rawShape, tagT_ttRanks, map_bind]
    refine bind_congr' fun w' => bind_congr' fun c0 => ?_
    rw [show ∀ y : T3f.Tensor K, (⟨x.dtype, y⟩ : Tensor K) = tag x.dtype y from fun _ => rfl, binop_tag, bind_map]
    refine bind_congr' fun c0' => ?_
    rw [← List.map_set]
    cases t.batch with
    | none => rfl
    | some n => exact mkBatch_tag x.dtype _ _ _ _

end T3f.Dt
