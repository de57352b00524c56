import Verif.Model.TypedApprox
import Verif.Proofs.TypedMixed2
import Verif.Proofs.DescribedCalls

/-!
# Sums of objects of one data type, and of different data types
-/

namespace T3f.Dt

variable (d : DType)

theorem ttRound_ne_nil {qr : QRRoutine} {svd : SVDRoutine} {t x : T3f.TT ℝ} {m : MaxRank} {eps : Option ℝ} (h : T3f.ttRound qr svd t m eps = Except.ok x) :
    x.cores ≠ [] := by
  have h : ∃ bounds, T3f.roundWith qr svd t bounds = Except.ok x := by
    unfold T3f.ttRound at h
    dsimp only at h
    split_ifs at h
    · obtain ⟨bounds, -, h⟩ := bind_ok_iff.1 h
      exact ⟨bounds, h⟩
    · obtain ⟨bounds, -, h⟩ := bind_ok_iff.1 h
      exact ⟨bounds, h⟩
  obtain ⟨bounds, h⟩ := h
  unfold T3f.roundWith at h
  obtain ⟨o, -, h⟩ := bind_ok_iff.1 h
  obtain ⟨s, -, h⟩ := bind_ok_iff.1 h
  obtain ⟨r0, -, h⟩ := bind_ok_iff.1 h
  obtain ⟨r1, -, h⟩ := bind_ok_iff.1 h
  obtain ⟨f, -, h⟩ := bind_ok_iff.1 h
  obtain ⟨g, -, h⟩ := bind_ok_iff.1 h
  cases hb : t.batch with
  | none => rw [hb] at h; exact mkTT_ne_nil h
  | some n => rw [hb] at h; exact mkBatch_ne_nil h

theorem addNLevel_ne_nil {qr : QRRoutine} {svd : SVDRoutine} {m : MaxRank} {prev next : List (T3f.TT ℝ)} (hp : ∀ t ∈ prev, t.cores ≠ [])
    (h : T3f.addNLevel qr svd m prev = Except.ok next) : ∀ t ∈ next, t.cores ≠ [] := by
  intro t ht
  obtain ⟨j, -, hj⟩ := mapM_mem h t ht
  obtain ⟨x, hx, hj⟩ := bind_ok_iff.1 hj
  split_ifs at hj
  · obtain ⟨y, -, hj⟩ := bind_ok_iff.1 hj
    obtain ⟨z, -, hj⟩ := bind_ok_iff.1 hj
    exact ttRound_ne_nil hj
  · cases hj
    exact hp _ (pyGet_mem hx)

theorem addNLevel_tag (qr : QRRoutine) (svd : SVDRoutine) (m : MaxRank) {prev : List (T3f.TT ℝ)} (hp : ∀ t ∈ prev, t.cores ≠ []) :
    addNLevel qr svd m (prev.map (tagT d)) = List.map (tagT d) <$> T3f.addNLevel qr svd m prev := by
  unfold addNLevel T3f.addNLevel
  rw [List.length_map]
  refine mapRange_tag fun j => ?_
  simp only [pyGet_map, bind_map, map_bind]
  cases hx : pyGet prev (2 * j) with
  | error e => rfl
  | ok x =>
    simp only [ok_bind, add_tag d (hp x (pyGet_mem hx)), ttRound_tag, map_ite, map_bind, bind_map, map_pure]

theorem addNLoop_tag (qr : QRRoutine) (svd : SVDRoutine) (m : MaxRank) : ∀ (fuel : ℕ) (prev : List (T3f.TT ℝ)) (_ : ∀ t ∈ prev, t.cores ≠ []),
    addNLoop qr svd m fuel (prev.map (tagT d)) = List.map (tagT d) <$> T3f.addNLoop qr svd m fuel prev
  | 0, _, _ => rfl
  | fuel + 1, prev, hp => by
    unfold addNLoop T3f.addNLoop
    simp only [List.length_map, addNLevel_tag d qr svd m hp, bind_map, map_ite, map_bind, map_pure]
    split_ifs
    · cases hn : T3f.addNLevel qr svd m prev with
      | error e => rfl
      | ok next => exact addNLoop_tag qr svd m fuel next (addNLevel_ne_nil hp hn)
    · rfl

theorem addN_tag (qr : QRRoutine) (svd : SVDRoutine) {ts : List (T3f.TT ℝ)} (hp : ∀ t ∈ ts, t.cores ≠ []) (m : MaxRank) :
    addN qr svd (ts.map (tagT d)) m = tagT d <$> T3f.addN qr svd ts m := by
  unfold addN T3f.addN
  simp only [List.length_map, addNLoop_tag d qr svd m _ ts hp, bind_map, map_bind, pyGet_map]

theorem repeatCore_tag (coef core : T3f.Tensor ℝ) (N idx : ℕ) : repeatCore (tag d coef) (tag d core) N idx = tag d <$> T3f.repeatCore coef core N idx := by
  unfold repeatCore T3f.repeatCore
  simp only [tag_val, tag_dtype, reshape_tag, tile_tag, bind_map, map_bind]
  refine bind_congr' fun n => bind_congr' fun x => bind_congr' fun y => ?_
  rw [show ∀ z : T3f.Tensor ℝ, (⟨d, z⟩ : Tensor ℝ) = tag d z from fun _ => rfl]
  split
  · rw [binop_tag, bind_map, map_bind]
    simp only [reshape_tag]
  · exact reshape_tag d _ _

theorem weightBatch_tag {t : T3f.TT ℝ} (h : t.cores ≠ []) (w : Option (T3f.Tensor ℝ)) (w' : Option (Arg ℝ))
    (hw : match w', w with
      | none, none => True
      | some a, some x => convertToTensor d a = Except.ok (tag d x)
      | _, _ => False) :
    weightBatch (tagT d t) w' = (fun p => (tagT d p.1, p.2)) <$> T3f.weightBatch t w := by
  cases w' with
  | none =>
    cases w with
    | none => rfl
    | some x => exact hw.elim
  | some a =>
    cases w with
    | none => exact hw.elim
    | some x =>
      have hw : convertToTensor d a = Except.ok (tag d x) := hw
      unfold weightBatch T3f.weightBatch
      simp only [tagT_dtype_of d h, ok_bind, hw, tag_val]
      rcases hs : x.shape with _ | ⟨n, _ | ⟨N, _ | ⟨k, l⟩⟩⟩
      · rfl
      · dsimp only
        rw [multiplyAlongBatchDim_tag d h]
        simp only [convertToTensor, tag_dtype, if_true, ok_bind, bind_map, map_bind, tag_val, map_pure]
      · dsimp only
        rw [tagT_erase]
        simp only [tagT_cores, tagT_rawShape, tagT_ttRanks, pyGet_map, bind_map, repeatCore_tag, ← map_bind, mapRange_map, mkBatch_tag]
        simp only [map_bind, map_pure]
        rfl
      · rfl

theorem padOdd_tag (a b : T3f.Tensor ℝ) : padOdd d (tag d a) (tag d b) = tag d <$> T3f.padOdd a b := by
  unfold padOdd T3f.padOdd
  simp only [tag_val, zeros_tag, concat_tag2, map_bind, map_ite, map_pure]

theorem halves_tag (out : Option ℕ) (c : T3f.Tensor ℝ) : halves d out (tag d c) = (fun p => (tag d p.1, tag d p.2)) <$> T3f.halves out c := by
  unfold halves T3f.halves splitFirst mergeFirst
  simp only [lift_tag, getItem_tag, padOdd_tag, bind_map, map_bind, map_pure]

theorem addCore_tag' (axL axR nd i : ℕ) (us ls : R (List ℕ)) (a b : T3f.Tensor ℝ) :
    addCore d axL axR nd i us ls (tag d a) (tag d b) = tag d <$> T3f.addCore axL axR nd i us ls a b := by
  unfold addCore T3f.addCore
  simp only [concat_tag2, zeros_tag, map_bind, map_ite, bind_map]

theorem reduceLevel_tag (qr : QRRoutine) (svd : SVDRoutine) (m : MaxRank) (out : Option ℕ) (t : T3f.TT ℝ) :
    reduceLevel qr svd m d out (tagT d t) = tagT d <$> T3f.reduceLevel qr svd m out t := by
  unfold reduceLevel T3f.reduceLevel
  simp only [tagT_erase, tagT_cores, tagT_rawShape, pyGet_map, bind_map, halves_tag, tag_val, addCore_tag', ← map_bind, mapRange_map, mkBatch_tag, ttRound_tag]

theorem reduceLoop_tag (qr : QRRoutine) (svd : SVDRoutine) (m : MaxRank) (out : Option ℕ) : ∀ (fuel : ℕ) (t : T3f.TT ℝ),
    reduceLoop qr svd m d out fuel (tagT d t) = tagT d <$> T3f.reduceLoop qr svd m out fuel t
  | 0, _ => rfl
  | fuel + 1, t => by
    unfold reduceLoop T3f.reduceLoop
    simp only [tagT_batch, reduceLevel_tag, bind_map, map_ite, map_bind, reduceLoop_tag qr svd m out fuel, map_pure]

theorem reduceSumBatch_tag (qr : QRRoutine) (svd : SVDRoutine) {t : T3f.TT ℝ} (h : t.cores ≠ []) (m : MaxRank) (w : Option (T3f.Tensor ℝ)) (w' : Option (Arg ℝ))
    (hw : match w', w with
      | none, none => True
      | some a, some x => convertToTensor d a = Except.ok (tag d x)
      | _, _ => False) :
    reduceSumBatch qr svd (tagT d t) m w' = tagT d <$> T3f.reduceSumBatch qr svd t m w := by
  unfold reduceSumBatch T3f.reduceSumBatch
  simp only [tagT_dtype_of d h, ok_bind, weightBatch_tag d h w w' hw, bind_map, tagT_batch, reduceLoop_tag, map_bind]
  refine bind_congr' fun p => bind_congr' fun l => ?_
  cases p.2 with
  | none => exact batchGetItem_tag d _ _ _
  | some n => rfl

end T3f.Dt
