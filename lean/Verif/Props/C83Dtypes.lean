import Verif.Proofs.TypedPrograms
import Verif.Proofs.TypedMixed2
import Verif.Proofs.TTTranspose
import Verif.Proofs.RoundLast

/-!
# C83: data types
-/

namespace T3f.Dt

variable {K : Type} {d e : DType}

theorem follows_tagT {x : R (TT K)} {y : R (T3f.TT K)} (h : x = tagT d <$> y) : Follows d x y := by
  subst h
  cases y with
  | error err => rfl
  | ok s => exact ⟨tagT d s, rfl, tagT_uniform d s, tagT_erase d s⟩

theorem followsDense_tag {x : R (Tensor K)} {y : R (T3f.Tensor K)} (h : x = tag d <$> y) : FollowsDense d x y := by
  subst h
  cases y <;> rfl

theorem cores_ne {t : TT ℝ} (h : t.erase.WF) : t.erase.cores ≠ [] := ne_nil_of_wf h

theorem dtypesCoincide_iff (cores : List (Tensor K)) : dtypesCoincide cores = true ↔ ∃ d, ∀ c ∈ cores, c.dtype = d := by
  cases cores with
  | nil => exact ⟨fun _ => ⟨.float32, by simp⟩, fun _ => rfl⟩
  | cons c cs =>
    unfold dtypesCoincide
    rw [List.all_eq_true]
    constructor
    · intro h
      refine ⟨c.dtype, fun x hx => ?_⟩
      rcases List.mem_cons.mp hx with rfl | hx
      · rfl
      · exact of_decide_eq_true (h x hx)
    · rintro ⟨d, h⟩ x hx
      exact decide_eq_true ((h x (List.mem_cons_of_mem _ hx)).trans (h c (by simp)).symm)

/-- The object with the given cores. -/
def withCores (cores : List (Tensor K)) (s : T3f.TT K) : TT K := ⟨cores, s.rawShape, s.ttRanks, s.batch⟩

theorem mkTT_eq (cores : List (Tensor K)) (sh : ShapeArg) (ranks : Option (List ℕ)) :
    mkTT cores sh ranks = if dtypesCoincide cores then withCores cores <$> T3f.mkTT (cores.map (·.val)) sh ranks
      else cleanRawShape sh >>= fun _ => throw Err.value := by
  unfold mkTT T3f.mkTT
  cases hc : dtypesCoincide cores with
  | false => rfl
  | true =>
    simp only [if_true, map_bind, List.map_map]
    refine bind_congr' fun x => ?_
    rw [show andR (pure true) _ = _ from rfl]
    refine bind_congr' fun b => ?_
    cases b <;> rfl

theorem mkBatch_eq (cores : List (Tensor K)) (sh : ShapeArg) (ranks : Option (List ℕ)) (n : Option ℕ) :
    mkBatch cores sh ranks n = if dtypesCoincide cores then withCores cores <$> T3f.mkBatch (cores.map (·.val)) sh ranks n
      else cleanRawShape sh >>= fun _ => throw Err.value := by
  unfold mkBatch T3f.mkBatch
  cases hc : dtypesCoincide cores with
  | false => rfl
  | true =>
    simp only [if_true, map_bind, List.map_map]
    refine bind_congr' fun x => ?_
    rw [show andR (pure true) _ = _ from rfl]
    refine bind_congr' fun b => ?_
    cases b <;> rfl

theorem mkTT_cores {cores : List (T3f.Tensor K)} {sh : ShapeArg} {ranks : Option (List ℕ)} {s : T3f.TT K} (h : T3f.mkTT cores sh ranks = Except.ok s) :
    s.cores = cores := by
  unfold T3f.mkTT at h
  obtain ⟨x, -, h⟩ := bind_ok_iff.mp h
  obtain ⟨b, -, h⟩ := bind_ok_iff.mp h
  cases b
  · cases h
  · cases h
    rfl

theorem mkBatch_cores {cores : List (T3f.Tensor K)} {sh : ShapeArg} {ranks : Option (List ℕ)} {n : Option ℕ} {s : T3f.TT K}
    (h : T3f.mkBatch cores sh ranks n = Except.ok s) : s.cores = cores := by
  unfold T3f.mkBatch at h
  obtain ⟨x, -, h⟩ := bind_ok_iff.mp h
  obtain ⟨b, -, h⟩ := bind_ok_iff.mp h
  cases b
  · cases h
  · cases h
    rfl

theorem constructor_iff {cores : List (Tensor K)} {x : R (TT K)} {y : R (T3f.TT K)} {z : R Unit}
    (h : x = if dtypesCoincide cores then withCores cores <$> y else z >>= fun _ => throw Err.value)
    (hy : ∀ s, y = Except.ok s → s.cores = cores.map (·.val)) (t : TT K) :
    x = Except.ok t ↔ y = Except.ok t.erase ∧ t.cores = cores ∧ ∃ d, t.Uniform d := by
  subst h
  cases hc : dtypesCoincide cores with
  | false =>
    constructor
    · intro h
      cases z <;> cases h
    · rintro ⟨-, rfl, h⟩
      rw [(dtypesCoincide_iff _).mpr h] at hc
      cases hc
  | true =>
    rw [if_pos rfl]
    constructor
    · intro h
      cases y with
      | error err => cases h
      | ok s =>
        cases h
        have := hy s rfl
        refine ⟨?_, rfl, (dtypesCoincide_iff _).mp hc⟩
        obtain ⟨cs, a, b, c⟩ := s
        cases this
        rfl
    · rintro ⟨rfl, rfl, -⟩
      rfl

/-- **C83.** `TensorTrain(cores, shape, ranks)` succeeds exactly if it does without looking at the data types and all cores have the same data type; it keeps the
cores. -/
theorem C83_tensor_train (cores : List (Tensor K)) (sh : ShapeArg) (ranks : Option (List ℕ)) (t : TT K) :
    mkTT cores sh ranks = Except.ok t ↔ T3f.mkTT (cores.map (·.val)) sh ranks = Except.ok t.erase ∧ t.cores = cores ∧ ∃ d, t.Uniform d :=
  constructor_iff (z := cleanRawShape sh >>= fun _ => pure ()) (by rw [mkTT_eq]; cases cleanRawShape sh <;> rfl) (fun _ h => mkTT_cores h) t

/-- **C83.** The same for `TensorTrainBatch`. -/
theorem C83_batch (cores : List (Tensor K)) (sh : ShapeArg) (ranks : Option (List ℕ)) (n : Option ℕ) (t : TT K) :
    mkBatch cores sh ranks n = Except.ok t ↔ T3f.mkBatch (cores.map (·.val)) sh ranks n = Except.ok t.erase ∧ t.cores = cores ∧ ∃ d, t.Uniform d :=
  constructor_iff (z := cleanRawShape sh >>= fun _ => pure ()) (by rw [mkBatch_eq]; cases cleanRawShape sh <;> rfl) (fun _ h => mkBatch_cores h) t

/-- **C83.** Cores of different data types are rejected by the constructors, with ValueError if everything else is fine. -/
theorem C83_mixed_cores (cores : List (Tensor K)) (h : ¬ ∃ d, ∀ c ∈ cores, c.dtype = d) (sh : ShapeArg) (ranks : Option (List ℕ)) (n : Option ℕ) :
    Rejects Err.value (mkTT cores sh ranks) (T3f.mkTT (cores.map (·.val)) sh ranks) ∧
      Rejects Err.value (mkBatch cores sh ranks n) (T3f.mkBatch (cores.map (·.val)) sh ranks n) := by
  have hc : ¬ dtypesCoincide cores = true := fun hc => h ((dtypesCoincide_iff _).mp hc)
  rw [mkTT_eq, mkBatch_eq, if_neg hc, if_neg hc]
  unfold T3f.mkTT T3f.mkBatch
  cases cleanRawShape sh with
  | error err => exact ⟨⟨⟨err, rfl⟩, fun s hs => by cases hs⟩, ⟨err, rfl⟩, fun s hs => by cases hs⟩
  | ok x => exact ⟨⟨⟨_, rfl⟩, fun _ _ => rfl⟩, ⟨_, rfl⟩, fun _ _ => rfl⟩

/-- **C83.** A program of any depth: it succeeds exactly if it has a data type and a type. Then all cores of the result, and its dense form, have that data type
(that of the operands, or that of the last cast), and the values are those of the program without casts. If operands of different data types meet, TensorFlow
raises. -/
theorem C83_programs {qr : QRRoutine} (hqr : qr.Correct) (e : DExpr) (h : e.Ok) :
    match e.dtype, e.plain.ty with
    | some d, some τ => ∃ t F, e.run qr = Except.ok t ∧ t.Uniform d ∧ t.erase.WF ∧ t.rawShape = τ.raw ∧ t.batch = τ.batch ∧
        full t = Except.ok F ∧ F.dtype = d ∧ F.val.shape = τ.batch.toList ++ τ.shape ∧
        ∀ o i, τ.HasItem o → Valid τ.shape i → F.val.get (bsel τ.batch o ++ i) = e.plain.value o i
    | none, some _ => e.run qr = Except.error Err.tf
    | _, none => ∃ err, e.run qr = Except.error err := by
  have hg := good hqr e h
  have hc := C51_closure hqr e.plain (plain_ok h)
  revert hc
  cases hd : e.dtype with
  | none =>
    cases hτ : e.plain.ty with
    | none => exact fun _ => (hg.mixed hd).1
    | some τ =>
      rintro ⟨t, F, et, -⟩
      exact (hg.mixed hd).2 t et
  | some d =>
    rw [hg.ok d hd]
    cases hτ : e.plain.ty with
    | none =>
      rintro ⟨err, he⟩
      exact ⟨err, by rw [he]; rfl⟩
    | some τ =>
      rintro ⟨t, F, et, hw, hr, hb, eF, sF, vF⟩
      refine ⟨tagT d t, tag d F, by rw [et]; rfl, tagT_uniform d t, by rw [tagT_erase]; exact hw, hr, hb, ?_, rfl, sF, vF⟩
      rw [full_tag, eF]
      rfl

/-- **C83.** In particular the operands of every operation must have the same data type. -/
theorem C83_ok_iff {qr : QRRoutine} (hqr : qr.Correct) (e : DExpr) (h : e.Ok) :
    (∃ t, e.run qr = Except.ok t) ↔ e.dtype ≠ none ∧ e.plain.ty ≠ none := by
  have := C83_programs hqr e h
  revert this
  cases e.dtype <;> cases e.plain.ty
  · rintro ⟨err, he⟩; simp [he]
  · intro he; simp only [he]; simp
  · rintro ⟨err, he⟩; simp [he]
  · rintro ⟨t, F, he, -⟩; simp [he]

/-- **C83.** `flat_inner` -/
theorem C83_flat_inner (a b : TT ℝ) (ha : a.Uniform d) (hb : b.Uniform e) :
    (d = e → FollowsDense d (flatInner a b) (T3f.flatInner a.erase b.erase)) ∧
      (d ≠ e → Rejects Err.tf (flatInner a b) (T3f.flatInner a.erase b.erase)) := by
  rw [eq_tagT ha, eq_tagT hb, tagT_erase, tagT_erase]
  refine ⟨fun h => ?_, fun h => flatInner_mixed h⟩
  subst h
  exact followsDense_tag (flatInner_tag d _ _)

/-- **C83.** Products of a TT-matrix with a dense matrix. -/
theorem C83_dense_matmul (a : TT ℝ) (B : Tensor ℝ) (ha : a.Uniform d) (h : a.erase.WF) {I J : List ℕ} (hr : a.rawShape = [I, J]) :
    (B.dtype = d → FollowsDense d (ttDenseMatmul a B) (T3f.ttDenseMatmul a.erase B.val) ∧ FollowsDense d (denseTTMatmul B a) (T3f.denseTTMatmul B.val a.erase)) ∧
      (B.dtype ≠ d → Rejects Err.tf (ttDenseMatmul a B) (T3f.ttDenseMatmul a.erase B.val) ∧
        Rejects Err.tf (denseTTMatmul B a) (T3f.denseTTMatmul B.val a.erase)) := by
  obtain ⟨f, B⟩ := B
  have hr' : a.erase.rawShape = [I, J] := hr
  revert h hr'
  rw [eq_tagT ha, tagT_erase]
  intro h hr'
  refine ⟨fun hf => ?_, fun hf => ⟨ttDenseMatmul_mixed (Ne.symm hf) h B, denseTTMatmul_mixed hf B fun t ht => ?_⟩⟩
  · subst hf
    exact ⟨followsDense_tag (ttDenseMatmul_tag _ _ B), followsDense_tag (denseTTMatmul_tag _ B _)⟩
  · obtain ⟨c, hc, hw, -⟩ := ttTranspose_spec h hr'
    rw [hc] at ht
    cases ht
    exact hw

/-- **C83.** `round` keeps the data type. -/
theorem C83_round (qr : QRRoutine) (svd : SVDRoutine) (t : TT ℝ) (ht : t.Uniform d) (m : MaxRank) (eps : Option ℝ) :
    Follows d (ttRound qr svd t m eps) (T3f.ttRound qr svd t.erase m eps) := by
  rw [eq_tagT ht, tagT_erase]
  exact follows_tagT (ttRound_tag d qr svd _ m eps)

/-- **C83.** `project`: different data types are rejected with ValueError. -/
theorem C83_project (qr : QRRoutine) (what whr : TT ℝ) (h1 : what.Uniform d) (h2 : whr.Uniform e) (w1 : what.erase.WF) (w2 : whr.erase.WF) :
    (d = e → Follows d (project qr what whr) (T3f.project qr what.erase whr.erase)) ∧
      (d ≠ e → project qr what whr = Except.error Err.value) := by
  revert w1 w2
  rw [eq_tagT h1, eq_tagT h2, tagT_erase, tagT_erase]
  intro w1 w2
  refine ⟨fun h => ?_, fun h => project_mixed qr h (ne_nil_of_wf w1) (ne_nil_of_wf w2)⟩
  subst h
  exact follows_tagT (project_tag d qr (ne_nil_of_wf w1) (ne_nil_of_wf w2))

/-- **C83.** `project_sum` without weights. -/
theorem C83_project_sum (qr : QRRoutine) (what whr : TT ℝ) (h1 : what.Uniform d) (h2 : whr.Uniform e) (w1 : what.erase.WF) (w2 : whr.erase.WF) :
    (d = e → Follows d (projectSum qr what whr none) (T3f.projectSum qr what.erase whr.erase none)) ∧
      (d ≠ e → projectSum qr what whr none = Except.error Err.value) := by
  revert w1 w2
  rw [eq_tagT h1, eq_tagT h2, tagT_erase, tagT_erase]
  intro w1 w2
  refine ⟨fun h => ?_, fun h => projectSum_mixed qr h w1 (ne_nil_of_wf w2) none⟩
  subst h
  exact follows_tagT (projectSum_tag d qr (ne_nil_of_wf w1) (ne_nil_of_wf w2) (x := none) rfl)

/-- **C83.** `project_sum` with weights: weights of Python or NumPy are converted, tensors of another data type are rejected with ValueError, and so are different
data types of the objects. -/
theorem C83_project_sum_weights (qr : QRRoutine) (what whr : TT ℝ) (h1 : what.Uniform d) (h2 : whr.Uniform e) (w1 : what.erase.WF) (w2 : whr.erase.WF)
    (x : T3f.Tensor ℝ) (f : DType) :
    (d = e → Follows d (projectSum qr what whr (some (.python x))) (T3f.projectSum qr what.erase whr.erase (some x))) ∧
      (d = e → f = e → Follows d (projectSum qr what whr (some (.tensor ⟨f, x⟩))) (T3f.projectSum qr what.erase whr.erase (some x))) ∧
      (d ≠ e → projectSum qr what whr (some (.python x)) = Except.error Err.value) ∧
      (d ≠ e ∨ f ≠ e → projectSum qr what whr (some (.tensor ⟨f, x⟩)) = Except.error Err.value) := by
  revert w1 w2
  rw [eq_tagT h1, eq_tagT h2, tagT_erase, tagT_erase]
  intro w1 w2
  have n1 := ne_nil_of_wf w1
  have n2 := ne_nil_of_wf w2
  refine ⟨fun h => ?_, fun h hf => ?_, fun h => projectSum_mixed qr h w1 n2 _, fun h => ?_⟩
  · subst h
    refine follows_tagT (projectSum_tag d qr n1 n2 (x := some x) ?_)
    simp only [convertWeights, tagT_dtype_of d n2, ok_bind]
    rfl
  · subst h
    subst hf
    refine follows_tagT (projectSum_tag f qr n1 n2 (x := some x) ?_)
    simp only [convertWeights, tagT_dtype_of f n2, ok_bind, convertToTensor, if_true]
    rfl
  · by_cases hd : d = e
    · have hf : f ≠ e := h.resolve_left fun h => h hd
      obtain ⟨w, n, hw, -⟩ := expand_fl w1
      unfold projectSum
      rw [expandBatchDim_tag, hw, map_ok, ok_bind]
      simp only [convertWeights, tagT_dtype_of e n2, ok_bind, convertToTensor, hf, if_false]
      rfl
    · exact projectSum_mixed qr hd w1 n2 _

/-- **C83.** `project_matmul` compares the data types of `what` and `where`; for the matrix TensorFlow does. -/
theorem C83_project_matmul (qr : QRRoutine) (what whr A : TT ℝ) {f : DType} (h1 : what.Uniform d) (h2 : whr.Uniform e) (h3 : A.Uniform f) (w1 : what.erase.WF)
    (w2 : whr.erase.WF) :
    (d = e → f = d → Follows d (projectMatmul qr what whr A) (T3f.projectMatmul qr what.erase whr.erase A.erase)) ∧
      (d ≠ e → projectMatmul qr what whr A = Except.error Err.value) ∧
      (d = e → f ≠ d → Rejects Err.tf (projectMatmul qr what whr A) (T3f.projectMatmul qr what.erase whr.erase A.erase)) := by
  revert w1 w2
  rw [eq_tagT h1, eq_tagT h2, eq_tagT h3, tagT_erase, tagT_erase, tagT_erase]
  intro w1 w2
  have n1 := ne_nil_of_wf w1
  have n2 := ne_nil_of_wf w2
  refine ⟨fun h hf => ?_, fun h => projectMatmul_mixed qr h n1 n2 _, fun h hf => ?_⟩
  · subst h
    subst hf
    exact follows_tagT (projectMatmul_tag _ qr _ n1 n2)
  · subst h
    exact projectMatmul_matrix_mixed qr (Ne.symm hf) n1 n2

/-- **C83.** `concat_along_batch_dim`: all objects must have the same data type. -/
theorem C83_concat (ts : List (TT ℝ)) (hw : ∀ t ∈ ts, t.erase.WF) (hu : ∀ t ∈ ts, ∃ d, t.Uniform d) :
    (∀ d, (∀ t ∈ ts, t.Uniform d) → Follows d (concatAlongBatchDim ts) (T3f.concatAlongBatchDim (ts.map TT.erase))) ∧
      ((¬ ∃ d, ∀ t ∈ ts, t.Uniform d) → Rejects Err.tf (concatAlongBatchDim ts) (T3f.concatAlongBatchDim (ts.map TT.erase))) := by
  constructor
  · intro d hd
    have : ts = (ts.map TT.erase).map (tagT d) := by
      rw [List.map_map]
      exact (List.map_id ts).symm.trans (List.map_congr_left fun t ht => eq_tagT (hd t ht))
    have h := follows_tagT (concatAlongBatchDim_tag d (ts.map TT.erase))
    rw [← this] at h
    exact h
  · intro hn
    cases ts with
    | nil => exact absurd ⟨.float32, by simp⟩ hn
    | cons x ts =>
      obtain ⟨d, hd⟩ := hu x (by simp)
      have : ∃ y ∈ x :: ts, ¬ y.Uniform d := by
        by_contra hc
        push Not at hc
        exact hn ⟨d, hc⟩
      obtain ⟨y, hy, hyd⟩ := this
      obtain ⟨e, he⟩ := hu y hy
      have hde : d ≠ e := fun h => hyd (h ▸ he)
      refine concatAlongBatchDim_mixed (fun t ht h0 => ?_) (x := x) (by simp) hy hd he hde
      exact ne_nil_of_wf (hw t ht) (by unfold TT.erase; rw [h0]; rfl)

/-- **C83.** `multiply_along_batch_dim`: weights of Python or NumPy are converted, tensors of another data type are rejected with ValueError (but `multiply` accepts
numbers of all data types). -/
theorem C83_weights (t : TT ℝ) (ht : t.Uniform d) (hw : t.erase.WF) (x : T3f.Tensor ℝ) (f : DType) :
    Follows d (multiplyAlongBatchDim t (.python x)) (T3f.multiplyAlongBatchDim t.erase x) ∧
      (f = d → Follows d (multiplyAlongBatchDim t (.tensor ⟨f, x⟩)) (T3f.multiplyAlongBatchDim t.erase x)) ∧
      (f ≠ d → multiplyAlongBatchDim t (.tensor ⟨f, x⟩) = Except.error Err.value) ∧
      ∀ c, Follows d (multiplyNumber t (.python c)) (T3f.multiplyScalar t.erase c) ∧
        Follows d (multiplyNumber t (.tensor f c)) (T3f.multiplyScalar t.erase c) := by
  revert hw
  rw [eq_tagT ht, tagT_erase]
  intro hw
  have n := ne_nil_of_wf hw
  refine ⟨follows_tagT ?_, fun h => follows_tagT ?_, fun h => ?_, fun c => ⟨follows_tagT (multiplyNumber_tag d n (.python c)), follows_tagT (multiplyNumber_tag d n (.tensor f c))⟩⟩
  · rw [multiplyAlongBatchDim_tag d n]
    rfl
  · rw [multiplyAlongBatchDim_tag d n]
    simp only [convertToTensor, h, if_true, ok_bind]
  · rw [multiplyAlongBatchDim_tag d n]
    simp only [convertToTensor, h, if_false]
    rfl

/-- A 4x2 TT-matrix of the data type `d`. -/
noncomputable def exTyped (d : DType) : TT ℝ := tagT d exMatrix.toReal

theorem exTyped_ok (d : DType) : (DExpr.obj (exTyped d)).Ok := by
  have h : exMatrix.toReal.WF := TT.WF.toReal (by decide)
  have hp : exMatrix.toReal.ModesPos := by
    intro row hrow n hn
    simp [TT.toReal, exMatrix] at hrow
    rcases hrow with rfl | rfl <;> simp at hn <;> omega
  exact ⟨by unfold exTyped; rw [tagT_erase]; exact h, by unfold exTyped; rw [tagT_erase]; exact hp, d, tagT_uniform d _⟩

/-- `cast(A, float32) + B * tf.constant(2., tf.float64)` for `A` of type `float64` and `B` of type `float32`. -/
noncomputable def exProgram : DExpr :=
  .add (.cast .float32 (.obj (exTyped .float64))) (.smul (.tensor .float64 2) (.obj (exTyped .float32)))

example : exProgram.Ok := ⟨exTyped_ok _, exTyped_ok _⟩

example : exProgram.dtype = some .float32 := by
  simp [exProgram, DExpr.dtype, exTyped, tagT, TT.toReal, exMatrix, DExpr.same, tag]

example : exProgram.plain.ty = some ⟨[[2, 2], [1, 2]], none⟩ := by
  simp [exProgram, DExpr.plain, exTyped, tagT_erase, Expr.ty, addTy, Ty.ndims, TT.toReal, exMatrix, AddBatches, bcast]

/-- Without the cast TensorFlow raises. -/
example {qr : QRRoutine} (hqr : qr.Correct) : (DExpr.add (.obj (exTyped .float64)) (.obj (exTyped .float32))).run qr = Except.error Err.tf := by
  have := C83_programs hqr (DExpr.add (.obj (exTyped .float64)) (.obj (exTyped .float32))) ⟨exTyped_ok _, exTyped_ok _⟩
  simpa [DExpr.dtype, exTyped, tagT, TT.toReal, exMatrix, DExpr.same, tag, DExpr.plain, TT.erase, Expr.ty, addTy, Ty.ndims, AddBatches, BCompat, bcast] using this

/-- The hypotheses of the theorems about single operations. -/
example (d : DType) : (exTyped d).Uniform d ∧ (exTyped d).erase.WF ∧ (exTyped d).rawShape = [[2, 2], [1, 2]] :=
  ⟨tagT_uniform _ _, (exTyped_ok d).1, rfl⟩

example (d : DType) : (tagT d exBatch.toReal).Uniform d ∧ (tagT d exBatch.toReal).erase.WF :=
  ⟨tagT_uniform _ _, by rw [tagT_erase]; exact TT.WF.toReal (by decide)⟩

/-- Objects of two data types in one list. -/
example : ¬ ∃ d, ∀ t ∈ [tagT .float32 exBatch.toReal, tagT .float64 exBatch.toReal], t.Uniform d := by
  rintro ⟨d, h⟩
  have h1 := h (tagT .float32 exBatch.toReal) (by simp) (tag .float32 (exBatch.toReal.cores.headD default)) (by simp [tagT, TT.toReal, exBatch])
  have h2 := h (tagT .float64 exBatch.toReal) (by simp) (tag .float64 (exBatch.toReal.cores.headD default)) (by simp [tagT, TT.toReal, exBatch])
  cases h1
  cases h2

/-- Cores of two data types. -/
example : ¬ ∃ d, ∀ c ∈ [tag .float32 (T3f.ones (K := ℝ) [1, 2, 2]), tag .float64 (T3f.ones (K := ℝ) [2, 2, 1])], c.dtype = d := by
  rintro ⟨d, h⟩
  have h1 := h (tag .float32 (T3f.ones [1, 2, 2])) (by simp)
  have h2 := h (tag .float64 (T3f.ones [2, 2, 1])) (by simp)
  cases h1
  cases h2

end T3f.Dt
