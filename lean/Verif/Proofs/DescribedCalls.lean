import Verif.Proofs.DescribedTangent
import Verif.Spec.PlainCalls

/-! # Plain calls return described objects -/

namespace T3f

theorem newTT_desc {cs : List (Tensor ℝ)} {shape : ShapeArg} {ranks : Option (List ℕ)} (h : PlainArgs 0 cs shape ranks) : Desc (mkTT cs shape ranks) := by
  obtain ⟨hrk, h⟩ := h
  cases shape with
  | omitted => exact fun u e => (mkTT_omitted_described hrk h u e).1
  | shapes rows => exact mkTT_desc h.1 h.2.2 hrk h.2.1
  | flat l => exact fun u e => mkTT_desc (rows := [l]) (Or.inl rfl) (by simpa using h.2) hrk h.1 u (mkTT_clean (fun r => cleanFlat) e)
  | nested rows =>
    obtain ⟨h1, h2, h3, h4⟩ := h
    match rows, h1 with
    | [a, b], _ =>
      exact fun u e => mkTT_desc (rows := [a, b]) (Or.inr rfl) h3 hrk h2 u (mkTT_clean (fun r => cleanNested (by rw [h3 a (by simp)]; exact h4)) e)

theorem newBatch_desc {cs : List (Tensor ℝ)} {shape : ShapeArg} {ranks : Option (List ℕ)} {bs : Option ℕ} (h : PlainArgs 1 cs shape ranks)
    (hb : bs = none → ∀ c ∈ cs, c.shape.getD 0 0 = (cs.getD 0 default).shape.getD 0 0) : Desc (mkBatch cs shape ranks bs) := by
  obtain ⟨hrk, h⟩ := h
  obtain ⟨n, hn⟩ : ∃ n, bs = some n ∨ bs = none ∧ ∀ k < cs.length, (cs.getD k default).shape.getD 0 0 = n := by
    cases bs with
    | some n => exact ⟨n, Or.inl rfl⟩
    | none => exact ⟨_, Or.inr ⟨rfl, fun k hk => hb rfl _ (by rw [List.getD_eq_getElem _ _ hk]; exact List.getElem_mem _)⟩⟩
  cases shape with
  | omitted => exact fun u e => (mkBatch_omitted_described hrk h hn u e).1
  | shapes rows => exact fun u e => (mkBatch_described h.1 h.2.2 hrk h.2.1 hn u e).1
  | flat l => exact fun u e => (mkBatch_described (rows := [l]) (Or.inl rfl) (by simpa using h.2) hrk h.1 hn u (mkBatch_clean (fun r => cleanFlat) e)).1
  | nested rows =>
    obtain ⟨h1, h2, h3, h4⟩ := h
    match rows, h1 with
    | [a, b], _ =>
      exact fun u e => (mkBatch_described (rows := [a, b]) (Or.inr rfl) h3 hrk h2 hn u
        (mkBatch_clean (fun r => cleanNested (by rw [h3 a (by simp)]; exact h4)) e)).1

theorem getTT_mem {env : List PyVal} {a : ℕ} {t : TT ℝ} (h : getTT env a = Except.ok t) : ∃ on, PyVal.tt t on ∈ env := by
  unfold getTT at h
  split at h
  · rename_i t' on he
    cases h
    exact ⟨on, List.mem_of_getElem? he⟩
  · cases h

theorem getProjected_mem {env : List PyVal} {a : ℕ} {t : Projected} (h : getProjected env a = Except.ok t) : PyVal.tt t.tt t.on ∈ env := by
  unfold getProjected at h
  split at h
  · rename_i t' on he
    cases h
    exact List.mem_of_getElem? he
  · cases h

theorem mapM_mem {α β : Type} {f : α → R β} : ∀ {l : List α} {r : List β}, l.mapM f = Except.ok r → ∀ y ∈ r, ∃ x ∈ l, f x = Except.ok y
  | [], r, h, y, hy => by
    rw [List.mapM_nil] at h
    cases h
    cases hy
  | x :: l, r, h, y, hy => by
    rw [List.mapM_cons] at h
    simp only [bind_ok_iff] at h
    obtain ⟨z, hz, zs, hzs, h⟩ := h
    cases h
    rcases List.mem_cons.1 hy with rfl | hy
    · exact ⟨x, by simp, hz⟩
    · obtain ⟨x', h1, h2⟩ := mapM_mem hzs y hy
      exact ⟨x', by simp [h1], h2⟩

/-- The call returns TT-objects that are described by their metadata. -/
abbrev Good (x : R (List PyVal)) : Prop := Post AllDescribed x

theorem Good.retTT {x : R (TT ℝ)} (h : Desc x) : Good (retTT x) := by
  intro vs e t on ht
  simp only [T3f.retTT, bind_ok_iff] at e
  obtain ⟨y, hy, e⟩ := e
  cases e
  cases List.mem_singleton.1 ht
  exact h _ hy

theorem Good.retOn {x : R (TT ℝ)} (h : Desc x) (a : ℕ) : Good (retOn a x) := by
  intro vs e t on ht
  simp only [T3f.retOn, bind_ok_iff] at e
  obtain ⟨y, hy, e⟩ := e
  cases e
  cases List.mem_singleton.1 ht
  exact h _ hy

theorem Good.retTensor (x : R (Tensor ℝ)) : Good (retTensor x) := by
  intro vs e t on ht
  simp only [T3f.retTensor, bind_ok_iff] at e
  obtain ⟨y, hy, e⟩ := e
  cases e
  cases List.mem_singleton.1 ht

theorem Post.bind {α β : Type} {P : β → Prop} {x : R α} {f : α → R β} (h : ∀ v, x = Except.ok v → Post P (f v)) : Post P (x >>= f) := by
  intro u e
  rw [bind_ok_iff] at e
  obtain ⟨v, hv, e⟩ := e
  exact h v hv u e

section
variable {env : List PyVal} (henv : AllDescribed env)
include henv

theorem Post.tt {β : Type} {P : β → Prop} {a : ℕ} {f : TT ℝ → R β} (h : ∀ t, t.Described → getTT env a = Except.ok t → Post P (f t)) : Post P (getTT env a >>= f) :=
  Post.bind fun t ht => by
    obtain ⟨on, hm⟩ := getTT_mem ht
    exact h t (henv t on hm) ht

theorem Post.tts {β : Type} {P : β → Prop} {as : List ℕ} {f : List (TT ℝ) → R β} (h : ∀ ts, (∀ t ∈ ts, t.Described) → Post P (f ts)) :
    Post P (as.mapM (getTT env) >>= f) :=
  Post.bind fun ts hts => h ts fun t ht => by
    obtain ⟨a, -, ha⟩ := mapM_mem hts t ht
    obtain ⟨on, hm⟩ := getTT_mem ha
    exact henv t on hm

theorem Post.projected {β : Type} {P : β → Prop} {a : ℕ} {f : Projected → R β} (h : ∀ t, t.tt.Described → Post P (f t)) : Post P (getProjected env a >>= f) :=
  Post.bind fun t ht => h t (henv t.tt t.on (getProjected_mem ht))

theorem Post.projecteds {β : Type} {P : β → Prop} {as : List ℕ} {f : List Projected → R β} (h : ∀ ts, (∀ t ∈ ts, t.tt.Described) → Post P (f ts)) :
    Post P (as.mapM (getProjected env) >>= f) :=
  Post.bind fun ts hts => h ts fun t ht => by
    obtain ⟨a, -, ha⟩ := mapM_mem hts t ht
    exact henv t.tt t.on (getProjected_mem ha)

end

theorem Post.any {α β : Type} {P : β → Prop} {x : R α} {f : α → R β} (h : ∀ v, Post P (f v)) : Post P (x >>= f) := Post.bind fun v _ => h v

theorem Post.pure {β : Type} {P : β → Prop} {v : β} (h : P v) : Post P (Pure.pure v : R β) := by
  intro u e
  cases e
  exact h

theorem AllDescribed.single {t : TT ℝ} (on : Option ℕ) (h : t.Described) : AllDescribed [.tt t on] := by
  intro t' on' ht
  cases List.mem_singleton.1 ht
  exact h

theorem squeezeBatch_desc {t : TT ℝ} (h : t.Described) : Desc (squeezeBatchDim t) := fun u e => (squeeze_described h u e).1

theorem expandBatch_desc {t : TT ℝ} (h : t.Described) : Desc (expandBatchDim t) := fun u e => (expand_described h u e).1

theorem PyCall.run_good (qr : QRRoutine) (svd : SVDRoutine) (z : ℕ → List ℕ → ℝ) {env : List PyVal} (henv : AllDescribed env) (c : PyCall) (hp : c.Plain env) :
    Good (c.run qr svd z env) := by
  cases c <;> simp only [PyCall.run] <;> simp only [PyCall.Plain] at hp
  case newTT cores shape ranks => exact Post.bind fun cs hcs => Good.retTT (newTT_desc (hp cs hcs))
  case newBatch cores shape ranks bs => exact Post.bind fun cs hcs => Good.retTT (newBatch_desc (hp cs hcs).1 (hp cs hcs).2)
  case core => exact Post.any fun _ => Good.retTensor _
  case elementwise => exact Post.any fun _ => Good.retTensor _
  case elementwise2 => exact Post.any fun _ => Post.any fun _ => Good.retTensor _
  case item => exact Post.any fun _ => Post.any fun _ => Post.pure (by intro t on h; cases List.mem_singleton.1 h)
  case full => exact Post.any fun _ => Good.retTensor _
  case add => exact Post.tt henv fun a ha _ => Post.any fun b => Good.retTT (add_desc ha b)
  case sub => exact Post.tt henv fun a ha _ => Post.any fun b => Good.retTT (sub_desc ha b)
  case neg => exact Post.tt henv fun a ha _ => Good.retTT (neg_desc ha)
  case multiply => exact Post.tt henv fun a ha _ => Post.tt henv fun b hb _ => Good.retTT (multiply_desc ha hb)
  case multiplyNumber => exact Post.tt henv fun a ha _ => Post.any fun c => Good.retTT (multiplyScalar_desc ha c)
  case matmul => exact Post.tt henv fun a ha _ => Post.tt henv fun b hb _ => Good.retTT (matmul_desc ha hb)
  case matmulDense => exact Post.any fun _ => Post.any fun _ => Good.retTensor _
  case denseMatmul => exact Post.any fun _ => Post.any fun _ => Good.retTensor _
  case transpose => exact Post.tt henv fun a ha _ => Good.retTT (ttTranspose_desc ha)
  case flatInner => exact Post.any fun _ => Post.any fun _ => Good.retTensor _
  case flatInnerSparse => exact Post.any fun _ => Post.any fun _ => Good.retTensor _
  case normSquared => exact Post.any fun _ => Good.retTensor _
  case norm => exact Post.any fun _ => Good.retTensor _
  case bilinearForm => exact Post.any fun _ => Post.any fun _ => Post.any fun _ => Good.retTensor _
  case bilinearFormTwoMat => exact Post.any fun _ => Post.any fun _ => Post.any fun _ => Post.any fun _ => Good.retTensor _
  case cast f _ => exact Post.tt henv fun a ha _ => Good.retTT (cast_desc f ha)
  case gatherNd => exact Post.any fun _ => Good.retTensor _
  case renormalize => exact Post.tt henv fun a ha _ => Good.retTT (renormalize_desc ha _)
  case getItem => exact Post.tt henv fun a ha _ => Good.retTT (ttGetItem_desc ha _)
  case batchGetItem => exact Post.tt henv fun a ha _ => Good.retTT (batchGetItem_desc ha _ _)
  case expand => exact Post.projected henv fun t ht => Post.bind fun u hu => Post.pure (AllDescribed.single _ (expandBatch_desc ht u hu))
  case squeeze => exact Post.projected henv fun t ht => Post.bind fun u hu => Post.pure (AllDescribed.single _ (squeezeBatch_desc ht u hu))
  case concatBatch => exact Post.tts henv fun ts hts => Good.retTT (concatBatch_desc hts)
  case multiplyBatch => exact Post.tt henv fun a ha hta => Post.bind fun w hw => Good.retTT fun u e => (multiplyBatch_described ha w (hp a w hta hw) u e).1
  case gram => exact Post.any fun _ => Good.retTensor _
  case pairwise => exact Post.any fun _ => Post.any fun _ => Good.retTensor _
  case pairwiseMatrix => exact Post.any fun _ => Post.any fun _ => Post.any fun _ => Good.retTensor _
  case tensorOnes => exact Good.retTT (tensorConst_desc (fun _ => rfl) _)
  case tensorZeros => exact Good.retTT (tensorConst_desc (fun _ => rfl) _)
  case matrixOnes => exact Good.retTT (matrixConst_desc (fun _ => rfl) hp)
  case matrixZeros => exact Good.retTT (matrixConst_desc (fun _ => rfl) hp)
  case eye => exact Good.retTT (eye_desc hp)
  case onesLike => exact Post.tt henv fun a ha e => Good.retTT (constLike_desc (fun _ => rfl) ha (hp a e))
  case zerosLike => exact Post.tt henv fun a ha e => Good.retTT (constLike_desc (fun _ => rfl) ha (hp a e))
  case tensorRandomCores => exact Good.retTT (tensorRandom_desc z _ _ _ _)
  case tensorBatchRandomCores => exact Good.retTT (tensorBatchRandom_desc z _ _ _ _ _)
  case matrixRandomCores => exact Good.retTT (matrixRandom_desc z hp _ _ _)
  case matrixBatchRandomCores => exact Good.retTT (matrixBatchRandom_desc z hp _ _ _ _)
  case randomTensor => exact Good.retTT (randomTensor_desc z _ _ _ _)
  case randomTensorBatch => exact Good.retTT (randomTensorBatch_desc z _ _ _ _ _)
  case randomMatrix => exact Good.retTT (randomMatrix_desc z hp _ _ _)
  case randomMatrixBatch => exact Good.retTT (randomMatrixBatch_desc z hp _ _ _ _)
  case glorot => exact Good.retTT (nnInitializer_desc z _ hp _)
  case he => exact Good.retTT (nnInitializer_desc z _ hp _)
  case lecun => exact Good.retTT (nnInitializer_desc z _ hp _)
  case orthogonalize => exact Post.tt henv fun a ha _ => Good.retTT fun u e => (orthogonalize_like qr ha _ u e).1
  case round => exact Post.tt henv fun a ha _ => Good.retTT (ttRound_desc qr svd ha _ _)
  case toTTTensor => exact Post.any fun x => Good.retTT fun u e => (toTTTensor_described svd x _ _ u e).1
  case toTTMatrix => exact Post.any fun x => Good.retTT (toTTMatrix_desc svd x _ _ _ _)
  case addN => exact Post.tts henv fun ts hts => Good.retTT (addN_desc qr svd hts _)
  case reduceSumBatch => exact Post.tt henv fun a ha _ => Post.any fun c => Good.retTT (reduceSumBatch_desc qr svd ha _ c)
  case project => exact Post.any fun a => Post.tt henv fun w hw _ => Good.retOn (project_desc qr a hw) _
  case projectSum => exact Post.any fun a => Post.tt henv fun w hw _ => Post.any fun c => Good.retOn (projectSum_desc qr a hw c) _
  case projectMatmul => exact Post.tt henv fun a ha _ => Post.tt henv fun w hw _ => Post.any fun A => Good.retOn (projectMatmul_desc qr ha hw A) _
  case pairwiseProjected => exact Post.any fun _ => Post.any fun _ => Good.retTensor _
  case addNProjected =>
    exact Post.projecteds henv fun ts hts => Post.any fun c => Post.bind fun u hu => Post.pure (AllDescribed.single _ (addNProjected_desc hts c u hu))
  case toDeltas =>
    exact Post.any fun _ => Post.any fun ds => Post.pure (by
      intro t on h
      obtain ⟨x, -, hx⟩ := List.mem_map.1 h
      cases hx)
  case fromDeltas ds a left right =>
    refine Post.any fun d => Post.tt henv fun t ht e => Post.bind fun l hl => Post.any fun r => Good.retOn (deltasToTangent_desc qr d ht r (fun l' hl' => ?_) fun h => ?_) _
    · cases left with
      | none => cases hl; cases hl'
      | some k =>
        simp only [getOpt] at hl
        cases hg : getTT env k with
        | error e => rw [hg] at hl; cases hl
        | ok l'' =>
          rw [hg] at hl
          cases hl
          cases hl'
          obtain ⟨on, hm⟩ := getTT_mem hg
          exact ⟨henv _ on hm, hp _ hg⟩
    · cases left with
      | none => exact hp _ e
      | some k =>
        simp only [getOpt] at hl
        cases hg : getTT env k with
        | error e => rw [hg] at hl; cases hl
        | ok l'' =>
          rw [hg] at hl
          cases hl
          cases h
  case determinant => exact Post.any fun _ => Good.retTensor _
  case slogDeterminant =>
    exact Post.any fun _ => Post.any fun ⟨s, l⟩ => Post.pure (by
      intro t on h
      simp at h)
  case inv => exact Post.tt henv fun a ha _ => Good.retTT (kronInv_desc ha)
  case cholesky => exact Post.tt henv fun a ha _ => Good.retTT (kronCholesky_desc ha)

theorem runCalls_good (qr : QRRoutine) (svd : SVDRoutine) (z : ℕ → ℕ → List ℕ → ℝ) : ∀ (p : List PyCall) {env out : List PyVal}, AllDescribed env → PlainRun qr svd z p env →
    runCalls qr svd z p env = Except.ok out → AllDescribed out
  | [], env, out, h, _, e => by
    cases e
    exact h
  | c :: p, env, out, h, hp, e => by
    simp only [runCalls, bind_ok_iff] at e
    obtain ⟨vs, hvs, e⟩ := e
    refine runCalls_good qr svd z p (fun t on ht => ?_) (hp.2 vs hvs) e
    rcases List.mem_append.1 ht with ht | ht
    · exact h t on ht
    · exact PyCall.run_good qr svd _ h c hp.1 vs hvs t on ht

end T3f
