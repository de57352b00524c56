import Verif.Proofs.Add
import Verif.Proofs.Matmul
import Verif.Proofs.Inner
import Verif.Proofs.DenseMatmul
import Verif.Spec.Trace

/-!
# Traced functions
-/

namespace T3f

variable {K : Type}

theorem tracedLike_ok [Zero K] {ob : Option ℕ} {cores : List (Tensor K)} {r : ℕ → ℕ} {M : ℕ → List ℕ}
    {nm : ℕ} (h : Chain ob cores r M nm) (inf : Bool) (s : Option BSize) (hs : SizeFits s ob)
    (rows : List (List ℕ)) (hrows : rows = rowsOf M cores.length nm)
    (rk : List ℕ) (hrk : rk = ranksOf r cores.length) :
    ∃ s', tracedLike inf s cores rows rk = Except.ok ⟨chainTT ob cores r M nm, s'⟩ ∧ SizeFits s' ob ∧
      (s ≠ some .unknown → s' = s) ∧ (s' = some .tensor → s = some .tensor) := by
  obtain ⟨h1, h2⟩ := hs
  subst hrows hrk
  rcases s with _ | s
  · have : ob = none := by cases ob <;> simp_all
    subst this
    refine ⟨none, ?_, ⟨by simp, by simp⟩, fun _ => rfl, fun h => h⟩
    have := mkTT_ok h _ (Or.inr (h.clean rfl)) (some _) (Or.inr rfl)
    simp only [tracedLike, this, R.ok_bind]; rfl
  · obtain ⟨n, rfl⟩ : ∃ n, ob = some n := by cases ob <;> simp_all
    have hmk : ∀ bs, bs = none ∨ bs = some n →
        mkBatch cores (.shapes (rowsOf M cores.length nm)) (some (ranksOf r cores.length)) bs =
          Except.ok (chainTT (some n) cores r M nm) := fun bs hbs =>
      mkBatch_ok h _ (Or.inr (h.clean rfl)) (some _) (Or.inr rfl) bs hbs
    rcases s with m | _ | _
    · obtain rfl : n = m := by simpa using h2 m rfl
      refine ⟨some (.known n), ?_, ⟨by simp, by simp⟩, fun _ => rfl, by simp⟩
      simp only [tracedLike, hmk _ (Or.inr rfl), R.ok_bind]; rfl
    · refine ⟨some (if inf then .known n else .unknown), ?_, ?_, by simp, by cases inf <;> simp⟩
      · simp only [tracedLike, hmk _ (Or.inl rfl), R.ok_bind]; rfl
      · cases inf <;> simp [SizeFits]
    · refine ⟨some .tensor, ?_, ⟨by simp, by simp⟩, fun _ => rfl, fun _ => rfl⟩
      simp only [tracedLike, hmk _ (Or.inl rfl), R.ok_bind]; rfl

theorem SizeFits.known {n : ℕ} {b : Option ℕ} (h : SizeFits (some (.known n)) b) : b = some n := h.2 n rfl

theorem SizeFits.none {b : Option ℕ} (h : SizeFits none b) : b = Option.none := by
  have := h.1; cases b <;> simp_all

theorem SizeFits.some {s : BSize} {b : Option ℕ} (h : SizeFits (some s) b) : ∃ n, b = Option.some n := by
  have := h.1; cases b <;> simp_all

/-- Which static sizes pass the check of the batch sizes. -/
theorem broadcastTraced_matmul {s t : Option BSize} (h : MatmulSizes s t) : broadcastTraced s t = Except.ok true := by
  rcases s with _ | _ | _ | _ <;> rcases t with _ | _ | _ | _ <;>
    simp_all [MatmulSizes, broadcastTraced, BSize.eqCond, BSize.eqOne]
  rename_i m n
  by_cases h1 : m = n
  · simp [h1]
  · by_cases h2 : m = 1
    · simp [h2]
    · simp_all

theorem broadcastTraced_add {s t : Option BSize} (h : AddSizes s t) : broadcastTraced s t = Except.ok true := by
  apply broadcastTraced_matmul
  rcases s with _ | _ | _ | _ <;> rcases t with _ | _ | _ | _ <;> simp_all [MatmulSizes, AddSizes]

theorem Traced.Sound.isBatch {t : Traced K} (h : t.Sound) : t.size.isSome = t.obj.isBatch := by
  have := h.1
  rw [TT.isBatch]
  cases hs : t.size <;> cases hb : t.obj.batch <;> simp_all

theorem expand_eq [Zero K] {t : Traced K} (h : t.Sound) :
    t.expand = (do pure (← expandBatchDim t.obj, t.size.getD (.known 1))) := by
  rcases hs : t.size with _ | s
  · simp only [Traced.expand, hs]; rfl
  · rw [Traced.Sound, hs] at h
    obtain ⟨n, hn⟩ := h.some
    rw [show expandBatchDim t.obj = Except.ok t.obj by simp [expandBatchDim, hn]]
    simp only [Traced.expand, hs]; rfl

variable [CommRing K]

/-- The batch branch of the traced `add`. -/
theorem addTraced_batch {a b : Traced K} (ha : a.obj.WF) (hb : b.obj.WF) (sa : a.Sound) (sb : b.Sound)
    (hd : 2 ≤ a.obj.ndims) (hr : a.obj.rawShape = b.obj.rawShape) (inf : Bool) (n : ℕ) (hn0 : n ≠ 0)
    (s : BSize) (ta tb : Bool) (hbc : broadcastTraced a.size b.size = Except.ok true)
    (hsome : (a.size.isSome || b.size.isSome) = true)
    (e1 : addSizeTraced a b = Except.ok (s, n)) (hs : s = .known n ∨ s = .tensor)
    (e2 : (a.size.getD (.known 1)).eqOne = Except.ok ta) (e3 : (b.size.getD (.known 1)).eqOne = Except.ok tb)
    (hA : (ta = true ∧ (a.obj.batch = none ∨ a.obj.batch = some 1)) ∨ (ta = false ∧ a.obj.batch = some n))
    (hB : (tb = true ∧ (b.obj.batch = none ∨ b.obj.batch = some 1)) ∨ (tb = false ∧ b.obj.batch = some n)) :
    ∃ c, addTraced inf a b = Except.ok ⟨c, some s⟩ ∧ c.WF ∧ c.rawShape = a.obj.rawShape ∧ c.batch = some n ∧
      c.ndims = a.obj.ndims ∧ (∀ k ≤ a.obj.ndims, c.rank k = addRk a.obj.rank b.obj.rank a.obj.ndims k) ∧
      ∀ p m, Valid c.bpre p → c.ValidModes m c.ndims →
        c.entry p m = a.obj.entry (bproj a.obj.bpre p) m + b.obj.entry (bproj b.obj.bpre p) m := by
  have hm : (a.obj.isMatrix ↔ b.obj.isMatrix) := by unfold TT.isMatrix; rw [hr]
  obtain ⟨A, B, cores, ranks, c, eA, bA, eB, bB, hcores, hrk, hmk, hc⟩ :=
    addBatchBody_spec ha hb hd hr n hn0 ta tb hA hB
  refine ⟨c, ?_, hc⟩
  have hb1 : addBatchTraced a b = Except.ok (cores, s) := by
    rw [addBatchTraced, e1, R.ok_bind]
    simp only [expand_eq sa, expand_eq sb, eA, eB, R.ok_bind, R.pure_eq, e2, e3]
    split_ifs at hcores ⊢ <;> rw [hcores] <;> rfl
  simp only [addTraced, require_pos hm, require_pos hr, hbc, require_pos, R.ok_bind, hsome, if_true, hb1, hrk]
  rcases hs with rfl | rfl
  · simp only [tracedLike, hmk _ (Or.inr rfl), R.ok_bind]; rfl
  · simp only [tracedLike, hmk _ (Or.inl rfl), R.ok_bind]; rfl

/-- The traced `add` of two single objects is the eager one. -/
theorem addTraced_single {a b : Traced K} (h1 : a.size = none) (h2 : b.size = none) (sa : a.Sound) (sb : b.Sound)
    (inf : Bool) : addTraced inf a b = (do pure ⟨← add a.obj b.obj, none⟩) := by
  have hbb : ¬ (a.obj.isBatch || b.obj.isBatch) = true := by
    rw [← sa.isBatch, ← sb.isBatch, h1, h2]; simp
  have hbc : isBatchBroadcastingPossible a.obj b.obj = true := by
    have : a.obj.batch = none := SizeFits.none (h1 ▸ (show SizeFits a.size a.obj.batch from sa))
    simp [isBatchBroadcastingPossible, this]
  have hbt : broadcastTraced none none = Except.ok true := rfl
  by_cases hm : a.obj.isMatrix ↔ b.obj.isMatrix
  · by_cases hr : a.obj.rawShape = b.obj.rawShape
    · simp only [addTraced, add, h1, h2, hbt, require_pos hm, require_pos hr, require_pos hbc, require_pos, R.ok_bind,
        if_neg hbb, Option.isSome_none, Bool.or_self, Bool.false_eq_true, if_false, tracedLike]
      split_ifs <;> simp only [bind_assoc]
    · simp only [addTraced, add, require_pos hm, require_neg hr, R.ok_bind, R.error_bind]
  · simp only [addTraced, add, require_neg hm, R.error_bind]

/-- What the traced `add` guarantees on entries. -/
theorem addTraced_spec {a b : Traced K} (ha : a.obj.WF) (hb : b.obj.WF) (sa : a.Sound) (sb : b.Sound)
    (hd : 2 ≤ a.obj.ndims) (hr : a.obj.rawShape = b.obj.rawShape) (inf : Bool) (hs : AddSizes a.size b.size) :
    ∃ c, addTraced inf a b = Except.ok c ∧ c.obj.WF ∧ c.Sound ∧ c.obj.rawShape = a.obj.rawShape ∧
      (c.size = some .tensor ↔ (a.size = some .unknown ∨ b.size = some .unknown)) ∧ c.size ≠ some .unknown ∧
      bshape a.obj.bpre b.obj.bpre = some c.obj.bpre ∧ c.obj.ndims = a.obj.ndims ∧
      (∀ k ≤ a.obj.ndims, c.obj.rank k = addRk a.obj.rank b.obj.rank a.obj.ndims k) ∧
      ∀ p m, Valid c.obj.bpre p → c.obj.ValidModes m c.obj.ndims →
        c.obj.entry p m = a.obj.entry (bproj a.obj.bpre p) m + b.obj.entry (bproj b.obj.bpre p) m := by
  have hbc := broadcastTraced_add hs
  have fa : SizeFits a.size a.obj.batch := sa
  have fb : SizeFits b.size b.obj.batch := sb
  -- the batch branch
  have main : ∀ (n : ℕ) (s : BSize) (ta tb : Bool), n ≠ 0 → (a.size.isSome || b.size.isSome) = true →
      addSizeTraced a b = Except.ok (s, n) → (s = .known n ∨ s = .tensor) →
      (s = .tensor ↔ (a.size = some .unknown ∨ b.size = some .unknown)) →
      (a.size.getD (.known 1)).eqOne = Except.ok ta → (b.size.getD (.known 1)).eqOne = Except.ok tb →
      ((ta = true ∧ (a.obj.batch = none ∨ a.obj.batch = some 1)) ∨ (ta = false ∧ a.obj.batch = some n)) →
      ((tb = true ∧ (b.obj.batch = none ∨ b.obj.batch = some 1)) ∨ (tb = false ∧ b.obj.batch = some n)) →
      bshape a.obj.bpre b.obj.bpre = some [n] →
    ∃ c, addTraced inf a b = Except.ok c ∧ c.obj.WF ∧ c.Sound ∧ c.obj.rawShape = a.obj.rawShape ∧
      (c.size = some .tensor ↔ (a.size = some .unknown ∨ b.size = some .unknown)) ∧ c.size ≠ some .unknown ∧
      bshape a.obj.bpre b.obj.bpre = some c.obj.bpre ∧ c.obj.ndims = a.obj.ndims ∧
      (∀ k ≤ a.obj.ndims, c.obj.rank k = addRk a.obj.rank b.obj.rank a.obj.ndims k) ∧
      ∀ p m, Valid c.obj.bpre p → c.obj.ValidModes m c.obj.ndims →
        c.obj.entry p m = a.obj.entry (bproj a.obj.bpre p) m + b.obj.entry (bproj b.obj.bpre p) m := by
    intro n s ta tb hn0 hsome e1 hs' hst e2 e3 hA hB hbs
    obtain ⟨c, e, w, r, bt, nd, rk, en⟩ := addTraced_batch ha hb sa sb hd hr inf n hn0 s ta tb hbc hsome e1 hs' e2 e3
      hA hB
    refine ⟨⟨c, some s⟩, e, w, ⟨by simp [bt], ?_⟩, r, by simpa using hst, ?_, by rw [hbs]; simp [TT.bpre, bt], nd, rk, en⟩
    · intro m hm
      rcases hs' with rfl | rfl
      · simp_all
      · simp at hm
    · rcases hs' with rfl | rfl <;> simp
  have pa := ha.batch_pos
  have pb := hb.batch_pos
  rcases h1 : a.size with _ | m | _ | _ <;> rcases h2 : b.size with _ | n | _ | _ <;> rw [h1, h2] at hs <;>
    simp only [AddSizes] at hs
  · obtain ⟨c, e, w, r, bt, nd, rk, en⟩ := add_spec ha hb hd hr
      (Or.inl ⟨(h1 ▸ fa).none, (h2 ▸ fb).none⟩)
    refine ⟨⟨c, none⟩, ?_, w, ?_, r, by simp, by simp, bt, nd, rk, en⟩
    · rw [addTraced_single h1 h2 sa sb, e]; rfl
    · have b1 : a.obj.batch = none := (h1 ▸ fa).none
      have b2 : b.obj.batch = none := (h2 ▸ fb).none
      have : c.batch = none := by
        rcases hcb : c.batch with _ | x
        · rfl
        · simp [TT.bpre, b1, b2, hcb, bshape] at bt
      simp [Traced.Sound, SizeFits, this]
  · -- a batch of known size and a single object
    rw [h1, h2] at main
    have b1 : a.obj.batch = some m := (h1 ▸ fa).known
    have b2 : b.obj.batch = none := (h2 ▸ fb).none
    have m0 : m ≠ 0 := fun h => pa (h ▸ b1)
    exact main m (.known m) false true m0 rfl
      (by simp [addSizeTraced, h1, BSize.eqOne, hs, Traced.lazySize]) (Or.inl rfl) (by simp)
      (by simp [BSize.eqOne, hs]) (by simp [BSize.eqOne]) (by simp [b1]) (by simp [b2])
      (by simp [TT.bpre, b1, b2, bshape])
  · -- two batches of known sizes
    rw [h1, h2] at main
    have b1 : a.obj.batch = some m := (h1 ▸ fa).known
    have b2 : b.obj.batch = some n := (h2 ▸ fb).known
    have m0 : m ≠ 0 := fun h => pa (h ▸ b1)
    have n0 : n ≠ 0 := fun h => pb (h ▸ b2)
    by_cases hm1 : m = 1
    · subst hm1
      refine main n (.known n) true (decide (n = 1)) n0 rfl
        (by simp [addSizeTraced, h1, h2, BSize.eqOne, Traced.lazySize]) (Or.inl rfl) (by simp)
        (by simp [BSize.eqOne]) (by simp [BSize.eqOne]) (by simp [b1]) ?_ ?_
      · by_cases hn1 : n = 1 <;> simp [b2, hn1]
      · simp [TT.bpre, b1, b2, bshape]
    · refine main m (.known m) false (decide (n = 1)) m0 rfl
        (by simp [addSizeTraced, h1, BSize.eqOne, hm1, Traced.lazySize]) (Or.inl rfl) (by simp)
        (by simp [BSize.eqOne, hm1]) (by simp [BSize.eqOne]) (by simp [b1]) ?_ ?_
      · by_cases hn1 : n = 1
        · simp [b2, hn1]
        · simp [b2, hn1]; omega
      · simp only [TT.bpre, b1, b2, bshape, Option.toList_some]; split_ifs <;> simp_all
  · -- a batch of the known size one and a batch of unknown size
    rw [h1, h2] at main
    subst hs
    have b1 : a.obj.batch = some 1 := (h1 ▸ fa).known
    obtain ⟨n, b2⟩ := (h2 ▸ fb).some
    have n0 : n ≠ 0 := fun h => pb (h ▸ b2)
    exact main n .tensor true false n0 rfl
      (by simp [addSizeTraced, h1, h2, b2, BSize.eqOne, Traced.lazySize]) (Or.inr rfl) (by simp)
      (by simp [BSize.eqOne]) (by simp [BSize.eqOne]) (by simp [b1]) (by simp [b2])
      (by simp [TT.bpre, b1, b2, bshape])
  · -- a batch of unknown size and a single object
    rw [h1, h2] at main
    obtain ⟨m, b1⟩ := (h1 ▸ fa).some
    have b2 : b.obj.batch = none := (h2 ▸ fb).none
    have m0 : m ≠ 0 := fun h => pa (h ▸ b1)
    exact main m .tensor false true m0 rfl
      (by simp [addSizeTraced, h1, b1, BSize.eqOne, Traced.lazySize]) (Or.inr rfl) (by simp)
      (by simp [BSize.eqOne]) (by simp [BSize.eqOne]) (by simp [b1]) (by simp [b2])
      (by simp [TT.bpre, b1, b2, bshape])
  · -- a batch of unknown size and a batch of the known size one
    rw [h1, h2] at main
    subst hs
    obtain ⟨m, b1⟩ := (h1 ▸ fa).some
    have b2 : b.obj.batch = some 1 := (h2 ▸ fb).known
    have m0 : m ≠ 0 := fun h => pa (h ▸ b1)
    exact main m .tensor false true m0 rfl
      (by simp [addSizeTraced, h1, b1, BSize.eqOne, Traced.lazySize]) (Or.inr rfl) (by simp)
      (by simp [BSize.eqOne]) (by simp [BSize.eqOne]) (by simp [b1]) (by simp [b2])
      (by simp only [TT.bpre, b1, b2, bshape, Option.toList_some]; split_ifs <;> simp_all)

/-- A traced `add` with unsupported static sizes fails. -/
theorem addTraced_error {a b : Traced K} (inf : Bool) (hs : ¬ AddSizes a.size b.size) :
    ∃ e, addTraced inf a b = Except.error e := by
  by_cases hm : a.obj.isMatrix ↔ b.obj.isMatrix
  · by_cases hr : a.obj.rawShape = b.obj.rawShape
    · have key : (∃ e, broadcastTraced a.size b.size = Except.error e) ∨
          broadcastTraced a.size b.size = Except.ok false ∨
          (broadcastTraced a.size b.size = Except.ok true ∧ (a.size.isSome || b.size.isSome) = true ∧
            ∃ e, addSizeTraced a b = Except.error e) := by
        rcases h1 : a.size with _ | m | _ | _ <;> rcases h2 : b.size with _ | n | _ | _ <;> rw [h1, h2] at hs <;>
          simp_all [AddSizes, broadcastTraced, addSizeTraced, BSize.eqCond, BSize.eqOne, Traced.lazySize]
      rcases key with ⟨e, h⟩ | h | ⟨h, h', e, h''⟩
      · exact ⟨e, by simp only [addTraced, require_pos hm, require_pos hr, R.ok_bind, h, R.error_bind]⟩
      · exact ⟨Err.value, by simp only [addTraced, require_pos hm, require_pos hr, R.ok_bind, h, require_neg Bool.false_ne_true, R.error_bind]⟩
      · exact ⟨e, by simp only [addTraced, require_pos hm, require_pos hr, R.ok_bind, h, require_pos, h', if_true,
          addBatchTraced, h'', R.error_bind]⟩
    · exact ⟨_, by simp only [addTraced, require_pos hm, require_neg hr, R.ok_bind, R.error_bind]; rfl⟩
  · exact ⟨_, by simp only [addTraced, require_neg hm, R.error_bind]; rfl⟩

/-! ## Products -/

theorem squeeze_traced {t : Traced K} (w : t.obj.WF) (st : t.Sound) (hs : t.size ≠ some .tensor) :
    ∃ T : Traced K, t.squeeze = Except.ok T ∧ T.obj.WF ∧ T.Sound ∧ T.obj.rawShape = t.obj.rawShape ∧
      T.obj.ttRanks = t.obj.ttRanks ∧ T.obj.ndims = t.obj.ndims ∧
      (T.size = if t.size = some (.known 1) then none else t.size) ∧
      (T.obj.batch = if t.size = some (.known 1) then none else t.obj.batch) ∧
      ∀ o m, Valid t.obj.bpre (bsel t.obj.batch o) → T.obj.ValidModes m T.obj.ndims →
        T.obj.entry (bsel T.obj.batch o) m = t.obj.entry (bsel t.obj.batch o) m := by
  have f : SizeFits t.size t.obj.batch := st
  have stay : t.size ≠ some (.known 1) → t.squeeze = Except.ok t →
      ∃ T : Traced K, t.squeeze = Except.ok T ∧ T.obj.WF ∧ T.Sound ∧ T.obj.rawShape = t.obj.rawShape ∧
      T.obj.ttRanks = t.obj.ttRanks ∧ T.obj.ndims = t.obj.ndims ∧
      (T.size = if t.size = some (.known 1) then none else t.size) ∧
      (T.obj.batch = if t.size = some (.known 1) then none else t.obj.batch) ∧
      ∀ o m, Valid t.obj.bpre (bsel t.obj.batch o) → T.obj.ValidModes m T.obj.ndims →
        T.obj.entry (bsel T.obj.batch o) m = t.obj.entry (bsel t.obj.batch o) m :=
    fun h e => ⟨t, e, w, st, rfl, rfl, rfl, by rw [if_neg h], by rw [if_neg h], fun _ _ _ _ => rfl⟩
  rcases h : t.size with _ | n | _ | _
  · rw [h] at stay; exact stay (by simp) (by simp only [Traced.squeeze, h]; rfl)
  · by_cases hn : n = 1
    · subst hn
      have b1 : t.obj.batch = some 1 := (h ▸ f).known
      obtain ⟨T, eT, wT, rT, kT, nT, bT, vT⟩ := squeeze_bsel w
      have b2 : T.batch = none := by rw [bT, b1]; rfl
      refine ⟨⟨T, none⟩, ?_, wT, by simp [Traced.Sound, SizeFits, b2], rT, kT, nT, by simp, by simp [b2], fun o m ho hm => ?_⟩
      · simp only [Traced.squeeze, h, BSize.eqOne]; simp [eT]
      · have := vT o m ho hm
        rw [b2] at this ⊢
        exact this
    · rw [h] at stay
      exact stay (by simp [hn]) (by simp only [Traced.squeeze, h, BSize.eqOne]; simp [hn])
  · rw [h] at stay; exact stay (by simp) (by simp only [Traced.squeeze, h, BSize.eqOne]; simp)
  · exact absurd h hs

omit [CommRing K] in
/-- What the two operands of a product are after squeezing. -/
theorem matmul_sizes {a b A B : Traced K} (sa : a.Sound) (sb : b.Sound) (hs : MatmulSizes a.size b.size)
    (hA : A.obj.batch = if a.size = some (.known 1) then none else a.obj.batch)
    (hB : B.obj.batch = if b.size = some (.known 1) then none else b.obj.batch) :
    a.size ≠ some .tensor ∧ b.size ≠ some .tensor ∧ BCompat a.obj.batch b.obj.batch ∧
    (A.obj.batch = none ∨ B.obj.batch = none ∨ A.obj.batch = B.obj.batch) ∧
    (resBatch A.obj.batch B.obj.batch).getD 1 = (bcast a.obj.batch b.obj.batch).getD 1 := by
  have fa : SizeFits a.size a.obj.batch := sa
  have fb : SizeFits b.size b.obj.batch := sb
  rcases h1 : a.size with _ | m | _ | _ <;> rcases h2 : b.size with _ | n | _ | _ <;> rw [h1, h2] at hs <;>
    simp only [MatmulSizes] at hs <;> rw [h1] at fa hA <;> rw [h2] at fb hB <;> simp only [hA, hB]
  · simp [fa.none, fb.none, BCompat, bcast, resBatch]
  · by_cases hn : n = 1 <;> simp [fa.none, fb.known, BCompat, bcast, resBatch, hn]
  · obtain ⟨n, hn⟩ := fb.some
    simp [fa.none, hn, BCompat, bcast, resBatch]
  · by_cases hn : m = 1 <;> simp [fb.none, fa.known, BCompat, bcast, resBatch, hn]
  · by_cases hn : n = 1 <;> by_cases hm : m = 1 <;> simp_all [fb.known, fa.known, BCompat, bcast, resBatch]
  · obtain ⟨n, hn⟩ := fb.some
    simp [fa.known, hn, hs, BCompat, bcast, resBatch]
  · obtain ⟨n, hn⟩ := fa.some
    simp [fb.none, hn, BCompat, bcast, resBatch]
  · obtain ⟨n, hn⟩ := fa.some
    simp [fb.known, hn, hs, BCompat, bcast, resBatch]
    split_ifs <;> simp_all

omit [CommRing K] in
theorem matmulSize_ok {A B : Traced K} (sA : A.Sound) (sB : B.Sound) :
    ∃ s, matmulSize A B = Except.ok s ∧ SizeFits s (resBatch A.obj.batch B.obj.batch) ∧ s ≠ some .unknown ∧
      (s = some .tensor ↔ (if B.size.isSome then (B.size = some .unknown ∨ B.size = some .tensor)
        else (A.size = some .unknown ∨ A.size = some .tensor))) := by
  have fA : SizeFits A.size A.obj.batch := sA
  have fB : SizeFits B.size B.obj.batch := sB
  rcases h2 : B.size with _ | n | _ | _
  · rw [h2] at fB
    rcases h1 : A.size with _ | m | _ | _ <;> rw [h1] at fA
    · exact ⟨none, by simp [matmulSize, h1, h2], by simp [SizeFits, fA.none, fB.none, resBatch], by simp, by simp⟩
    · exact ⟨some (.known m), by simp [matmulSize, Traced.lazySize, h1, h2], by
        simp [SizeFits, fA.known, fB.none, resBatch], by simp, by simp⟩
    all_goals
      obtain ⟨m, hm⟩ := fA.some
      exact ⟨some .tensor, by simp [matmulSize, Traced.lazySize, h1, h2, hm], by
        simp [SizeFits, hm, fB.none, resBatch], by simp, by simp⟩
  · rw [h2] at fB
    exact ⟨some (.known n), by simp [matmulSize, Traced.lazySize, h2], by
        simp [SizeFits, fB.known, resBatch], by simp, by simp⟩
  all_goals
    rw [h2] at fB
    obtain ⟨m, hm⟩ := fB.some
    exact ⟨some .tensor, by simp [matmulSize, Traced.lazySize, h2, hm], by
        simp [SizeFits, hm, resBatch], by simp, by simp⟩

omit [CommRing K] in
theorem bsel_lsel_of_lt {b q : Option ℕ} {o : ℕ} (h : b = none ∨ b = q) (ho : o < q.getD 1) : lsel b o = bsel b o := by
  rcases h with rfl | rfl
  · rfl
  · rcases b with _ | n
    · rfl
    · simp only [lsel, bsel]
      simp at ho
      split_ifs with h1
      · simp; omega
      · rfl

/-- What the traced `tt_tt_matmul` guarantees on entries. -/
theorem matmulTraced_spec {a b : Traced K} (ha : a.obj.WF) (hb : b.obj.WF) (sa : a.Sound) (sb : b.Sound)
    {I J L : List ℕ} (hra : a.obj.rawShape = [I, J]) (hrb : b.obj.rawShape = [J, L]) (inf : Bool)
    (hs : MatmulSizes a.size b.size) :
    ∃ c, matmulTraced inf a b = Except.ok c ∧ c.obj.WF ∧ c.Sound ∧ c.obj.rawShape = [I, L] ∧
      (c.size = some .tensor ↔ (a.size = some .unknown ∨ b.size = some .unknown)) ∧ c.size ≠ some .unknown ∧
      c.obj.batch.getD 1 = (bcast a.obj.batch b.obj.batch).getD 1 ∧
      c.obj.ndims = a.obj.ndims ∧ (∀ k ≤ a.obj.ndims, c.obj.rank k = a.obj.rank k * b.obj.rank k) ∧
      ∀ o i l, o < (bcast a.obj.batch b.obj.batch).getD 1 → Valid I i → Valid L l →
        c.obj.entry (bsel c.obj.batch o) (mIdx i l) = ∑ n ∈ Finset.range J.prod,
          a.obj.entry (bsel a.obj.batch o) (mIdx i (unravel J n)) *
          b.obj.entry (bsel b.obj.batch o) (mIdx (unravel J n) l) := by
  have hma : a.obj.isMatrix := by simp [TT.isMatrix, hra]
  have hmb : b.obj.isMatrix := by simp [TT.isMatrix, hrb]
  have hI : I.length = a.obj.ndims := ha.rows_len I (by simp [hra])
  have hJ : J.length = a.obj.ndims := ha.rows_len J (by simp [hra])
  have hn : a.obj.ndims = b.obj.ndims := by rw [← hJ]; exact hb.rows_len J (by simp [hrb])
  have hL : L.length = a.obj.ndims := by rw [hn]; exact hb.rows_len L (by simp [hrb])
  have nta : a.size ≠ some .tensor := by
    intro h; rw [h] at hs; simp [MatmulSizes] at hs
  have ntb : b.size ≠ some .tensor := by
    intro h; rw [h] at hs; rcases a.size with _ | _ | _ | _ <;> simp [MatmulSizes] at hs
  obtain ⟨A, eA, wA, sA, rA, kA, nA, zA, bA, vA⟩ := squeeze_traced ha sa nta
  obtain ⟨B, eB, wB, sB, rB, kB, nB, zB, bB, vB⟩ := squeeze_traced hb sb ntb
  obtain ⟨-, -, hc, hcases, hq⟩ := matmul_sizes sa sb hs bA bB
  have hrkA : ∀ k, A.obj.rank k = a.obj.rank k := fun k => by simp [TT.rank, kA]
  have hrkB : ∀ k, B.obj.rank k = b.obj.rank k := fun k => by simp [TT.rank, kB]
  have hraA : A.obj.rawShape = [I, J] := rA.trans hra
  have hrbB : B.obj.rawShape = [J, L] := rB.trans hrb
  obtain ⟨cores, ec, lc, hch, hrows, hrk, hv⟩ := matmul_chain wA wB hraA hrbB hcases
  obtain ⟨s, es, fs, hsu, hst⟩ := matmulSize_ok sA sB
  obtain ⟨s', et, ft, ht, -⟩ := tracedLike_ok hch inf s fs [I, L] hrows.symm _ hrk
  rw [ht hsu] at et ft
  refine ⟨⟨chainTT (resBatch A.obj.batch B.obj.batch) cores (fun k => A.obj.rank k * B.obj.rank k)
    (fun k => [I.getD k 0, L.getD k 0]) 2, s⟩, ?_, hch.wf, ft, hrows, ?_, hsu, hq, lc.trans nA, ?_, ?_⟩
  · unfold matmulTraced
    simp only [require_pos (show a.obj.isMatrix ∧ b.obj.isMatrix from ⟨hma, hmb⟩), broadcastTraced_matmul hs,
      require_pos, require_pos hn.symm, R.ok_bind, eA, eB, es]
    rw [← nA, ec, R.ok_bind, hraA, hrbB]
    exact et
  · change s = some .tensor ↔ _
    rw [hst, zA, zB]
    rcases h1 : a.size with _ | m | _ | _ <;> rcases h2 : b.size with _ | n | _ | _ <;> rw [h1, h2] at hs <;>
      simp_all [MatmulSizes]
  · intro k hk
    rw [chainTT_rank k (by omega), hrkA, hrkB]
  · intro o i l ho hi hl
    obtain ⟨vo1, vo2⟩ := bcast_valid hc ho
    have ho' : o < (resBatch A.obj.batch B.obj.batch).getD 1 := by rw [hq]; exact ho
    have hvi := ((valid_iff_getD _ _).1 hi).2
    have hvl := ((valid_iff_getD _ _).1 hl).2
    change TT.entry _ (bsel (resBatch A.obj.batch B.obj.batch) o) _ = _
    rw [← bsel_lsel_of_lt (Or.inr rfl) ho', hv o i l ho' hi hl]
    refine Finset.sum_congr rfl fun n hn' => ?_
    have hz : Valid J (unravel J n) := unravel_valid (by simpa using hn')
    have hvz := ((valid_iff_getD _ _).1 hz).2
    have q1 : A.obj.batch = none ∨ A.obj.batch = resBatch A.obj.batch B.obj.batch := by
      unfold resBatch
      rcases hcases with h | h | h
      · exact Or.inl h
      · simp [h]
      · rw [h]; simp
    have q2 : B.obj.batch = none ∨ B.obj.batch = resBatch A.obj.batch B.obj.batch := by
      unfold resBatch
      cases B.obj.batch <;> simp
    rw [bsel_lsel_of_lt q1 ho', bsel_lsel_of_lt q2 ho', ← vA o _ vo1 (by
        intro k hk
        simp only [TT.modes, hraA, mIdx]
        simp only [List.map_cons, List.map_nil, valid_cons, valid_nil_iff, and_true]
        exact ⟨hvi k (by omega), hvz k (by omega)⟩),
      ← vB o _ vo2 (by
        intro k hk
        simp only [TT.modes, hrbB, mIdx]
        simp only [List.map_cons, List.map_nil, valid_cons, valid_nil_iff, and_true]
        exact ⟨hvz k (by omega), hvl k (by omega)⟩)]

omit [CommRing K] in
theorem broadcastTraced_error {s t : Option BSize} (h : ¬ MatmulSizes s t) :
    (∃ e, broadcastTraced s t = Except.error e) ∨ broadcastTraced s t = Except.ok false ∨
      (broadcastTraced s t = Except.ok true ∧ (s = some .tensor ∨ t = some .tensor)) := by
  rcases s with _ | _ | _ | _ <;> rcases t with _ | _ | _ | _ <;>
    simp_all [MatmulSizes, broadcastTraced, BSize.eqCond, BSize.eqOne]

omit [CommRing K] in
theorem squeeze_tensor [Zero K] {t : Traced K} (h : t.size = some .tensor) : t.squeeze = Except.error Err.tf := by
  simp only [Traced.squeeze, h, BSize.eqOne]; rfl

/-- A traced product with unsupported static sizes fails. -/
theorem matmulTraced_error {a b : Traced K} (ha : a.obj.WF) (sa : a.Sound) (inf : Bool) (hs : ¬ MatmulSizes a.size b.size) :
    ∃ e, matmulTraced inf a b = Except.error e := by
  by_cases hm : a.obj.isMatrix ∧ b.obj.isMatrix
  · rcases broadcastTraced_error hs with ⟨e, h⟩ | h | ⟨h, h'⟩
    · exact ⟨e, by simp only [matmulTraced, require_pos hm, R.ok_bind, h, R.error_bind]⟩
    · exact ⟨_, by simp only [matmulTraced, require_pos hm, R.ok_bind, h, require_neg Bool.false_ne_true, R.error_bind]; rfl⟩
    · by_cases hn : b.obj.ndims = a.obj.ndims
      · by_cases h1 : a.size = some .tensor
        · exact ⟨_, by simp only [matmulTraced, require_pos hm, R.ok_bind, h, require_pos, require_pos hn,
            squeeze_tensor h1, R.error_bind]; rfl⟩
        · obtain ⟨A, eA, -⟩ := squeeze_traced ha sa h1
          have h2 := h'.resolve_left h1
          exact ⟨_, by simp only [matmulTraced, require_pos hm, R.ok_bind, h, require_pos, require_pos hn,
            eA, squeeze_tensor h2, R.error_bind]; rfl⟩
      · exact ⟨_, by simp only [matmulTraced, require_pos hm, R.ok_bind, h, require_pos, require_neg hn, R.error_bind]; rfl⟩
  · exact ⟨_, by simp only [matmulTraced, require_neg hm, R.error_bind]; rfl⟩

omit [CommRing K] in
theorem squeezed_of_getD {a b : Option ℕ} (h : a.getD 1 = b.getD 1) : squeezed a = squeezed b := by
  rw [squeezed_eq, squeezed_eq]
  rcases a with _ | m <;> rcases b with _ | n <;> simp_all

/-- What the traced `tt_tt_flat_inner` computes. -/
theorem flatInnerTraced_spec {a b : Traced K} (ha : a.obj.WF) (hb : b.obj.WF) (sa : a.Sound) (sb : b.Sound)
    (hr : a.obj.rawShape = b.obj.rawShape) (hs : MatmulSizes a.size b.size) :
    ∃ T, flatInnerTraced a b = Except.ok T ∧ T.shape = (squeezed (bcast a.obj.batch b.obj.batch)).toList ∧
      ∀ o, o < (bcast a.obj.batch b.obj.batch).getD 1 →
        T.get (bsel (squeezed (bcast a.obj.batch b.obj.batch)) o) =
        ∑ n ∈ Finset.range (restShape a.obj.rawShape).prod,
          a.obj.entry (bsel a.obj.batch o) (restModes a.obj.rawShape (unravel (restShape a.obj.rawShape) n)) *
          b.obj.entry (bsel b.obj.batch o) (restModes a.obj.rawShape (unravel (restShape a.obj.rawShape) n)) := by
  have hn := ndims_eq_of_rawShape ha hb hr
  have nta : a.size ≠ some .tensor := by
    intro h; rw [h] at hs; simp [MatmulSizes] at hs
  have ntb : b.size ≠ some .tensor := by
    intro h; rw [h] at hs; rcases a.size with _ | _ | _ | _ <;> simp [MatmulSizes] at hs
  obtain ⟨A, eA, wA, sA, rA, kA, nA, zA, bA, vA⟩ := squeeze_traced ha sa nta
  obtain ⟨B, eB, wB, sB, rB, kB, nB, zB, bB, vB⟩ := squeeze_traced hb sb ntb
  obtain ⟨-, -, hc, hcases, hq⟩ := matmul_sizes sa sb hs bA bB
  obtain ⟨T, eT, sT, vT⟩ := innerLoop_spec 'o' (Or.inl rfl) wA wB (by rw [rA, rB, hr]) hcases
    (modeLabels a.obj) (modeLabels_congr rA)
  obtain ⟨s1, v1⟩ := squeezeAll_batch T _ 2 sT
  have hsq : squeezed (resBatch A.obj.batch B.obj.batch) = squeezed (bcast a.obj.batch b.obj.batch) :=
    squeezed_of_getD hq
  refine ⟨squeezeAll T, ?_, by rw [s1, hsq], fun o ho => ?_⟩
  · unfold flatInnerTraced
    simp only [require_pos (show a.obj.isMatrix ↔ b.obj.isMatrix by simp [TT.isMatrix, hr]),
      broadcastTraced_matmul hs, require_pos, require_pos hn.symm, R.ok_bind, eA, eB]
    rw [← nA, eT, R.ok_bind]; rfl
  · have ho' : o < (resBatch A.obj.batch B.obj.batch).getD 1 := by rw [hq]; exact ho
    rw [← hsq, v1 o ho']
    rw [show List.replicate 2 0 = [0, 0] from rfl, vT, rA]
    obtain ⟨vo1, vo2⟩ := bcast_valid hc ho
    refine Finset.sum_congr rfl fun n hn' => ?_
    have hv := unravel_valid (show n < (restShape a.obj.rawShape).prod by simpa using hn')
    have q1 : A.obj.batch = none ∨ A.obj.batch = resBatch A.obj.batch B.obj.batch := by
      unfold resBatch
      rcases hcases with h | h | h
      · exact Or.inl h
      · simp [h]
      · rw [h]; simp
    have q2 : B.obj.batch = none ∨ B.obj.batch = resBatch A.obj.batch B.obj.batch := by
      unfold resBatch
      cases B.obj.batch <;> simp
    rw [bsel_lsel_of_lt q1 ho', bsel_lsel_of_lt q2 ho',
      vA o _ vo1 (by rw [← rA]; exact validModes_rest wA (by rw [rA]; exact hv)),
      vB o _ vo2 (by rw [hr, ← rB]; exact validModes_rest wB (by rw [rB, ← hr]; exact hv))]

/-- A traced inner product with unsupported static sizes fails. -/
theorem flatInnerTraced_error {a b : Traced K} (ha : a.obj.WF) (sa : a.Sound) (hs : ¬ MatmulSizes a.size b.size) :
    ∃ e, flatInnerTraced a b = Except.error e := by
  by_cases hm : a.obj.isMatrix ↔ b.obj.isMatrix
  · rcases broadcastTraced_error hs with ⟨e, h⟩ | h | ⟨h, h'⟩
    · exact ⟨e, by simp only [flatInnerTraced, require_pos hm, R.ok_bind, h, R.error_bind]⟩
    · exact ⟨_, by simp only [flatInnerTraced, require_pos hm, R.ok_bind, h, require_neg Bool.false_ne_true, R.error_bind]; rfl⟩
    · by_cases hn : b.obj.ndims = a.obj.ndims
      · by_cases h1 : a.size = some .tensor
        · exact ⟨_, by simp only [flatInnerTraced, require_pos hm, R.ok_bind, h, require_pos, require_pos hn,
            squeeze_tensor h1, R.error_bind]; rfl⟩
        · obtain ⟨A, eA, -⟩ := squeeze_traced ha sa h1
          have h2 := h'.resolve_left h1
          exact ⟨_, by simp only [flatInnerTraced, require_pos hm, R.ok_bind, h, require_pos, require_pos hn,
            eA, squeeze_tensor h2, R.error_bind]; rfl⟩
      · exact ⟨_, by simp only [flatInnerTraced, require_pos hm, R.ok_bind, h, require_pos, require_neg hn, R.error_bind]; rfl⟩
  · exact ⟨_, by simp only [flatInnerTraced, require_neg hm, R.error_bind]; rfl⟩

/-! ## Elementwise products -/

omit [CommRing K] in
/-- The decisions of the traced `multiply` for supported sizes: the letters of the einsum string are those of
the eager function for the actual sizes, or those of the broadcasting case for two batches of size one. -/
theorem mulDecide {s t : Option BSize} {m n : Option ℕ} (fs : SizeFits s m) (ft : SizeFits t n) (m0 : m ≠ some 0)
    (n0 : n ≠ some 0) (h : MulSizes s t m n) :
    ∃ det ok L u, canDetermine s t = Except.ok det ∧ broadcastTraced s t = Except.ok ok ∧
      (ok = true ∨ det = false) ∧ (det = true ∨ m = n) ∧ mulPlan det s t = Except.ok (L, u) ∧
      SizeFits u (mulOutBatch m n) ∧ BCompat m n ∧
      (u = some .tensor → s = some .tensor ∨ t = some .tensor) ∧
      (L = mulLabels m n ∨ (m = some 1 ∧ n = some 1 ∧ L = (['n'], ['m'], ['n', 'm']))) := by
  rcases s with _ | k | _ | _ <;> rcases t with _ | l | _ | _ <;> simp only [MulSizes] at h
  · exact ⟨true, true, _, none, rfl, rfl, by simp, by simp, rfl, by simp [SizeFits, fs.none, ft.none, mulOutBatch],
      by simp [fs.none, BCompat], by simp, by simp [fs.none, ft.none, mulLabels]⟩
  · exact ⟨true, true, _, some (.known l), rfl, rfl, by simp, by simp, rfl, by
      simp [SizeFits, fs.none, ft.known, mulOutBatch], by simp [fs.none, BCompat], by simp,
      by simp [fs.none, ft.known, mulLabels]⟩
  · obtain ⟨n, rfl⟩ := ft.some
    exact ⟨true, true, _, some .unknown, rfl, rfl, by simp, by simp, rfl, by
      simp [SizeFits, fs.none, mulOutBatch], by simp [fs.none, BCompat], by simp,
      by simp [fs.none, mulLabels]⟩
  · obtain ⟨n, rfl⟩ := ft.some
    exact ⟨true, true, _, some .tensor, rfl, rfl, by simp, by simp, rfl, by
      simp [SizeFits, fs.none, mulOutBatch], by simp [fs.none, BCompat], by simp,
      by simp [fs.none, mulLabels]⟩
  · exact ⟨true, true, _, some (.known k), rfl, rfl, by simp, by simp, rfl, by
      simp [SizeFits, ft.none, fs.known, mulOutBatch], by simp [ft.none, BCompat], by simp,
      by simp [ft.none, fs.known, mulLabels]⟩
  · obtain rfl := fs.known
    obtain rfl := ft.known
    have hb := broadcastTraced_matmul (s := some (.known k)) (t := some (.known l)) h
    by_cases hkl : k = l
    · subst hkl
      exact ⟨true, true, _, some (.known k), rfl, hb, by simp, by simp, by simp [mulPlan, BSize.eqCond]; rfl, by
        simp [SizeFits, mulOutBatch], h, by simp, by simp [mulLabels]⟩
    · by_cases h1 : 1 < k
      · exact ⟨true, true, _, some (.known k), rfl, hb, by simp, by simp, by
          simp [mulPlan, BSize.eqCond, BSize.gtOne, hkl, h1]; rfl, by
          simp [SizeFits, mulOutBatch, hkl, h1], h, by simp, by simp [mulLabels, hkl]⟩
      · exact ⟨true, true, _, some (.known l), rfl, hb, by simp, by simp, by
          simp [mulPlan, BSize.eqCond, BSize.gtOne, hkl, h1]; rfl, by
          simp [SizeFits, mulOutBatch, hkl, h1], h, by simp, by simp [mulLabels, hkl]⟩
  · obtain rfl := fs.known
    obtain ⟨n, rfl⟩ := ft.some
    have k0 : k ≠ 0 := by simpa using m0
    by_cases h1 : 1 < k
    · have hkn : k = n := by
        rcases h with h | h
        · omega
        · simpa using h
      subst hkn
      exact ⟨false, false, _, some .unknown, by simp [canDetermine, BSize.gtOne, h1], by
        simp [broadcastTraced, BSize.eqCond, BSize.eqOne]; omega, by simp, by simp,
        by simp [mulPlan, BSize.eqCond]; rfl, by simp [SizeFits, mulOutBatch], by simp [BCompat], by simp,
        by simp [mulLabels]⟩
    · obtain rfl : k = 1 := by omega
      refine ⟨true, true, _, some .unknown, by simp [canDetermine, BSize.gtOne], by
        simp [broadcastTraced, BSize.eqCond, BSize.eqOne], by simp, by simp,
        by simp [mulPlan, BSize.eqCond, BSize.gtOne]; rfl, ?_, by simp [BCompat], by simp, ?_⟩
      · by_cases hn : 1 = n <;> simp [SizeFits, mulOutBatch, hn]
      · by_cases hn : 1 = n
        · subst hn; simp
        · simp [mulLabels, hn]
  · obtain ⟨m, rfl⟩ := fs.some
    exact ⟨true, true, _, some .unknown, rfl, rfl, by simp, by simp, rfl, by
      simp [SizeFits, ft.none, mulOutBatch], by simp [ft.none, BCompat], by simp,
      by simp [ft.none, mulLabels]⟩
  · obtain rfl := ft.known
    obtain ⟨m, rfl⟩ := fs.some
    have l0 : l ≠ 0 := by simpa using n0
    by_cases h1 : 1 < l
    · have hkn : m = l := by
        rcases h with h | h
        · omega
        · simpa using h
      subst hkn
      exact ⟨false, false, _, some .unknown, by simp [canDetermine, BSize.gtOne, h1], by
        simp [broadcastTraced, BSize.eqCond, BSize.eqOne]; omega, by simp, by simp,
        by simp [mulPlan, BSize.eqCond]; rfl, by simp [SizeFits, mulOutBatch], by simp [BCompat], by simp,
        by simp [mulLabels]⟩
    · obtain rfl : l = 1 := by omega
      refine ⟨true, true, _, some .unknown, by simp [canDetermine, BSize.gtOne], by
        simp [broadcastTraced, BSize.eqCond, BSize.eqOne], by simp, by simp,
        by simp [mulPlan, BSize.eqCond]; rfl, ?_, by simp [BCompat], by simp, ?_⟩
      · by_cases hn : m = 1
        · simp [SizeFits, mulOutBatch, hn]
        · simp only [SizeFits, mulOutBatch, if_neg hn]; split_ifs <;> simp
      · by_cases hn : m = 1
        · subst hn; simp
        · simp [mulLabels, hn]
  · obtain ⟨n, rfl⟩ := fs.some
    subst h
    exact ⟨false, false, _, some .unknown, rfl, rfl, by simp, by simp,
        by simp [mulPlan, BSize.eqCond]; rfl, by simp [SizeFits, mulOutBatch], by simp [BCompat], by simp,
        by simp [mulLabels]⟩
  · obtain ⟨m, rfl⟩ := fs.some
    exact ⟨true, true, _, some .tensor, rfl, rfl, by simp, by simp, rfl, by
      simp [SizeFits, ft.none, mulOutBatch], by simp [ft.none, BCompat], by simp,
      by simp [ft.none, mulLabels]⟩

/-- What the traced `multiply` computes. -/
theorem multiplyTraced_spec {a b : Traced K} (ha : a.obj.WF) (hb : b.obj.WF) (sa : a.Sound) (sb : b.Sound)
    (hr : a.obj.rawShape = b.obj.rawShape) (inf : Bool) (hs : MulSizes a.size b.size a.obj.batch b.obj.batch)
    (hpos : ∀ k < a.obj.ndims, 0 < (a.obj.modes k).prod) :
    ∃ c, multiplyTraced inf a b = Except.ok c ∧ c.obj.WF ∧ c.Sound ∧ c.obj.rawShape = a.obj.rawShape ∧
      c.obj.batch = mulOutBatch a.obj.batch b.obj.batch ∧ bshape a.obj.bpre b.obj.bpre = some c.obj.bpre ∧
      (c.size = some .tensor → a.size = some .tensor ∨ b.size = some .tensor) ∧
      c.obj.ndims = a.obj.ndims ∧ (∀ k ≤ a.obj.ndims, c.obj.rank k = a.obj.rank k * b.obj.rank k) ∧
      ∀ p m, Valid c.obj.bpre p → c.obj.ValidModes m c.obj.ndims →
        c.obj.entry p m = a.obj.entry (bproj a.obj.bpre p) m * b.obj.entry (bproj b.obj.bpre p) m := by
  obtain ⟨det, ok, L, u, h1, h2, h3, h4, h5, h6, hc, h7, hL⟩ := mulDecide sa sb ha.batch_pos hb.batch_pos hs
  have hm : (a.obj.isMatrix ↔ b.obj.isMatrix) := by unfold TT.isMatrix; rw [hr]
  have hn := ndims_of_rows ha hb hr
  have hE : ∀ k < a.obj.ndims, MulEin L a.obj.batch b.obj.batch (a.obj.core k) (b.obj.core k) (a.obj.modes k)
      (a.obj.rank k) (b.obj.rank k) (a.obj.rank (k + 1)) (b.obj.rank (k + 1)) := by
    rcases hL with rfl | ⟨e1, e2, rfl⟩
    · exact mulEin_eager ha hb hr hc
    · intro k hk
      have hML : (a.obj.modes k).length = a.obj.rawShape.length := by simp [TT.modes]
      have c1 := ha.core_shape k hk
      have c2 := hb.core_shape k (by omega)
      rw [TT.bpre, e1] at c1
      rw [TT.bpre, e2, ← modes_of_rows hr] at c2
      rw [e1, e2]
      exact mulEin_ones _ _ _ _ _ _ _ (by rw [hML]; exact ha.rows) c1 c2
  obtain ⟨cores, ec, lc, hch, hrk, hv⟩ := mul_chain L ha hb hr hc hpos hE
  obtain ⟨s', es, fs, -, ts⟩ := tracedLike_ok hch inf u h6 a.obj.rawShape (by rw [lc]; exact ha.rows_eq) _ hrk
  refine ⟨⟨chainTT _ _ _ _ _, s'⟩, ?_, hch.wf, fs, ?_, rfl,
    mulOutBatch_bshape _ _ hc hb.batch_pos ha.batch_pos, fun h => h7 (ts h), lc,
    fun k hk => chainTT_rank k (by omega), ?_⟩
  · simp only [multiplyTraced, require_pos hm, require_pos hr, h1, h2, require_pos h3, require_pos h4, h5, R.ok_bind,
      ec, es]
  · change rowsOf _ _ _ = _
    rw [lc]; exact ha.rows_eq.symm
  · intro p m hp hvm
    exact hv p m hp fun k hk => hch.validModes hvm (by omega)

/-- A traced product with unsupported sizes fails. -/
theorem multiplyTraced_error {a b : Traced K} (inf : Bool)
    (hs : ¬ MulSizes a.size b.size a.obj.batch b.obj.batch) : ∃ e, multiplyTraced inf a b = Except.error e := by
  by_cases hm : a.obj.isMatrix ↔ b.obj.isMatrix
  swap
  · exact ⟨_, by simp only [multiplyTraced, require_neg hm, R.error_bind]; rfl⟩
  by_cases hr : a.obj.rawShape = b.obj.rawShape
  swap
  · exact ⟨_, by simp only [multiplyTraced, require_pos hm, require_neg hr, R.ok_bind, R.error_bind]; rfl⟩
  rcases h1 : canDetermine a.size b.size with e | det
  · exact ⟨e, by simp only [multiplyTraced, require_pos hm, require_pos hr, h1, R.ok_bind, R.error_bind]⟩
  rcases h2 : broadcastTraced a.size b.size with e | ok
  · exact ⟨e, by simp only [multiplyTraced, require_pos hm, require_pos hr, h1, h2, R.ok_bind, R.error_bind]⟩
  by_cases h3 : ok = true ∨ det = false
  swap
  · exact ⟨_, by simp only [multiplyTraced, require_pos hm, require_pos hr, h1, h2, require_neg h3, R.ok_bind,
      R.error_bind]; rfl⟩
  by_cases h4 : det = true ∨ a.obj.batch = b.obj.batch
  swap
  · exact ⟨_, by simp only [multiplyTraced, require_pos hm, require_pos hr, h1, h2, require_pos h3, require_neg h4,
      R.ok_bind, R.error_bind]; rfl⟩
  exfalso
  apply hs
  revert h1 h2 h3 h4
  generalize a.obj.batch = m
  generalize b.obj.batch = n
  rcases a.size with _ | k | _ | _ <;> rcases b.size with _ | l | _ | _ <;>
    simp only [MulSizes, canDetermine, broadcastTraced, BSize.eqCond, BSize.eqOne, BSize.gtOne] <;>
    intro h1 h2 h3 h4 <;> simp_all
  · by_cases e1 : k = l
    · exact Or.inl e1
    · by_cases e2 : k = 1
      · exact Or.inr (Or.inl e2)
      · simp_all
  · by_cases e1 : k = 1
    · exact Or.inl e1
    · simp_all
  · by_cases e1 : l = 1
    · exact Or.inl e1
    · simp_all

/-! ## Dense matrices of partially unknown shape -/

/-- The traced `tt_dense_matmul` is the eager one if the number of rows is known or right. -/
theorem ttDenseMatmulTraced_eq {a : TT K} (h : a.WF) {I J : List ℕ} (hr : a.rawShape = [I, J])
    (hb : a.batch = none) {B : Tensor K} {m c : ℕ} (hB : B.shape = [m, c]) {st : List (Option ℕ)}
    (hst : ShapeFits st B.shape) (hk : st.head? = some (some m) ∨ m = J.prod) :
    ttDenseMatmulTraced a (some st) B = ttDenseMatmul a B := by
  obtain ⟨x, st', rfl⟩ : ∃ x st', st = x :: st' := by
    cases st with
    | nil => rw [hB] at hst; cases hst
    | cons x st' => exact ⟨x, st', rfl⟩
  have hx : x = none ∨ x = some m := by
    rw [hB, ShapeFits, List.forall₂_cons] at hst; exact hst.1
  have hsh : a.getShape = Except.ok [I.prod, J.prod] := by
    rw [getShape_eq h, denseShape_eq, hr, bpre_none hb]; rfl
  have q1 : pyGet [I.prod, J.prod] 1 = Except.ok J.prod := rfl
  have q3 : pyGet [m, c] 0 = Except.ok m := rfl
  have q4 : pyGet (x :: st') 0 = Except.ok x := rfl
  unfold ttDenseMatmulTraced ttDenseMatmul
  by_cases hreq : a.batch = none ∧ a.isMatrix
  swap
  · simp only [require_neg hreq, R.error_bind]
  by_cases hm : m = J.prod
  · have hx' : x = none ∨ x = some J.prod := hm ▸ hx
    simp only [require_pos hreq, hsh, R.ok_bind, q1, hB, q3, q4, R.pure_eq, require_pos hm.symm, require_pos hx']
  · have hx' : x = some m := by simpa [hm] using hk
    have : ¬ (x = none ∨ x = some J.prod) := by simp [hx', hm]
    simp only [require_pos hreq, hsh, R.ok_bind, q1, hB, q3, q4, R.pure_eq, require_neg (Ne.symm hm),
      require_neg this, R.error_bind]

omit [CommRing K] in
theorem reshape_ok {T D : Tensor K} {target : List (Option ℕ)} (h : reshape T target = Except.ok D) :
    D.shape.prod = T.shape.prod ∧ ∃ v, D.shape = target.map (·.getD v) := by
  unfold reshape at h
  rcases e : resolveShape T.shape.prod target with x | s
  · rw [e] at h; cases h
  · rw [e] at h
    obtain rfl := Except.ok.inj h
    refine ⟨resolveShape_prod e, ?_⟩
    unfold resolveShape at e
    dsimp only at e
    split at e
    · split_ifs at e; exact ⟨0, (Except.ok.inj e).symm⟩
    · split_ifs at e; exact ⟨_, (Except.ok.inj e).symm⟩
    · cases e

/-- If the loop of `tt_dense_matmul` succeeds, then the number of elements is as follows. -/
theorem denseLoop_size {a : TT K} (h : a.WF) {I J : List ℕ} (hr : a.rawShape = [I, J]) (hb : a.batch = none)
    (k : ℕ) (hk : k < a.ndims) (D D' : Tensor K) (q : ℕ) (hD : D.shape = [q, J.getD k 0, a.rank (k + 1)])
    (e : forReversed (denseStep a) (k + 1) D = Except.ok D') :
    D'.shape.prod * (J.take k).prod = q * (I.take (k + 1)).prod := by
  have hIl : I.length = a.ndims := h.rows_len I (by simp [hr])
  have hJl : J.length = a.ndims := h.rows_len J (by simp [hr])
  induction k generalizing D q with
  | zero =>
    have sC := h.core_shape 0 hk
    rw [show a.modes 0 = [I.getD 0 0, J.getD 0 0] by simp [TT.modes, hr], bpre_none hb] at sC
    obtain ⟨E, eE, sE, -⟩ := denseEin sC hD
    have : forReversed (denseStep a) 1 D = Except.ok E := by
      rw [forReversed, denseStep, h.pyCore hk]
      simp only [R.ok_bind, eE]; rfl
    rw [zero_add, this] at e
    obtain rfl := Except.ok.inj e
    rw [sE, take_succ_getD I 0 (by omega), h.rank_first]
    simp [mul_comm]
  | succ k ih =>
    have sC := h.core_shape (k + 1) hk
    rw [show a.modes (k + 1) = [I.getD (k + 1) 0, J.getD (k + 1) 0] by simp [TT.modes, hr], bpre_none hb] at sC
    obtain ⟨E, eE, sE, -⟩ := denseEin sC hD
    have e1 : denseStep a (k + 1) D = reshape E [none, some (J.getD k 0), some (a.rank (k + 1))] := by
      have p1 : pyGet [I, J] 1 = Except.ok J := rfl
      have p2 : pyGet J (k + 1 - 1) = Except.ok (J.getD k 0) := pyGet_of_lt _ _ _ (by omega)
      simp only [denseStep, h.pyCore hk, R.ok_bind, eE, if_pos (Nat.succ_pos k), hr, p1, p2,
        h.pyRank (show k + 1 ≤ a.ndims by omega)]
    rw [forReversed, e1] at e
    rcases e2 : reshape E [none, some (J.getD k 0), some (a.rank (k + 1))] with x | T
    · rw [e2] at e; cases e
    · rw [e2, R.ok_bind] at e
      obtain ⟨pT, v, sT⟩ := reshape_ok e2
      have sT' : T.shape = [v, J.getD k 0, a.rank (k + 1)] := by simpa using sT
      have := ih (by omega) T v sT' e
      rw [sT', sE] at pT
      simp only [List.prod_cons, List.prod_nil, mul_one] at pT
      have hrk := h.rank_pos (k + 1) (by omega)
      have pT' : v * J.getD k 0 = I.getD (k + 1) 0 * q := by
        apply Nat.eq_of_mul_eq_mul_right hrk
        rw [mul_assoc, pT]; ring
      rw [take_succ_getD J k (by omega), take_succ_getD I (k + 1) (by omega)]
      simp only [List.prod_append, List.prod_cons, List.prod_nil, mul_one]
      rw [← mul_assoc, this]
      linear_combination (I.take (k + 1)).prod * pT'

/-- If the traced `tt_dense_matmul` succeeds, then the sizes match although they were not checked. -/
theorem ttDenseMatmulTraced_size {a : TT K} (h : a.WF) {I J : List ℕ} (hr : a.rawShape = [I, J])
    (hb : a.batch = none) (hI : 0 < I.prod) {B D : Tensor K} {m c : ℕ} (hB : B.shape = [m, c]) (hc : 0 < c)
    (static : Option (List (Option ℕ))) (e : ttDenseMatmulTraced a static B = Except.ok D) : m = J.prod := by
  have hIl : I.length = a.ndims := h.rows_len I (by simp [hr])
  have hJl : J.length = a.ndims := h.rows_len J (by simp [hr])
  have hpos := h.pos
  obtain ⟨d, hd⟩ : ∃ d, a.ndims = d + 1 := ⟨a.ndims - 1, by omega⟩
  obtain ⟨T, eT, sT, -⟩ := transpose2 hB
  have hlast : pyLast J = Except.ok (J.getD d 0) := by
    rw [pyLast, List.getLast?_eq_getElem?, show J.length - 1 = d by omega,
      List.getElem?_eq_getElem (by omega), List.getD_eq_getElem _ _ (by omega)]
  have hm : a.isMatrix := by simp [TT.isMatrix, hr]
  have hsh : a.getShape = Except.ok [I.prod, J.prod] := by
    rw [getShape_eq h, denseShape_eq, hr, bpre_none hb]; rfl
  have q0 : pyGet [I.prod, J.prod] 0 = Except.ok I.prod := rfl
  have q1 : pyGet [I.prod, J.prod] 1 = Except.ok J.prod := rfl
  have q2 : pyGet [I, J] 1 = Except.ok J := rfl
  have q4 : pyGet [m, c] 1 = Except.ok c := rfl
  unfold ttDenseMatmulTraced at e
  rw [hB] at eT
  rcases static with _ | st
  · simp only [require_pos (show a.batch = none ∧ a.isMatrix from ⟨hb, hm⟩), hsh, R.ok_bind, q1, R.throw_eq,
      R.error_bind] at e
    cases e
  simp only [require_pos (show a.batch = none ∧ a.isMatrix from ⟨hb, hm⟩), hsh, R.ok_bind, q1, R.pure_eq] at e
  rcases e1 : pyGet st 0 with x | x
  · rw [e1] at e; cases e
  simp only [e1, R.ok_bind] at e
  by_cases hx : x = none ∨ x = some J.prod
  swap
  · rw [require_neg hx] at e; cases e
  simp only [require_pos hx, R.ok_bind, q0, hB, eT, hr, q2, hlast, q4, hd] at e
  rcases e2 : reshape T [none, some (J.getD d 0), some 1] with x | D0
  · rw [e2] at e; cases e
  rw [e2, R.ok_bind] at e
  rcases e3 : forReversed (denseStep a) (d + 1) D0 with x | D1
  · rw [e3] at e; cases e
  rw [e3, R.ok_bind] at e
  obtain ⟨p0, v, s0⟩ := reshape_ok e2
  obtain ⟨p2, w, s2⟩ := reshape_ok e
  have s0' : D0.shape = [v, J.getD d 0, a.rank (d + 1)] := by rw [← hd, h.rank_last]; simpa using s0
  have key := denseLoop_size h hr hb d (by omega) D0 D1 v s0' e3
  have hJp : J.prod = (J.take d).prod * J.getD d 0 := by
    conv_lhs => rw [show J = J.take d ++ [J.getD d 0] by
      rw [← take_succ_getD J d (by omega), List.take_of_length_le (by omega)]]
    simp
  rw [List.take_of_length_le (by omega : I.length ≤ d + 1), ← p2, s2] at key
  rw [sT, s0] at p0
  simp only [List.map_cons, List.map_nil, Option.getD_some, Option.getD_none, List.prod_cons, List.prod_nil,
    mul_one] at key p0
  have k1 : c * (J.take d).prod = v := by
    apply Nat.eq_of_mul_eq_mul_left hI
    rw [← mul_assoc, key, mul_comm]
  apply Nat.eq_of_mul_eq_mul_left hc
  rw [hJp, ← mul_assoc, k1, p0]

/-- The traced `dense_tt_matmul` is the eager one if the number of columns is known or right. -/
theorem denseTTMatmulTraced_eq {b : TT K} (h : b.WF) {I J : List ℕ} (hr : b.rawShape = [I, J])
    (hb : b.batch = none) {A : Tensor K} {r m : ℕ} (hA : A.shape = [r, m]) {x y : Option ℕ}
    (hst : ShapeFits [x, y] A.shape) (hk : y = some m ∨ m = I.prod) :
    denseTTMatmulTraced (some [x, y]) A b = denseTTMatmul A b := by
  obtain ⟨At, eAt, sAt, -⟩ := transpose2 hA
  obtain ⟨bt, ebt, wbt, rbt, bbt, -⟩ := ttTranspose_spec h hr
  have hf : ShapeFits [y, x] At.shape := by
    rw [hA] at hst; rw [sAt]
    simp only [ShapeFits, List.forall₂_cons, List.Forall₂.nil, and_true] at hst ⊢
    exact hst.symm
  have := ttDenseMatmulTraced_eq wbt rbt (bbt.trans hb) sAt hf (hk.imp (fun h => by simp [h]) id)
  simp only [denseTTMatmulTraced, denseTTMatmul, eAt, ebt, R.ok_bind, Option.map_some, List.reverse_cons,
    List.reverse_nil, List.nil_append, List.cons_append, this]

/-- If the traced `dense_tt_matmul` succeeds, then the sizes match although they were not checked. -/
theorem denseTTMatmulTraced_size {b : TT K} (h : b.WF) {I J : List ℕ} (hr : b.rawShape = [I, J])
    (hb : b.batch = none) (hJ : 0 < J.prod) {A D : Tensor K} {r m : ℕ} (hA : A.shape = [r, m]) (hr0 : 0 < r)
    (static : Option (List (Option ℕ))) (e : denseTTMatmulTraced static A b = Except.ok D) : m = I.prod := by
  obtain ⟨At, eAt, sAt, -⟩ := transpose2 hA
  obtain ⟨bt, ebt, wbt, rbt, bbt, -⟩ := ttTranspose_spec h hr
  simp only [denseTTMatmulTraced, eAt, ebt, R.ok_bind] at e
  rcases e1 : ttDenseMatmulTraced bt (static.map List.reverse) At with x | D1
  · rw [e1] at e; cases e
  · exact ttDenseMatmulTraced_size wbt rbt (bbt.trans hb) hJ sAt hr0 _ e1

end T3f
