import Verif.Proofs.IntSize
import Verif.Model.Shapes
import Verif.Props.C01Full
import Verif.Spec.Examples

/-!
# C54: the shape accessors agree

What `tt_ranks`, `raw_shape`, `shape`, `batch_size` read off the cores, what the object stores, and the shape of the full tensor are the same.
-/

namespace T3f

variable {K : Type} [CommRing K]

theorem core_shape_get {t : TT K} (h : t.WF) {k : ℕ} (hk : k < t.ndims) (j : ℕ) :
    (t.core k).shape[t.bpre.length + j]? = (t.rank k :: (t.modes k ++ [t.rank (k + 1)]))[j]? := by
  rw [h.core_shape k hk, List.getElem?_append_right (by omega)]
  simp

omit [CommRing K] in
theorem bpre_length (t : TT K) : t.bpre.length = if t.isBatch then 1 else 0 := by
  unfold TT.bpre TT.isBatch
  cases t.batch <;> simp

theorem dynTTRanks_ok {t : TT K} (h : t.WF) : dynTTRanks t = Except.ok t.ttRanks := by
  have h1 : mapRange t.ndims (fun i => do
      let c ← pyGet t.cores i
      dimAt c.shape t.leftRankDim) = Except.ok ((List.range t.ndims).map t.rank) := by
    refine mapRange_eq _ _ _ fun k hk => ?_
    rw [h.pyCore hk, R.ok_bind]
    have := core_shape_get h hk 0
    rw [bpre_length] at this
    simp only [dimAt, TT.leftRankDim]
    rw [show (if t.isBatch = true then 1 else 0) = (if t.isBatch = true then 1 else 0) + 0 from rfl, this]
    rfl
  have hl : t.cores = (t.cores.take (t.ndims - 1)) ++ [t.core (t.ndims - 1)] := by
    have hp : t.cores.length - 1 < t.cores.length := by have := h.pos; unfold TT.ndims at this; omega
    have hne : t.cores ≠ [] := by intro h0; simp [h0] at hp
    conv_lhs => rw [← List.dropLast_append_getLast hne]
    rw [List.dropLast_eq_take]
    congr 2
    rw [List.getLast_eq_getElem, TT.core]
    exact (List.getD_eq_getElem _ _ hp).symm
  have hp : t.ndims - 1 < t.ndims := by have := h.pos; omega
  have hlast : pyLast t.cores = Except.ok (t.core (t.ndims - 1)) := by
    rw [hl]
    simp [pyLast]
  have hdim : dimLast (t.core (t.ndims - 1)).shape = Except.ok (t.rank t.ndims) := by
    rw [h.core_shape _ hp, dimLast]
    have : t.ndims - 1 + 1 = t.ndims := by omega
    rw [this, show t.bpre ++ t.rank (t.ndims - 1) :: (t.modes (t.ndims - 1) ++ [t.rank t.ndims]) =
      (t.bpre ++ t.rank (t.ndims - 1) :: t.modes (t.ndims - 1)) ++ [t.rank t.ndims] by simp, List.getLast?_concat]
    rfl
  unfold dynTTRanks
  rw [h1, R.ok_bind, hlast, R.ok_bind, hdim, R.ok_bind]
  refine congrArg Except.ok ?_
  apply List.ext_getElem
  · simp [h.ranks_len]
  · intro i h1 h2
    rw [h.ranks_len] at h2
    rcases Nat.lt_succ_iff_lt_or_eq.1 h2 with hi | rfl
    · rw [List.getElem_append_left (by simpa using hi)]
      rw [List.getElem_map, List.getElem_range, TT.rank, List.getD_eq_getElem _ _ (show i < t.ttRanks.length by rw [h.ranks_len]; omega)]
    · rw [List.getElem_append_right (by simp)]
      simp only [List.getElem_singleton]
      rw [TT.rank, List.getD_eq_getElem _ _ (show t.ndims < t.ttRanks.length by rw [h.ranks_len]; omega)]

theorem dynRawShape_ok {t : TT K} (h : t.WF) : dynRawShape t = Except.ok t.rawShape := by
  have : t.rawShape = (List.range t.rawShape.length).map (fun ax => (List.range t.ndims).map fun i => (t.rawShape.getD ax []).getD i 0) := by
    apply List.ext_getElem
    · simp
    · intro ax h1 h2
      rw [List.getElem_map, List.getElem_range, List.getD_eq_getElem _ _ h1]
      apply List.ext_getElem
      · simp [h.rows_len _ (List.getElem_mem h1)]
      · intro i h3 h4
        rw [List.getElem_map, List.getElem_range, List.getD_eq_getElem _ _ h3]
  unfold dynRawShape
  conv_rhs => rw [this]
  refine mapRange_eq _ _ _ fun ax hax => mapRange_eq _ _ _ fun k hk => ?_
  rw [h.pyCore hk, R.ok_bind]
  have hc := core_shape_get h hk (ax + 1)
  rw [bpre_length] at hc
  have hi : ax + (if t.isBatch then 2 else 1) = (if t.isBatch then 1 else 0) + (ax + 1) := by split <;> omega
  rw [dimAt, hi, hc, List.getElem?_cons_succ, List.getElem?_append_left (by simpa [TT.modes] using hax)]
  simp [TT.modes, hax, List.getD, pure, Except.pure]

theorem dynBatchSize_ok {t : TT K} (h : t.WF) : dynBatchSize t = t.lazyBatchSize := by
  unfold dynBatchSize TT.lazyBatchSize
  have hc := h.core_shape 0 h.pos
  unfold TT.isBatch
  cases hb : t.batch with
  | none => rfl
  | some n =>
    simp only [Option.isSome_some, if_true]
    rw [h.pyCore h.pos, R.ok_bind, hc, TT.bpre, hb]
    rfl

/-- Matrices have fewer than `2 ^ 31` rows and columns. -/
def TT.FitsInt32 (t : TT K) : Prop := t.isMatrix → ∀ row ∈ t.rawShape, row.prod < 2 ^ 31

theorem dynShape_gen {t : TT K} (h : t.WF) :
    dynShape t = Except.ok (t.bpre.map Int.ofNat ++ if t.isMatrix then t.rawShape.map (fun row => int32 row.prod) else (t.rawShape.getD 0 []).map Int.ofNat) := by
  have hbs := dynBatchSize_ok h
  unfold dynShape
  rw [dynRawShape_ok h, R.ok_bind]
  by_cases hm : t.isMatrix
  · simp only [hm, if_true, TT.bpre]
    cases hb : t.batch with
    | none => simp [TT.isBatch, hb, pure, Except.pure, bind, Except.bind]
    | some n => simp [TT.isBatch, hb, hbs, TT.lazyBatchSize, pure, Except.pure, bind, Except.bind]
  · obtain ⟨r0, hrow, _⟩ := h.rawShape_tensor hm
    simp only [hm, TT.bpre]
    cases hb : t.batch with
    | none => simp [TT.isBatch, hb, hrow, pyGet, pure, Except.pure, bind, Except.bind, Except.map]
    | some n => simp [TT.isBatch, hb, hrow, pyGet, hbs, TT.lazyBatchSize, pure, Except.pure, bind, Except.bind, Except.map]

theorem dynShape_ok {t : TT K} (h : t.WF) (hf : t.FitsInt32) :
    dynShape t = Except.ok (t.denseShape.map Int.ofNat) ∧ t.getShape = Except.ok t.denseShape := by
  have hbs := dynBatchSize_ok h
  constructor
  · rw [dynShape_gen h]
    by_cases hm : t.isMatrix
    · obtain ⟨r0, r1, hrow, _, _⟩ := h.rawShape_matrix hm
      have h0 := hf hm
      rw [hrow] at h0
      simp [hm, TT.denseShape, hrow, int32_of_lt (h0 r0 (by simp)), int32_of_lt (h0 r1 (by simp))]
    · obtain ⟨r0, hrow, _⟩ := h.rawShape_tensor hm
      simp [hm, TT.denseShape, hrow]
  · unfold TT.getShape
    by_cases hm : t.isMatrix
    · obtain ⟨r0, r1, hrow, _, _⟩ := h.rawShape_matrix hm
      simp only [hm, if_true, TT.denseShape, TT.bpre]
      cases hb : t.batch <;> simp [hrow, pyGet, pure, Except.pure, bind, Except.bind]
    · obtain ⟨r0, hrow, _⟩ := h.rawShape_tensor hm
      simp only [hm, if_false, TT.denseShape, TT.bpre]
      cases hb : t.batch <;> simp [hrow, pyGet, pure, Except.pure, bind, Except.bind]

/-- For objects other than matrices with `2 ^ 31` or more rows or columns, the accessors that look at the cores, those that return the stored attributes, and the shape of the full tensor agree, whether or not the static shape is known. -/
theorem C54_accessors (known : Bool) (t : TT K) (h : t.WF) (hf : t.FitsInt32) :
    ∃ F, full t = Except.ok F ∧ dynShape t = Except.ok (F.shape.map Int.ofNat) ∧ lazyShape known t = Except.ok (F.shape.map Int.ofNat) ∧ t.getShape = Except.ok F.shape ∧
      dynRawShape t = Except.ok t.rawShape ∧ lazyRawShape known t = Except.ok t.rawShape ∧
      dynTTRanks t = Except.ok t.ttRanks ∧ lazyTTRanks known t = Except.ok t.ttRanks := by
  obtain ⟨F, eF, hs, -⟩ := full_dense h
  have hs' : F.shape = t.denseShape := hs
  obtain ⟨hd, hg⟩ := dynShape_ok h hf
  refine ⟨F, eF, by rw [hd, hs'], ?_, by rw [hg, hs'], dynRawShape_ok h, ?_, dynTTRanks_ok h, ?_⟩
  · cases known <;> simp [lazyShape, hd, hg, hs', Except.map]
  · cases known <;> simp [lazyRawShape, dynRawShape_ok h, pure, Except.pure]
  · cases known <;> simp [lazyTTRanks, dynTTRanks_ok h, pure, Except.pure]

/-- `batch_size` and `lazy_batch_size` return the first item of the shape of the full tensor for a batch, and raise ValueError for a `TensorTrain`. -/
theorem C54_batch_size (known : Bool) (t : TT K) (h : t.WF) :
    (∀ n, t.batch = some n → dynBatchSize t = Except.ok n ∧ lazyBatchSizeOf known t = Except.ok n ∧
      ∃ F, full t = Except.ok F ∧ F.shape.head? = some n) ∧
    (t.batch = none → dynBatchSize t = Except.error Err.value ∧ lazyBatchSizeOf known t = Except.error Err.value) := by
  have hbs := dynBatchSize_ok h
  constructor
  · intro n hn
    have h1 : dynBatchSize t = Except.ok n := by rw [hbs, TT.lazyBatchSize, hn]
    refine ⟨h1, ?_, ?_⟩
    · cases known
      · exact h1
      · simp [lazyBatchSizeOf, TT.lazyBatchSize, hn]
    · obtain ⟨F, eF, hs, -⟩ := full_dense h
      refine ⟨F, eF, ?_⟩
      rw [show F.shape = t.denseShape from hs, TT.denseShape, TT.bpre, hn]
      simp
  · intro hn
    have h1 : dynBatchSize t = Except.error Err.value := by rw [hbs, TT.lazyBatchSize, hn]
    refine ⟨h1, ?_⟩
    cases known
    · exact h1
    · simp [lazyBatchSizeOf, TT.lazyBatchSize, hn]

example : exBatchMatrix.WF ∧ exBatchMatrix.batch = some 2 := by decide

example : ∃ F, full exBatchMatrix = Except.ok F ∧ dynShape exBatchMatrix = Except.ok (F.shape.map Int.ofNat) ∧ F.shape.head? = some 2 := by
  obtain ⟨F, eF, hF, -⟩ := C54_accessors true exBatchMatrix (by decide) fun _ => by decide
  obtain ⟨F', eF', hF'⟩ := ((C54_batch_size true exBatchMatrix (by decide)).1 2 rfl).2.2
  obtain rfl : F = F' := Except.ok.inj (eF.symm.trans eF')
  exact ⟨F, eF, hF, hF'⟩

end T3f
