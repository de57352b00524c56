import Verif.Proofs.IndexingLoops
import Verif.Proofs.FullGet
import Verif.Proofs.Concat
import Verif.Spec.Examples

/-!
# C20, C21, C47 — indexing, expanding and squeezing the batch dimension

`getItem F spec` is Python's (numpy's) indexing of a dense tensor with integers and slices; it fails for
integers out of bounds. The theorems say that indexing the TT object agrees with indexing `full`.
-/

namespace T3f

variable {K : Type} [CommRing K]

/-- A subscript item that keeps its axis, i.e. is not an integer. -/
def Ix.KeepsAxis (ix : Ix) : Prop := ∀ i, ix ≠ Ix.int i

theorem selShape_ne_nil {s : List ℕ} {spec : List Ix} {l : List Sel} (h : resolveIx s spec = Except.ok l)
    (hlen : spec.length = s.length) (hk : ∃ ix ∈ spec, ix.KeepsAxis) : selShape l ≠ [] := by
  induction s generalizing spec l with
  | nil => obtain ⟨ix, hm, _⟩ := hk; simp at hlen; subst hlen; simp at hm
  | cons n s ih =>
    cases spec with
    | nil => simp at hlen
    | cons ix spec =>
      rw [resolveIx_cons] at h
      cases h1 : resolve1 n ix with
      | error => simp [h1] at h
      | ok x =>
        cases h2 : resolveIx s spec with
        | error => simp [h1, h2] at h
        | ok l' =>
          simp [h1, h2] at h; subst h
          cases x with
          | many ps => simp [selShape]
          | one p =>
            obtain ⟨ix', hm, hkp⟩ := hk
            rcases List.mem_cons.1 hm with rfl | hm
            · exfalso
              have := (resolve1_collapse h1).2 ⟨p, rfl⟩
              cases ix' with
              | int i => exact hkp i rfl
              | all => simp [doCollapseDim] at this
              | slice => simp [doCollapseDim] at this
            · rw [show selShape (Sel.one p :: l') = selShape l' from rfl]
              exact ih h2 (by simpa using hlen) ⟨ix', hm, hkp⟩

/-- **C20.** If a TT-tensor has dense form `F`, the subscript has one item per dimension, at least one of
them a slice, and `F[spec]` is defined and equal to `G`, then `tt[spec]` succeeds and represents `G`. -/
theorem C20_getitem (t : TT K) (h : t.WF) (hb : t.batch = none) (hm : ¬ t.isMatrix) (spec : List Ix)
    (hlen : spec.length = t.ndims) (hk : ∃ ix ∈ spec, ix.KeepsAxis) (F G : Tensor K)
    (hF : full t = Except.ok F) (hG : getItem F spec = Except.ok G) :
    ∃ T D, ttGetItem t spec = Except.ok T ∧ T.WF ∧ T.batch = none ∧ ¬ T.isMatrix ∧
      full T = Except.ok D ∧ D ≃ₜ G := by
  obtain ⟨row, hrow, hrl⟩ := h.rawShape_tensor hm
  obtain ⟨sF, vF⟩ := full_get h hF
  rw [bpre_none hb, hrow, restShape_tensor, List.nil_append] at sF
  unfold getItem at hG
  rw [sF] at hG
  cases hl : resolveIx row spec with
  | error => simp [hl] at hG
  | ok l =>
    simp [hl] at hG
    obtain ⟨T, eT, wT, rT, bT, vT⟩ := ttGetItem_spec h hb hrow hl (by omega)
      (selShape_ne_nil hl (by omega) hk)
    obtain ⟨D, eD, sD, vD⟩ := full_ok wT
    rw [bpre_none bT, rT, restShape_tensor, List.nil_append] at sD
    refine ⟨T, D, eT, wT, bT, by simp [TT.isMatrix, rT], eD, by rw [sD, ← hG], ?_⟩
    intro i hi
    rw [sD] at hi
    have e1 := vD [] i (by rw [bpre_none bT]; trivial) (by rw [rT]; exact hi)
    have e2 := vF [] (selIdx l i) (by rw [bpre_none hb]; trivial) (by rw [hrow]; exact selIdx_valid hl hi)
    rw [rT, restModes_tensor, List.nil_append, vT i hi] at e1
    rw [hrow, restModes_tensor, List.nil_append] at e2
    rw [← hG, e1, e2]

/-- **C20, errors.** A subscript with the wrong number of items raises ValueError; a TT-matrix raises
NotImplementedError. -/
theorem C20_getitem_errors (t : TT K) (h : t.WF) (spec : List Ix) :
    (spec.length ≠ t.ndims → ttGetItem t spec = Except.error Err.value) ∧
    (spec.length = t.ndims → t.isMatrix → ttGetItem t spec = Except.error Err.notImpl) := by
  constructor
  · intro hl; rw [ttGetItem, require_neg hl, R.error_bind]
  · intro hl hm
    obtain ⟨d, hd⟩ : ∃ d, t.ndims = d + 1 := ⟨t.ndims - 1, by have := h.pos; omega⟩
    rw [ttGetItem, require_pos hl, R.ok_bind, hd, forRange]
    simp only [ttGetItemStep, h.pyCore h.pos, R.ok_bind, if_pos hm, R.throw_eq, R.error_bind]

/-- **C20, finding.** A subscript of integers only, all within bounds, raises IndexError instead of
returning the element. -/
theorem C20_getitem_integers_fail (t : TT K) (h : t.WF) (hb : t.batch = none) (hm : ¬ t.isMatrix)
    (spec : List Ix) (hlen : spec.length = t.ndims) (hint : ∀ ix ∈ spec, ∃ i, ix = Ix.int i) (F G : Tensor K)
    (hF : full t = Except.ok F) (hG : getItem F spec = Except.ok G) :
    G.shape = [] ∧ ttGetItem t spec = Except.error Err.index := by
  obtain ⟨row, hrow, hrl⟩ := h.rawShape_tensor hm
  obtain ⟨sF, vF⟩ := full_get h hF
  rw [bpre_none hb, hrow, restShape_tensor, List.nil_append] at sF
  unfold getItem at hG
  rw [sF] at hG
  cases hl : resolveIx row spec with
  | error => simp [hl] at hG
  | ok l =>
    simp [hl] at hG
    have hll : l.length = t.ndims := (resolveIx_length hl).trans hrl
    have hone : ∀ i < t.ndims, ∃ p, l.getD i (.one 0) = .one p := by
      intro i hi
      have hx := resolveIx_getD hl (by omega) i (by omega) (.one 0) .all 0
      obtain ⟨z, hz⟩ := hint (spec.getD i .all) (by
        rw [List.getD_eq_getElem _ _ (by omega)]; exact List.getElem_mem _)
      rw [hz] at hx
      exact (resolve1_collapse hx).1 rfl
    have hnil : ∀ i ≤ t.ndims, selShape (l.take i) = [] := by
      intro i
      induction i with
      | zero => intro _; rfl
      | succ i ih =>
        intro hi
        obtain ⟨p, hp⟩ := hone i (by omega)
        rw [take_succ_sel (by omega) hp, selShape_append, ih (by omega)]; rfl
    have hsh : selShape l = [] := by
      have := hnil t.ndims le_rfl
      rwa [← hll, List.take_length] at this
    refine ⟨by rw [← hG]; exact hsh, ?_⟩
    obtain ⟨⟨L, rem⟩, e, hg, hr⟩ := forRange_inv
      (fun i st => GInv [] id t l i st ∧ (0 < i → st.2 ≠ none)) (ttGetItemStep t spec) 0 t.ndims ([], none)
      ⟨GInv.zero [] id h l, fun h => absurd h (by simp)⟩
      (fun i st _ hi hg => by
        obtain ⟨st', e', g'⟩ := ttGetItemStep_spec h hb hrow hl (by omega) i st (by omega) hg.1
        refine ⟨st', e', g', fun _ hn => ?_⟩
        -- a step that keeps an axis would enlarge the list of cores
        obtain ⟨rk, hL, _⟩ := g'
        have h0 := hL.len
        rw [hnil (i + 1) (by omega)] at h0
        have hL0 : st'.1 = [] := List.eq_nil_of_length_eq_zero h0
        have hC := tensor_core_shape h hrow (k := i) (by omega)
        rw [bpre_none hb, List.nil_append] at hC
        obtain ⟨p, hp⟩ := hone i (by omega)
        have hx := resolveIx_getD hl (by omega) i (by omega) (.one 0) .all 0
        rw [hp] at hx
        obtain ⟨S, eS, sS, _⟩ := getItem_core_one hC hx
        have hm' : ¬ t.isMatrix := hm
        simp only [ttGetItemStep, h.pyCore (k := i) (by omega), R.ok_bind, if_neg hm',
          pyGet_of_lt spec i .all (by omega), eS] at e'
        rw [if_pos (by simp [hC, sS])] at e'
        cases hs2 : st.2 with
        | none => rw [hs2] at e'; cases e'; cases hn
        | some r =>
          rw [hs2] at e'
          simp only at e'
          cases hmm : matmul r S with
          | error => rw [hmm] at e'; cases e'
          | ok T => rw [hmm] at e'; cases e'; cases hn)
    rw [ttGetItem, require_pos hlen, R.ok_bind, e, R.ok_bind]
    rw [Nat.zero_add] at hg hr
    obtain ⟨rk, hL, _⟩ := hg
    have h0 := hL.len
    rw [hnil _ le_rfl] at h0
    have hL0 : L = [] := List.eq_nil_of_length_eq_zero h0
    cases rem with
    | none => exact absurd rfl (hr h.pos)
    | some r => subst hL0; rfl

/-- The item selects at least one position of an axis of size `n`. -/
def Ix.Selects (n : ℕ) : Ix → Prop
  | .slice a b c => slicePositions n a b c ≠ []
  | _ => True

theorem selects_ne {n : ℕ} (hn : n ≠ 0) {ix : Ix} {x : Sel} (h : resolve1 n ix = Except.ok x)
    (hs : ix.Selects n) : selShape [x] ≠ [0] := by
  cases ix with
  | all => simp [resolve1] at h; subst h; simpa [selShape] using hn
  | int i =>
    simp only [resolve1] at h
    cases hi : intPosition n i <;> simp [hi] at h
    subst h; simp [selShape]
  | slice a b c =>
    simp only [resolve1] at h
    split_ifs at h
    simp at h; subst h; simpa [selShape, Ix.Selects] using hs

/-- **C21, batch axis only.** `batch[b0]` with an integer or a slice that selects something represents
`full(batch)[b0]`; the result is a `TensorTrain` exactly for an integer. -/
theorem C21_batch_dim (t : TT K) (h : t.WF) (n : ℕ) (hb : t.batch = some n) (b0 : Ix) (hs : b0.Selects n)
    (F G : Tensor K) (hF : full t = Except.ok F) (hG : getItem F [b0] = Except.ok G) :
    ∃ T D, batchGetItem t b0 [] = Except.ok T ∧ T.WF ∧ (T.isBatch = false ↔ ∃ i, b0 = Ix.int i) ∧
      T.rawShape = t.rawShape ∧ T.ttRanks = t.ttRanks ∧ full T = Except.ok D ∧ D ≃ₜ G := by
  obtain ⟨sF, vF⟩ := full_get h hF
  rw [bpre_some hb, List.singleton_append] at sF
  have hn : n ≠ 0 := fun h0 => h.batch_pos (by rw [hb, h0])
  unfold getItem at hG
  rw [sF, resolveIx_cons, resolveIx_nil] at hG
  cases hx : resolve1 n b0 with
  | error => simp [hx] at hG
  | ok x =>
    simp [hx] at hG
    obtain ⟨T, eT, wT, rT, kT, nT, pT, cT, vT⟩ := batchDimGetItem_spec h n hb b0 x hx (selects_ne hn hx hs)
    obtain ⟨D, eD, sD, vD⟩ := full_ok wT
    have hsh : selShape (x :: allSel (restShape t.rawShape)) = selShape [x] ++ restShape t.rawShape := by
      have := selShape_append [x] (allSel (restShape t.rawShape))
      rwa [selShape_allSel] at this
    refine ⟨T, D, by rw [batchGetItem, if_pos rfl]; exact eT, wT, ?_, rT, kT, eD, ?_, ?_⟩
    · rw [TT.isBatch, Option.isSome_eq_false_iff, Option.isNone_iff_eq_none, cT]
      cases b0 <;> simp [doCollapseDim]
    · rw [sD, rT, pT, ← hG, hsh]
    · intro i hi
      rw [sD, rT] at hi
      obtain ⟨p, i, rfl, hp, hi⟩ := valid_append_iff.1 hi
      rw [vD p i hp (by rw [rT]; exact hi), vT p _ hp (validModes_rest wT (by rw [rT]; exact hi)), rT, ← hG]
      have hp' := hp
      rw [pT] at hp'
      have e1 := selIdx_append [x] (allSel (restShape t.rawShape)) p i hp'.length_eq
      rw [selIdx_allSel hi] at e1
      simp only [List.singleton_append] at e1
      have hv : Valid t.bpre (selIdx [x] p) := by
        have h1 : resolveIx [n] [b0] = Except.ok [x] := by rw [resolveIx_cons, hx]; rfl
        rw [bpre_some hb]; exact selIdx_valid h1 hp'
      simp only
      rw [e1, vF _ i hv hi]

/-- **C21, all axes.** `batch[b0, spec]` with at least one slice among the tensor dimensions represents
`full(batch)[b0, spec]`; the result is a `TensorTrain` exactly for an integer in the batch position. -/
theorem C21_full_spec (t : TT K) (h : t.WF) (hm : ¬ t.isMatrix) (n : ℕ) (hb : t.batch = some n) (b0 : Ix)
    (hs : b0.Selects n) (spec : List Ix) (hlen : spec.length = t.ndims) (hk : ∃ ix ∈ spec, ix.KeepsAxis)
    (F G : Tensor K) (hF : full t = Except.ok F) (hG : getItem F (b0 :: spec) = Except.ok G) :
    ∃ T D, batchGetItem t b0 spec = Except.ok T ∧ T.WF ∧ (T.isBatch = false ↔ ∃ i, b0 = Ix.int i) ∧
      full T = Except.ok D ∧ D ≃ₜ G := by
  obtain ⟨row, hrow, hrl⟩ := h.rawShape_tensor hm
  obtain ⟨sF, vF⟩ := full_get h hF
  rw [bpre_some hb, List.singleton_append, hrow, restShape_tensor] at sF
  have hn : n ≠ 0 := fun h0 => h.batch_pos (by rw [hb, h0])
  unfold getItem at hG
  rw [sF, resolveIx_cons] at hG
  cases hx : resolve1 n b0 with
  | error => simp [hx] at hG
  | ok x =>
  cases hl : resolveIx row spec with
  | error => simp [hx, hl] at hG
  | ok l =>
    simp [hx, hl] at hG
    obtain ⟨T, eT, wT, rT, bT, vT⟩ := batchFullGetItem_spec h hb hrow hx (selects_ne hn hx hs) hl (by omega)
      (selShape_ne_nil hl (by omega) hk)
    obtain ⟨D, eD, sD, vD⟩ := full_ok wT
    have pT : T.bpre = selShape [x] := by rw [TT.bpre, bT, Sel.batch_toList]
    have hsh : selShape (x :: l) = selShape [x] ++ selShape l := selShape_append [x] l
    have hspec : spec ≠ [] := by rintro rfl; obtain ⟨_, hh, _⟩ := hk; simp at hh
    refine ⟨T, D, ?_, wT, ?_, eD, ?_, ?_⟩
    · rw [batchGetItem, if_neg hspec, if_pos (by omega)]; exact eT
    · rw [TT.isBatch, bT]
      have := resolve1_collapse hx
      cases x with
      | one p =>
        have h2 := this.2 ⟨p, rfl⟩
        cases b0 <;> simp [doCollapseDim, Sel.batch] at h2 ⊢
      | many ps =>
        simp at this
        cases b0 <;> simp [doCollapseDim, Sel.batch] at this ⊢
    · rw [sD, rT, pT, ← hG, hsh]; rfl
    · intro i hi
      rw [sD, rT, restShape_tensor] at hi
      obtain ⟨p, i, rfl, hp, hi⟩ := valid_append_iff.1 hi
      have hp' := hp
      rw [pT] at hp'
      rw [vD p i hp (by rw [rT]; exact hi), rT, restModes_tensor, vT p i hp' hi, ← hG]
      have e1 := selIdx_append [x] l p i hp'.length_eq
      simp only [List.singleton_append] at e1
      have hv : Valid t.bpre (selIdx [x] p) := by
        have h1 : resolveIx [n] [b0] = Except.ok [x] := by rw [resolveIx_cons, hx]; rfl
        rw [bpre_some hb]; exact selIdx_valid h1 hp'
      have e2 := vF (selIdx [x] p) (selIdx l i) hv (by rw [hrow]; exact selIdx_valid hl hi)
      rw [hrow, restModes_tensor] at e2
      simp only
      rw [e1, e2]

/-- **C21, errors.** Too few or too many items raise ValueError, a full subscript of a TT-matrix batch
raises NotImplementedError. -/
theorem C21_errors (t : TT K) (h : t.WF) (b0 : Ix) (spec : List Ix) (hne : spec ≠ []) :
    (spec.length ≠ t.ndims → batchGetItem t b0 spec = Except.error Err.value) ∧
    (spec.length = t.ndims → t.isMatrix → batchGetItem t b0 spec = Except.error Err.notImpl) := by
  constructor
  · intro hl; rw [batchGetItem, if_neg hne, if_neg (by omega), R.throw_eq]
  · intro hl hm
    obtain ⟨d, hd⟩ : ∃ d, t.ndims = d + 1 := ⟨t.ndims - 1, by have := h.pos; omega⟩
    rw [batchGetItem, if_neg hne, if_pos (by omega), batchFullGetItem, require_pos (by omega), R.ok_bind, hd,
      forRange]
    simp only [batchFullGetItemStep, h.pyCore h.pos, R.ok_bind, if_pos hm, R.throw_eq, R.error_bind]

/-- **C47, expand.** `expand_batch_dim` of a `TensorTrain` is a batch of size one with the same shape and
ranks whose only element is the tensor. -/
theorem C47_expand (t : TT K) (h : t.WF) (hb : t.batch = none) :
    ∃ T F D, expandBatchDim t = Except.ok T ∧ T.WF ∧ T.batch = some 1 ∧ T.rawShape = t.rawShape ∧
      T.ttRanks = t.ttRanks ∧ full t = Except.ok F ∧ full T = Except.ok D ∧ D.shape = 1 :: F.shape ∧
      ∀ i, Valid F.shape i → D.get (0 :: i) = F.get i := by
  obtain ⟨T, eT, wT, bT, rT, kT, nT, vT⟩ := expandBatchDim_ok h hb
  obtain ⟨F, eF, sF, vF⟩ := full_ok h
  obtain ⟨D, eD, sD, vD⟩ := full_ok wT
  rw [bpre_none hb, List.nil_append] at sF
  rw [bpre_some bT, rT] at sD
  refine ⟨T, F, D, eT, wT, bT, rT, kT, eF, eD, by rw [sD, sF]; rfl, ?_⟩
  intro i hi
  rw [sF] at hi
  have e1 := vD [0] i (by rw [bpre_some bT]; simp) (by rw [rT]; exact hi)
  have e2 := vF [] i (by rw [bpre_none hb]; trivial) hi
  rw [List.singleton_append] at e1
  rw [List.nil_append] at e2
  rw [e1, e2, rT, TT.entry, TT.entry, nT]
  refine lprod_congr (fun j _ => by rw [TT.rank, kT]; rfl) (fun j hj a b _ _ => vT j hj 0 _) ?_
  rw [← nT, wT.rank_last]; omega

/-- **C47, squeeze.** `squeeze_batch_dim` of a batch of size one is a `TensorTrain` with the same shape and
ranks representing the only element; every other object is returned unchanged. -/
theorem C47_squeeze (t : TT K) (h : t.WF) :
    (t.batch = some 1 → ∃ T F D, squeezeBatchDim t = Except.ok T ∧ T.WF ∧ T.batch = none ∧
      T.rawShape = t.rawShape ∧ T.ttRanks = t.ttRanks ∧ full t = Except.ok F ∧ full T = Except.ok D ∧
      F.shape = 1 :: D.shape ∧ ∀ i, Valid D.shape i → D.get i = F.get (0 :: i)) ∧
    (t.batch ≠ some 1 → squeezeBatchDim t = Except.ok t) := by
  refine ⟨fun hb => ?_, fun hb => by rw [squeezeBatchDim, if_neg hb]; rfl⟩
  obtain ⟨T, eT, wT, rT, kT, nT, bT, vT⟩ := squeezeBatchDim_spec h
  rw [if_pos hb] at bT
  obtain ⟨F, eF, sF, vF⟩ := full_ok h
  obtain ⟨D, eD, sD, vD⟩ := full_ok wT
  rw [bpre_some hb] at sF
  rw [bpre_none bT, List.nil_append, rT] at sD
  refine ⟨T, F, D, eT, wT, bT, rT, kT, eF, eD, by rw [sD, sF]; rfl, ?_⟩
  intro i hi
  rw [sD] at hi
  have e1 := vF [0] i (by rw [bpre_some hb]; simp) hi
  have e2 := vD [] i (by rw [bpre_none bT]; trivial) (by rw [rT]; exact hi)
  rw [List.singleton_append] at e1
  rw [List.nil_append] at e2
  rw [e1, e2, rT]
  have := vT [0] (restModes t.rawShape i) (by rw [bpre_some hb]; simp [bproj])
    (by have := validModes_rest wT (i := i) (by rw [rT]; exact hi); rwa [rT] at this)
  rw [bpre_none bT, bpre_some hb] at this
  simpa [bproj] using this

/-- **C47, round trip.** Squeezing an expanded `TensorTrain` gives back the represented tensor, shape and
ranks. -/
theorem C47_squeeze_expand (t : TT K) (h : t.WF) (hb : t.batch = none) :
    ∃ T T' F D, expandBatchDim t = Except.ok T ∧ squeezeBatchDim T = Except.ok T' ∧ T'.WF ∧
      T'.batch = none ∧ T'.rawShape = t.rawShape ∧ T'.ttRanks = t.ttRanks ∧
      full t = Except.ok F ∧ full T' = Except.ok D ∧ D ≃ₜ F := by
  obtain ⟨T, F, E, eT, wT, bT, rT, kT, eF, eE, sE, vE⟩ := C47_expand t h hb
  obtain ⟨T', F', D, eT', wT', bT', rT', kT', eF', eD, sD, vD⟩ := (C47_squeeze T wT).1 bT
  obtain rfl : E = F' := by rw [eE] at eF'; cases eF'; rfl
  have hs : D.shape = F.shape := by rw [sE] at sD; simpa using sD.symm
  exact ⟨T, T', F, D, eT, eT', wT', bT', rT'.trans rT, kT'.trans kT, eF, eD, hs, fun i hi => by
    rw [vD i hi, vE i (hs ▸ hi)]⟩

/-! Concrete cases. -/

example : exTensor3.WF ∧ exTensor3.batch = none ∧ ¬ exTensor3.isMatrix ∧
    ([Ix.int 1, .slice none none (-1), .int (-1)] : List Ix).length = exTensor3.ndims := by decide
example : ∃ ix ∈ ([Ix.int 1, .slice none none (-1), .int (-1)] : List Ix), ix.KeepsAxis :=
  ⟨.slice none none (-1), by simp, by simp [Ix.KeepsAxis]⟩
example : ((full exTensor3) >>= fun F => getItem F [.int 1, .slice none none (-1), .int (-1)]).map
    (fun G => (G.shape, G.get [0], G.get [1])) = Except.ok ([2], -89, 25) := by decide
example : ((ttGetItem exTensor3 [.int 1, .slice none none (-1), .int (-1)]) >>= full).map
    (fun G => (G.shape, G.get [0], G.get [1])) = Except.ok ([2], -89, 25) := by decide
example : exBatch.WF ∧ exBatch.batch = some 2 ∧ ¬ exBatch.isMatrix := by decide
example : (Ix.slice (some 1) none 1).Selects 2 := by simp [Ix.Selects]; decide
example : ((batchGetItem exBatch (.slice (some 1) none 1) [.all, .int 2]) >>= full).map
    (fun G => (G.shape, G.get [0, 0])) = Except.ok ([1, 2], 5 * 1 + 6 * 2) := by decide
example : ((batchGetItem exBatchMatrix (.int (-1)) []) >>= full).map (·.shape) =
    Except.ok [2, 2] := by decide

/-- **C21, finding.** An empty slice of the batch gives an object whose `full` raises, although
`full(batch)[0:0]` is an empty tensor. -/
theorem C21_empty_slice :
    ∃ t : TT ℤ, t.WF ∧ t.batch = some 2 ∧
      ((full t) >>= fun F => getItem F [.slice (some 0) (some 0) 1]).map (·.shape) = Except.ok [0, 2, 3] ∧
      (batchGetItem t (.slice (some 0) (some 0) 1) []).isOk ∧
      ((batchGetItem t (.slice (some 0) (some 0) 1) []) >>= full).map (·.shape) = Except.error Err.tf :=
  ⟨exBatch, by decide⟩

end T3f
