import Verif.Props.C20Indexing
import Verif.Proofs.BilinearIff

/-!
# C20, C21: the subscripts that are accepted
-/

namespace T3f

variable {K : Type} [CommRing K]

omit [CommRing K] in
theorem resolveIx_ok_of {s : List ℕ} {sp : List Ix} (hl : sp.length = s.length)
    (h : ∀ i < s.length, ∃ x, resolve1 (s.getD i 0) (sp.getD i .all) = Except.ok x) : ∃ l, resolveIx s sp = Except.ok l := by
  induction s generalizing sp with
  | nil =>
    obtain rfl : sp = [] := List.eq_nil_of_length_eq_zero hl
    exact ⟨_, rfl⟩
  | cons n s ih =>
    cases sp with
    | nil => simp at hl
    | cons ix sp =>
      obtain ⟨x, hx⟩ := h 0 (by simp)
      obtain ⟨l, hl'⟩ := ih (sp := sp) (by simpa using hl) fun i hi => by simpa using h (i + 1) (by simpa using hi)
      have hx : resolve1 n ix = Except.ok x := hx
      exact ⟨x :: l, by rw [resolveIx_cons, hx, hl']; rfl⟩

omit [CommRing K] in
theorem getItem_core_resolve {C S : Tensor K} {r n r' : ℕ} (hC : C.shape = [r, n, r']) {ix : Ix} (h : getItem C [.all, ix, .all] = Except.ok S) :
    ∃ x, resolve1 n ix = Except.ok x := by
  cases hx : resolve1 n ix with
  | ok x => exact ⟨x, rfl⟩
  | error e =>
    simp only [getItem, hC, resolveIx_cons, hx] at h
    cases h

omit [CommRing K] in
theorem getItem_bcore_resolve {C S : Tensor K} {q r n r' : ℕ} (hC : C.shape = [q, r, n, r']) {b0 ix : Ix}
    (h : getItem C [b0, .all, ix, .all] = Except.ok S) : (∃ x, resolve1 q b0 = Except.ok x) ∧ ∃ x, resolve1 n ix = Except.ok x := by
  cases hb : resolve1 q b0 with
  | error e =>
    simp only [getItem, hC, resolveIx_cons, hb] at h
    cases h
  | ok y =>
    cases hx : resolve1 n ix with
    | ok x => exact ⟨⟨y, rfl⟩, ⟨x, rfl⟩⟩
    | error e =>
      simp only [getItem, hC, resolveIx_cons, hb, hx] at h
      cases h

/-- **C20, the accepted subscripts.** `tt[spec]` succeeds exactly if the subscript has one item per dimension, at least one of them is a slice, and
indexing `full(tt)` with it succeeds (so out of range integers raise, and slices are clipped as in Python). -/
theorem C20_getitem_iff (t : TT K) (h : t.WF) (hb : t.batch = none) (hm : ¬ t.isMatrix) (spec : List Ix) (F : Tensor K) (hF : full t = Except.ok F) :
    (∃ T, ttGetItem t spec = Except.ok T) ↔
      spec.length = t.ndims ∧ (∃ ix ∈ spec, ix.KeepsAxis) ∧ ∃ G, getItem F spec = Except.ok G := by
  constructor
  · rintro ⟨T, hT⟩
    have hlen : spec.length = t.ndims := by
      by_contra hl
      rw [(C20_getitem_errors t h spec).1 hl] at hT
      cases hT
    obtain ⟨row, hrow, hrl⟩ := h.rawShape_tensor hm
    obtain ⟨sF, vF⟩ := full_get h hF
    rw [bpre_none hb, hrow, restShape_tensor, List.nil_append] at sF
    have hG : ∃ G, getItem F spec = Except.ok G := by
      have hT' := hT
      rw [ttGetItem, require_pos hlen, R.ok_bind] at hT'
      cases hf : forRange (ttGetItemStep t spec) 0 t.ndims ([], none) with
      | error e => rw [hf] at hT'; cases hT'
      | ok st =>
        obtain ⟨v, -, hv⟩ := forRange_steps hf
        obtain ⟨l, hl⟩ := resolveIx_ok_of (s := row) (sp := spec) (by omega) fun i hi => by
          have hs := hv i (by omega) (by omega)
          have hC := tensor_core_shape h hrow (k := i) (by omega)
          rw [bpre_none hb, List.nil_append] at hC
          simp only [ttGetItemStep, h.pyCore (k := i) (by omega), R.ok_bind, if_neg hm, pyGet_of_lt spec i .all (by omega)] at hs
          cases hg : getItem (t.core i) [Ix.all, spec.getD i .all, Ix.all] with
          | error e => rw [hg] at hs; cases hs
          | ok S => exact getItem_core_resolve hC hg
        exact ⟨_, by rw [getItem, sF, hl, R.ok_bind]; rfl⟩
    refine ⟨hlen, ?_, hG⟩
    by_contra hk
    obtain ⟨G, hG⟩ := hG
    have hint : ∀ ix ∈ spec, ∃ i, ix = Ix.int i := by
      intro ix hix
      by_contra hne
      exact hk ⟨ix, hix, fun i hi => hne ⟨i, hi⟩⟩
    have := (C20_getitem_integers_fail t h hb hm spec hlen hint F G hF hG).2
    rw [hT] at this
    cases this
  · rintro ⟨hlen, hk, G, hG⟩
    obtain ⟨T, D, e, -⟩ := C20_getitem t h hb hm spec hlen hk F G hF hG
    exact ⟨T, e⟩

/-- **C21, the accepted subscripts.** `batch[b0]` with a number or a slice that selects something succeeds exactly if `full(batch)[b0]` does. -/
theorem C21_batch_dim_iff (t : TT K) (h : t.WF) (n : ℕ) (hb : t.batch = some n) (b0 : Ix) (hs : b0.Selects n) (F : Tensor K)
    (hF : full t = Except.ok F) : (∃ T, batchGetItem t b0 [] = Except.ok T) ↔ ∃ G, getItem F [b0] = Except.ok G := by
  constructor
  · rintro ⟨T, hT⟩
    obtain ⟨sF, vF⟩ := full_get h hF
    rw [bpre_some hb, List.singleton_append] at sF
    have hx : ∃ x, resolve1 n b0 = Except.ok x := by
      cases hx : resolve1 n b0 with
      | ok x => exact ⟨x, rfl⟩
      | error e =>
        exfalso
        rw [batchGetItem, if_pos rfl, batchDimGetItem] at hT
        obtain ⟨d, hd⟩ : ∃ d, t.ndims = d + 1 := ⟨t.ndims - 1, by have := h.pos; omega⟩
        have hsh : ∃ s, (t.core 0).shape = n :: s := by
          rw [h.core_shape 0 h.pos, bpre_some hb]
          exact ⟨_, rfl⟩
        obtain ⟨s, hsh⟩ := hsh
        have key : ∀ sp, getItem (t.core 0) (b0 :: sp) = Except.error e := by
          intro sp
          rw [getItem, hsh, resolveIx_cons, hx]
          rfl
        rw [mapRange, hd, List.range_succ_eq_map, List.mapM_cons] at hT
        simp only [h.pyCore h.pos, R.ok_bind, key, ite_self, R.error_bind] at hT
        cases hT
    obtain ⟨x, hx⟩ := hx
    exact ⟨_, by rw [getItem, sF, resolveIx_cons, hx, resolveIx_nil]; rfl⟩
  · rintro ⟨G, hG⟩
    obtain ⟨T, D, e, -⟩ := C21_batch_dim t h n hb b0 hs F G hF hG
    exact ⟨T, e⟩

/-- What every step of a loop keeps holds after the loop. -/
theorem forRange_partial {σ : Type} (P : ℕ → σ → Prop) {f : ℕ → σ → R σ} (hf : ∀ k s s', P k s → f k s = Except.ok s' → P (k + 1) s') :
    ∀ {n a : ℕ} {s r : σ}, P a s → forRange f a n s = Except.ok r → P (a + n) r := by
  intro n
  induction n with
  | zero => intro a s r hP h; cases h; exact hP
  | succ n ih =>
    intro a s r hP h
    have h' : (f a s >>= fun t => forRange f (a + 1) n t) = Except.ok r := h
    cases e : f a s with
    | error x => rw [e] at h'; cases h'
    | ok t =>
      rw [e] at h'
      have := ih (hf a s t hP e) h'
      rwa [show a + 1 + n = a + (n + 1) by omega] at this

/-- **C21, finding.** A full subscript of a batch with integers only in the tensor dimensions fails, also if the batch position is a slice. -/
theorem C21_integers_fail (t : TT K) (h : t.WF) (b0 : Ix) (spec : List Ix) (hne : spec ≠ [])
    (hint : ∀ ix ∈ spec, ∃ i, ix = Ix.int i) : ¬ ∃ T, batchGetItem t b0 spec = Except.ok T := by
  rintro ⟨T, hT⟩
  have hlen : spec.length = t.ndims := by
    by_contra hl
    rw [(C21_errors t h b0 spec hne).1 hl] at hT
    cases hT
  rw [batchGetItem, if_neg hne, if_pos (by omega), batchFullGetItem, require_pos (by omega), R.ok_bind] at hT
  cases hf : forRange (batchFullGetItemStep t b0 spec) 0 t.ndims ([], none) with
  | error e => rw [hf] at hT; cases hT
  | ok st =>
    have hP : st.1 = [] ∧ (0 < 0 + t.ndims → st.2 ≠ none) := by
      refine forRange_partial (fun k (st : List (Tensor K) × Option (Tensor K)) => st.1 = [] ∧ (0 < k → st.2 ≠ none)) ?_ ⟨rfl, fun h => absurd h (by simp)⟩ hf
      rintro k ⟨L, r⟩ s' ⟨rfl, hr⟩ hs
      unfold batchFullGetItemStep at hs
      cases h1 : pyGet t.cores k with
      | error e => rw [h1] at hs; cases hs
      | ok C =>
        rw [h1, R.ok_bind] at hs
        by_cases hm : t.isMatrix
        · rw [if_pos hm] at hs; cases hs
        rw [if_neg hm] at hs
        cases h2 : pyGet spec k with
        | error e => rw [h2] at hs; cases hs
        | ok ix =>
          rw [h2, R.ok_bind] at hs
          have hmem : ix ∈ spec := by
            unfold pyGet at h2
            cases h3 : spec[k]? with
            | none => rw [h3] at h2; cases h2
            | some y =>
              rw [h3] at h2
              cases h2
              exact List.mem_of_getElem? h3
          obtain ⟨i, rfl⟩ := hint ix hmem
          cases h3 : getItem C [b0, Ix.all, Ix.int i, Ix.all] with
          | error e => rw [h3] at hs; cases hs
          | ok S =>
            rw [h3, R.ok_bind, if_pos (show doCollapseDim (Ix.int i) = true from rfl)] at hs
            cases r with
            | none => cases hs; exact ⟨rfl, fun _ hn => by cases hn⟩
            | some r =>
              simp only at hs
              by_cases hd : doCollapseDim b0 = true
              · rw [if_pos hd] at hs
                cases h4 : einsum (ein! "ab,bd->ad") [r, S] with
                | error e => rw [h4] at hs; cases hs
                | ok z => rw [h4] at hs; cases hs; exact ⟨rfl, fun _ hn => by cases hn⟩
              · rw [if_neg hd] at hs
                cases h4 : einsum (ein! "oab,obd->oad") [r, S] with
                | error e => rw [h4] at hs; cases hs
                | ok z => rw [h4] at hs; cases hs; exact ⟨rfl, fun _ hn => by cases hn⟩
    rw [hf, R.ok_bind] at hT
    obtain ⟨L, r⟩ := st
    obtain ⟨h1, h2⟩ := hP
    simp only at h1 h2
    subst h1
    cases r with
    | none => exact h2 (by have := h.pos; omega) rfl
    | some r => cases hT

/-- **C21, the accepted full subscripts.** `batch[b0, spec]` succeeds exactly if there is one item per dimension, at least one of the tensor dimensions has
a slice, and `full(batch)[b0, spec]` succeeds. -/
theorem C21_full_spec_iff (t : TT K) (h : t.WF) (hm : ¬ t.isMatrix) (n : ℕ) (hb : t.batch = some n) (b0 : Ix) (hs : b0.Selects n) (spec : List Ix)
    (hne : spec ≠ []) (F : Tensor K) (hF : full t = Except.ok F) :
    (∃ T, batchGetItem t b0 spec = Except.ok T) ↔
      spec.length = t.ndims ∧ (∃ ix ∈ spec, ix.KeepsAxis) ∧ ∃ G, getItem F (b0 :: spec) = Except.ok G := by
  constructor
  · rintro ⟨T, hT⟩
    have hlen : spec.length = t.ndims := by
      by_contra hl
      rw [(C21_errors t h b0 spec hne).1 hl] at hT
      cases hT
    refine ⟨hlen, ?_, ?_⟩
    · by_contra hk
      refine C21_integers_fail t h b0 spec hne (fun ix hix => ?_) ⟨T, hT⟩
      by_contra hne
      exact hk ⟨ix, hix, fun i hi => hne ⟨i, hi⟩⟩
    obtain ⟨row, hrow, hrl⟩ := h.rawShape_tensor hm
    obtain ⟨sF, vF⟩ := full_get h hF
    rw [bpre_some hb, List.singleton_append, hrow, restShape_tensor] at sF
    rw [batchGetItem, if_neg hne, if_pos (by omega), batchFullGetItem, require_pos (by omega), R.ok_bind] at hT
    cases hf : forRange (batchFullGetItemStep t b0 spec) 0 t.ndims ([], none) with
    | error e => rw [hf] at hT; cases hT
    | ok st =>
      obtain ⟨v, -, hv⟩ := forRange_steps hf
      have key : ∀ i < row.length, (∃ x, resolve1 n b0 = Except.ok x) ∧ ∃ x, resolve1 (row.getD i 0) (spec.getD i .all) = Except.ok x := by
        intro i hi
        have hs := hv i (by omega) (by omega)
        have hC := tensor_core_shape h hrow (k := i) (by omega)
        rw [bpre_some hb, List.singleton_append] at hC
        simp only [batchFullGetItemStep, h.pyCore (k := i) (by omega), R.ok_bind, if_neg hm, pyGet_of_lt spec i .all (by omega)] at hs
        cases hg : getItem (t.core i) [b0, Ix.all, spec.getD i .all, Ix.all] with
        | error e => rw [hg] at hs; cases hs
        | ok S => exact getItem_bcore_resolve hC hg
      obtain ⟨l, hl⟩ := resolveIx_ok_of (s := row) (sp := spec) (by omega) fun i hi => (key i hi).2
      obtain ⟨x, hx⟩ := (key 0 (by have := h.pos; omega)).1
      exact ⟨_, by rw [getItem, sF, resolveIx_cons, hx, hl]; rfl⟩
  · rintro ⟨hlen, hk, G, hG⟩
    obtain ⟨T, D, e, -⟩ := C21_full_spec t h hm n hb b0 hs spec hlen hk F G hF hG
    exact ⟨T, e⟩

/-! Concrete cases: see `C20Indexing.lean` for `exTensor3` and `exBatch`; here subscripts that are rejected. -/

example : (ttGetItem exTensor3 [.int 2, .all, .all]).isOk = false ∧ ((full exTensor3) >>= fun F => getItem F [.int 2, .all, .all]).isOk = false := by decide
example : (batchGetItem exBatch (.int 2) []).isOk = false ∧ (batchGetItem exBatch (.slice (some 1) none 1) [.int 0, .int 2]).isOk = false := by decide
example : exBatch.WF ∧ exBatch.batch = some 2 ∧ ¬ exBatch.isMatrix ∧ (full exBatch).isOk := by decide

end T3f
