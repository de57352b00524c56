import Verif.Proofs.Variables
import Verif.Proofs.Full
import Verif.Spec.Examples
import Mathlib.Tactic.IntervalCases

/-!
# C48: variables

`get_variable` and `assign` in eager mode. The store of all variables is threaded through explicitly; `o.tt σ` is the object with the values its cores have in the
store `σ`.
-/

namespace T3f

variable {K : Type} [Zero K]

/-- `get_variable` creates new variables, one for each core, and returns an object made of them which is the initializer. All older variables keep their values. -/
theorem C48_get_variable (σ : Store K) (o : VObj K) (ho : (o.tt σ).WF) :
    ∃ σ' v, getVariable σ (some o) none = (σ', Except.ok v) ∧ v.tt σ' = o.tt σ ∧
      v.IsVariable σ' ((List.range o.cores.length).map (σ.length + ·)) ∧ ∀ a < σ.length, σ'[a]? = σ[a]? := by
  have hl : ((List.range o.cores.length).map fun i => VCore.var (K := K) (σ.length + i)).map (·.value (σ ++ o.cores.map (·.value σ))) = (o.tt σ).cores := by
    apply List.ext_getElem
    · simp [VObj.tt]
    · intro i h1 h2
      simp only [VObj.tt, List.length_map, List.length_range] at h1 h2 ⊢
      simp [VCore.value, List.getD_eq_getElem?_getD, h2]
  have hk := mkVObj_ok ho hl
  refine ⟨σ ++ o.cores.map (·.value σ), ⟨(List.range o.cores.length).map fun i => .var (σ.length + i), o.rawShape, o.ttRanks, o.batch⟩, ?_, ?_, ?_, ?_⟩
  · simp only [getVariable]
    congr 1
    have hk' : mkVObj (σ ++ o.cores.map (·.value σ)) o.batch ((List.range o.cores.length).map fun i => VCore.var (σ.length + i)) o.rawShape o.ttRanks =
      Except.ok ⟨(List.range o.cores.length).map fun i => .var (σ.length + i), o.rawShape, o.ttRanks, o.batch⟩ := hk
    rw [hk', R.ok_bind]
    rfl
  · have : (o.tt σ) = ⟨(o.tt σ).cores, o.rawShape, o.ttRanks, o.batch⟩ := rfl
    rw [this, ← hl]
    rfl
  · refine ⟨by simp [List.map_map, Function.comp_def], ?_, ?_⟩
    · exact List.Nodup.map (fun a b h => Nat.add_left_cancel h) List.nodup_range
    · intro a ha
      obtain ⟨i, hi, rfl⟩ := List.mem_map.1 ha
      have := List.mem_range.1 hi
      simp
      omega
  · intro a ha
    rw [List.getElem?_append_left ha]

/-- In eager mode there is no ValueError for a missing initializer: `None.ndims()` raises AttributeError. -/
theorem C48_no_initializer (σ : Store K) (reg : Option (TT K → R (Option (Tensor K)))) : getVariable σ none reg = (σ, Except.error Err.attr) := rfl

/-- A regularizer which returns a loss makes `get_variable` fail in eager mode (the variables have been created already); one which returns `None` has no effect. -/
theorem C48_regularizer (σ : Store K) (o : VObj K) (ho : (o.tt σ).WF) (f : TT K → R (Option (Tensor K))) :
    (∀ loss, f (o.tt σ) = Except.ok (some loss) → (getVariable σ (some o) (some f)).2 = Except.error Err.attr) ∧
    (f (o.tt σ) = Except.ok none → getVariable σ (some o) (some f) = getVariable σ (some o) none) := by
  obtain ⟨σ', v, e, hv, -, -⟩ := C48_get_variable σ o ho
  have h1 : σ ++ o.cores.map (·.value σ) = σ' := (Prod.ext_iff.1 e).1
  have h2 := (Prod.ext_iff.1 e).2
  simp only [getVariable, h1] at h2 ⊢
  cases hm : mkVObj σ' o.batch ((List.range o.cores.length).map fun i => VCore.var (σ.length + i)) o.rawShape o.ttRanks with
  | error x => rw [hm] at h2; cases h2
  | ok w =>
    rw [hm] at h2
    have : w = v := Except.ok.inj h2
    subst this
    constructor
    · intro loss hf
      simp only [R.ok_bind, runRegularizer, hv, hf, Option.isSome_some, if_true]
      rfl
    · intro hf
      simp only [R.ok_bind, runRegularizer, hv, hf, Option.isSome_none]
      rfl

/-- `assign` makes the variable represent the value. The result is made of the same variables as `ref`, so it follows later assignments. No other variable changes. -/
theorem C48_assign (σ : Store K) (ref value : VObj K) (as : List ℕ) (hv : ref.IsVariable σ as) (hr : (ref.tt σ).WF) (hw : (value.tt σ).WF) (hs : value.Separate as)
    (hb : value.batch = ref.batch) (hraw : value.rawShape = ref.rawShape) (hrk : value.ttRanks = ref.ttRanks) :
    ∃ σ' r, assign σ ref value = (σ', Except.ok r) ∧ ref.tt σ' = value.tt σ ∧ r.tt σ' = value.tt σ ∧ r.cores = ref.cores ∧
      σ'.length = σ.length ∧ ∀ a ∉ as, σ'[a]? = σ[a]? := by
  have hn : value.cores.length = ref.cores.length := by
    have h1 := hr.ranks_len
    have h2 := hw.ranks_len
    simp only [VObj.tt, TT.ndims, List.length_map] at h1 h2
    rw [hrk] at h2
    omega
  have hl := hv.len
  have hsh : ∀ i < as.length, ((value.tt σ).core i).shape = ((ref.tt σ).core i).shape := fun i hi => by
    rw [hr.core_shape i (by simp [VObj.tt, TT.ndims]; omega), hw.core_shape i (by simp [VObj.tt, TT.ndims]; omega)]
    simp only [TT.bpre, TT.rank, TT.modes, VObj.tt, hb, hraw, hrk]
  obtain ⟨σ', e, hlen, h1, h2⟩ := assignLoop_ok hv hs le_rfl (by omega) hsh
  have hnew : ref.tt σ' = value.tt σ := VObj.tt_congr hraw.symm hrk.symm hb.symm hn.symm fun i hi => by
    rw [hv.core σ' (by omega), h1 i (by omega)]
  refine ⟨σ', ⟨ref.cores, value.rawShape, value.ttRanks, value.batch⟩, ?_, hnew, ?_, rfl, hlen, fun a ha => ?_⟩
  · have hk := mkVObj_ok (σ := σ') (cores := ref.cores) hw (by rw [← hnew]; rfl)
    rw [assign, hl, e]
    exact congrArg (Prod.mk σ') hk
  · rw [← hnew]
    simp only [VObj.tt, hb, hraw, hrk]
  · have := h2 a fun i hi he => ha (by rw [← he, List.getD_eq_getElem _ _ hi]; exact List.getElem_mem hi)
    by_cases hlt : a < σ.length
    · rw [List.getD_eq_getElem _ _ hlt, List.getD_eq_getElem _ _ (by omega)] at this
      rw [List.getElem?_eq_getElem hlt, List.getElem?_eq_getElem (by omega), this]
    · rw [List.getElem?_eq_none (by omega), List.getElem?_eq_none (by omega)]

/-- A value of other shape or ranks is rejected, if it is of the same kind and does not have more cores. The assignment is not atomic: an initial part of the cores
has been overwritten already, only the others keep their values. -/
theorem C48_assign_error (σ : Store K) (ref value : VObj K) (as : List ℕ) (hv : ref.IsVariable σ as) (hr : (ref.tt σ).WF) (hw : (value.tt σ).WF)
    (hs : value.Separate as) (hbatch : value.batch.isSome = ref.batch.isSome) (hmat : (value.tt σ).isMatrix ↔ (ref.tt σ).isMatrix)
    (hle : value.cores.length ≤ ref.cores.length) (hne : ¬ (value.batch = ref.batch ∧ value.rawShape = ref.rawShape ∧ value.ttRanks = ref.ttRanks)) :
    ∃ σ' n, n ≤ value.cores.length ∧ n < ref.cores.length ∧
      assign σ ref value = (σ', Except.error (if n < value.cores.length then Err.value else Err.index)) ∧
      (∀ i < n, (ref.tt σ').core i = (value.tt σ).core i) ∧
      (∀ i, n ≤ i → i < ref.cores.length → (ref.tt σ').core i = (ref.tt σ).core i) ∧
      σ'.length = σ.length ∧ ∀ a ∉ as, σ'.getD a default = σ.getD a default := by
  have hl := hv.len
  obtain ⟨n, hn, hbad, hgood⟩ := exists_first (n := as.length)
    (fun i => i < value.cores.length ∧ ((value.tt σ).core i).shape = ((ref.tt σ).core i).shape) (by
      by_contra hc
      push Not at hc
      have hlen : value.cores.length = ref.cores.length := by
        by_contra h
        exact absurd (hc value.cores.length (by omega)).1 (by omega)
      refine hne (attrs_of_shapes hw hr (by simpa [VObj.tt, TT.ndims] using hlen) hbatch hmat fun i hi => ?_)
      exact (hc i (by simp [VObj.tt, TT.ndims] at hi; omega)).2)
  have hnv : n ≤ value.cores.length := by
    by_contra h
    exact absurd (hgood value.cores.length (by omega)).1 (by omega)
  obtain ⟨σ', e, hlen, h1, h2⟩ := assignLoop_ok hv hs hn.le hnv fun i hi => (hgood i hi).2
  have hstep : assignStep ref value σ' n = Except.error (if n < value.cores.length then Err.value else Err.index) := by
    rw [assignStep_eq hv hs hn h2]
    by_cases hc : n < value.cores.length
    · rw [if_pos hc, if_pos hc, if_neg fun h => hbad ⟨hc, h⟩]
    · rw [if_neg hc, if_neg hc]
  have hloop : assignLoop ref value σ (n + 1) = (σ', Except.error (if n < value.cores.length then Err.value else Err.index)) := by
    rw [assignLoop, e]
    simp only [hstep]
  refine ⟨σ', n, hnv, by omega, ?_, fun i hi => ?_, fun i hi hi' => ?_, hlen, fun a ha => ?_⟩
  · have := assignLoop_error hloop (as.length - (n + 1))
    rw [show n + 1 + (as.length - (n + 1)) = as.length by omega] at this
    rw [assign, hl, this]
  · rw [hv.core σ' (by omega), h1 i hi]
  · rw [hv.core σ' (by omega), hv.core σ (by omega)]
    exact h2 _ fun j hj he => absurd (hv.inj (by omega) (by omega) he) (by omega)
  · exact h2 a fun i hi he => ha (by rw [← he, List.getD_eq_getElem _ _ (by omega)]; exact List.getElem_mem (by omega))

/-- Only variables can be assigned to. -/
theorem C48_not_variable (σ : Store K) (ref value : VObj K) (T : Tensor K) (h0 : ref.cores.head? = some (.tensor T)) (hv : value.cores ≠ []) :
    assign σ ref value = (σ, Except.error Err.attr) := by
  obtain ⟨cores, raw, rk, b⟩ := ref
  cases cores with
  | nil => cases h0
  | cons c cs =>
    obtain rfl : c = .tensor T := by simpa using h0
    obtain ⟨w, ws, hw⟩ := List.exists_cons_of_ne_nil hv
    have h1 : assignLoop ⟨.tensor T :: cs, raw, rk, b⟩ value σ (0 + 1) = (σ, Except.error Err.attr) := by
      simp only [assignLoop, assignStep, hw, pyGet]
      rfl
    have := assignLoop_error h1 cs.length
    rw [assign]
    simp only [List.length_cons]
    rw [show cs.length + 1 = 0 + 1 + cs.length by omega, this]

/-- After any sequence of assignments of values which do not use the variables themselves, the variable represents the last value. -/
theorem C48_sequence (σ : Store K) (ref : VObj K) (as : List ℕ) (hv : ref.IsVariable σ as) (hr : (ref.tt σ).WF) (values : List (VObj K)) (last : VObj K)
    (h : ∀ v ∈ values ++ [last], (v.tt σ).WF ∧ v.batch = ref.batch ∧ v.rawShape = ref.rawShape ∧ v.ttRanks = ref.ttRanks ∧ ∀ a ∈ as, VCore.var a ∉ v.cores) :
    ∃ σ', assignAll ref σ (values ++ [last]) = (σ', Except.ok ()) ∧ ref.tt σ' = last.tt σ ∧ σ'.length = σ.length ∧ ∀ a ∉ as, σ'[a]? = σ[a]? := by
  have hsep : ∀ v ∈ values ++ [last], v.Separate as := fun v hv' i j a h1 h2 =>
    absurd (List.mem_of_getElem? h1) ((h v hv').2.2.2.2 a (List.mem_of_getElem? h2))
  induction values generalizing σ with
  | nil =>
    obtain ⟨w, e1, e2, e3, -⟩ := h last (by simp)
    obtain ⟨σ', r, e, f1, -, -, f4, f5⟩ := C48_assign σ ref last as hv hr w (hsep last (by simp)) e1 e2 e3
    refine ⟨σ', ?_, f1, f4, f5⟩
    simp only [List.nil_append, assignAll, e]
  | cons v vs ih =>
    obtain ⟨w, e1, e2, e3, -⟩ := h v (by simp)
    obtain ⟨σ', r, e, f1, -, -, f4, f5⟩ := C48_assign σ ref v as hv hr w (hsep v (by simp)) e1 e2 e3
    have hsame : ∀ u ∈ vs ++ [last], u.tt σ' = u.tt σ := fun u hu => by
      obtain ⟨-, -, -, -, hd⟩ := h u (by simp only [List.cons_append, List.mem_cons]; exact Or.inr hu)
      simp only [VObj.tt]
      congr 1
      refine List.map_congr_left fun c hc => ?_
      cases c with
      | tensor T => rfl
      | var a =>
        have ha : a ∉ as := fun ha => hd a ha hc
        simp only [VCore.value, List.getD_eq_getElem?_getD, f5 a ha]
    obtain ⟨σ'', g1, g2, g3, g4⟩ := ih σ' ⟨hv.cores, hv.nodup, fun a ha => by rw [f4]; exact hv.inStore a ha⟩ (by rw [f1]; exact w)
      (fun u hu => by
        rw [hsame u hu]
        exact h u (by simp only [List.cons_append, List.mem_cons]; exact Or.inr hu))
      (fun u hu => hsep u (by simp only [List.cons_append, List.mem_cons]; exact Or.inr hu))
    refine ⟨σ'', ?_, by rw [g2, hsame last (by simp)], by omega, fun a ha => by rw [g4 a ha, f5 a ha]⟩
    simp only [List.cons_append, assignAll, e, g1]

/-- `Separate` is needed: assigning the object with the two variables swapped gives both of them the second value. -/
theorem C48_swap (A B : Tensor K) (n : ℕ) (hA : A.shape = [1, n, 1]) (hB : B.shape = [1, n, 1]) :
    (assign [A, B] ⟨[.var 0, .var 1], [[n, n]], [1, 1, 1], none⟩ ⟨[.var 1, .var 0], [[n, n]], [1, 1, 1], none⟩).1 = [B, B] := by
  have h0 : assignLoop ⟨[.var 0, .var 1], [[n, n]], [1, 1, 1], none⟩ ⟨[.var 1, .var 0], [[n, n]], [1, 1, 1], none⟩ [A, B] 1 = ([B, B], Except.ok ()) := by
    simp [assignLoop, assignStep, pyGet, assignCore, VCore.value, hA, hB]
  have h1 : assignLoop ⟨[.var 0, .var 1], [[n, n]], [1, 1, 1], none⟩ ⟨[.var 1, .var 0], [[n, n]], [1, 1, 1], none⟩ [A, B] 2 = ([B, B], Except.ok ()) := by
    rw [assignLoop, h0]
    simp [assignStep, pyGet, assignCore, VCore.value]
  rw [assign]
  simp only [List.length_cons, List.length_nil, Nat.zero_add, Nat.reduceAdd, h1]

/-- A value with more cores can be accepted silently; the result then has fewer cores than its shape says. -/
theorem C48_more_cores (A B C : Tensor K) (hA : A.shape = [1, 2, 1]) (hB : B.shape = [1, 2, 1]) (hC : C.shape = [1, 3, 1]) :
    let ref : VObj K := ⟨[.var 0], [[2]], [1, 1], none⟩
    let value : VObj K := ⟨[.tensor B, .tensor C], [[2, 3]], [1, 1, 1], none⟩
    (ref.tt [A]).WF ∧ (value.tt [A]).WF ∧
      ∃ r, assign [A] ref value = ([B], Except.ok r) ∧ r.cores.length = 1 ∧ r.rawShape = [[2, 3]] ∧ ¬ (r.tt [B]).WF := by
  have hwf : (⟨[B, C], [[2, 3]], [1, 1, 1], none⟩ : TT K).WF := by
    refine ⟨by simp [TT.ndims], rfl, rfl, rfl, fun k hk => ?_, Or.inl rfl, by simp [TT.ndims], fun k hk => ?_, by simp⟩
    · have : k ≤ 2 := hk
      interval_cases k <;> simp [TT.rank]
    · have : k < 2 := hk
      interval_cases k <;> simp [TT.core, TT.bpre, TT.rank, TT.modes, hB, hC]
  have hwf1 : (⟨[A], [[2]], [1, 1], none⟩ : TT K).WF := by
    refine ⟨by simp [TT.ndims], rfl, rfl, rfl, fun k hk => ?_, Or.inl rfl, by simp [TT.ndims], fun k hk => ?_, by simp⟩
    · have : k ≤ 1 := hk
      interval_cases k <;> simp [TT.rank]
    · have : k < 1 := hk
      interval_cases k
      simp [TT.core, TT.bpre, TT.rank, TT.modes, hA]
  refine ⟨hwf1, hwf, ⟨[.var 0], [[2, 3]], [1, 1, 1], none⟩, ?_, rfl, rfl, fun h => ?_⟩
  · have hloop : assignLoop ⟨[.var 0], [[2]], [1, 1], none⟩ ⟨[.tensor B, .tensor C], [[2, 3]], [1, 1, 1], none⟩ [A] 1 = ([B], Except.ok ()) := by
      simp [assignLoop, assignStep, pyGet, assignCore, VCore.value, hA, hB]
    rw [assign]
    simp only [List.length_cons, List.length_nil, Nat.zero_add, hloop]
    congr 1
    simp only [mkVObj, mkLike, List.map_cons, List.map_nil, VCore.value, List.getD_cons_zero]
    have h1 : cleanRawShape (.shapes [[2, 3]]) = Except.ok (some [[2, 3]]) := by rfl
    have h2 : coresValid 0 none [[1, 2, 1]] (some [[2, 3]]) (some [1, 1, 1]) = Except.ok true := by decide
    rw [mkTT, h1, R.ok_bind]
    simp only [List.map_cons, List.map_nil, hB]
    rw [h2]
    rfl
  · have := h.ranks_len
    simp [VObj.tt, TT.ndims] at this

/-! ## A case -/

/-- A variable with the cores of `exTensor3`, at the addresses 1, 2, 3. -/
def exStore : Store ℤ := .ofList [2] [7, 8] :: exTensor3.cores
def exVariable : VObj ℤ := ⟨[.var 1, .var 2, .var 3], [[2, 2, 3]], [1, 2, 2, 1], none⟩

/-- Another value, whose second core is the same variable. -/
def exNewValue : VObj ℤ := ⟨[.tensor (.ofList [1, 2, 2] [0, 1, 1, 5]), .var 2, .tensor (.ofList [2, 3, 1] [1, 2, 3, 4, 5, 6])], [[2, 2, 3]], [1, 2, 2, 1], none⟩

/-- Other ranks: the first core fits, the second does not. -/
def exOtherRanks : VObj ℤ := ⟨[.tensor (.ofList [1, 2, 2] [0, 1, 1, 5]), .tensor (.ofList [2, 2, 1] [0, 1, 1, 5]), .tensor (.ofList [1, 3, 1] [1, 2, 3])],
  [[2, 2, 3]], [1, 2, 1, 1], none⟩

theorem exVariable_isVariable : exVariable.IsVariable exStore [1, 2, 3] := ⟨rfl, by decide, by decide⟩

theorem exNewValue_separate : exNewValue.Separate [1, 2, 3] := by
  intro i j a h1 h2
  have hi : i < 3 := (List.getElem?_eq_some_iff.1 h1).1
  interval_cases i <;> simp [exNewValue] at h1
  subst h1
  have hj : j < 3 := (List.getElem?_eq_some_iff.1 h2).1
  interval_cases j <;> simp at h2 ⊢

theorem exOtherRanks_separate : exOtherRanks.Separate [1, 2, 3] := by
  intro i j a h1 h2
  have hi : i < 3 := (List.getElem?_eq_some_iff.1 h1).1
  interval_cases i <;> simp [exOtherRanks] at h1

example : (exVariable.tt exStore).WF ∧ (exNewValue.tt exStore).WF ∧ exVariable.IsVariable exStore [1, 2, 3] ∧ exNewValue.Separate [1, 2, 3] :=
  ⟨by decide, by decide, exVariable_isVariable, exNewValue_separate⟩

example : ∃ σ' r, assign exStore exVariable exNewValue = (σ', Except.ok r) ∧ exVariable.tt σ' = exNewValue.tt exStore :=
  let ⟨σ', r, h1, h2, _⟩ := C48_assign exStore exVariable exNewValue [1, 2, 3] exVariable_isVariable (by decide) (by decide) exNewValue_separate rfl rfl rfl
  ⟨σ', r, h1, h2⟩

example : (assign exStore exVariable exOtherRanks).2 = Except.error Err.value ∨ (assign exStore exVariable exOtherRanks).2 = Except.error Err.index := by
  obtain ⟨σ', n, -, -, h, -⟩ := C48_assign_error exStore exVariable exOtherRanks [1, 2, 3] exVariable_isVariable (by decide) (by decide) exOtherRanks_separate rfl
    (by decide) (by decide) (by decide)
  rw [h]
  split_ifs
  · exact Or.inl rfl
  · exact Or.inr rfl

/-- The value `exTensor3` with constant cores. -/
def exConstant : VObj ℤ := ⟨exTensor3.cores.map .tensor, [[2, 2, 3]], [1, 2, 2, 1], none⟩

example : ∃ σ', assignAll exVariable exStore ([exConstant, exConstant] ++ [exConstant]) = (σ', Except.ok ()) ∧ exVariable.tt σ' = exTensor3 := by
  have key : (exConstant.tt exStore).WF ∧ exConstant.batch = exVariable.batch ∧ exConstant.rawShape = exVariable.rawShape ∧ exConstant.ttRanks = exVariable.ttRanks ∧
      ∀ a ∈ [1, 2, 3], VCore.var a ∉ exConstant.cores := ⟨by decide, rfl, rfl, rfl, fun a _ => by simp [exConstant, exTensor3]⟩
  obtain ⟨σ', h1, h2, -⟩ := C48_sequence exStore exVariable [1, 2, 3] exVariable_isVariable (by decide) [exConstant, exConstant] exConstant (fun v hv => by
    obtain rfl : v = exConstant := by simpa using hv
    exact key)
  exact ⟨σ', h1, h2⟩

example : (exVariable.tt exStore).WF ∧ ∃ σ' v, getVariable exStore (some exVariable) none = (σ', Except.ok v) ∧ v.tt σ' = exTensor3 :=
  ⟨by decide, let ⟨σ', v, h1, h2, _⟩ := C48_get_variable exStore exVariable (by decide); ⟨σ', v, h1, h2⟩⟩

end T3f
