import Verif.Spec.Variables
import Verif.Proofs.Constructor
import Verif.Proofs.BatchOps

/-! # Proofs about variables -/

namespace T3f

variable {K : Type} [Zero K] {σ : Store K} {ref value : VObj K} {as : List ℕ}

theorem getD_set (σ : Store K) (a b : ℕ) (T : Tensor K) (ha : a < σ.length) :
    (σ.set a T).getD b default = if b = a then T else σ.getD b default := by
  simp only [List.getD_eq_getElem?_getD, List.getElem?_set]
  split_ifs with h1
  · rfl
  · omega
  · omega
  · rfl

/-- The constructor accepts the attributes of a well-formed object. -/
theorem mkLike_self {t : TT K} (h : t.WF) : mkLike t.batch t.cores t.rawShape t.ttRanks = Except.ok t := by
  have := mkLike_ok h.chain t.rawShape h.rows_eq t.ttRanks h.ranks_eq
  rw [this, chainTT]
  congr 1
  have h1 := h.rows_eq
  have h2 := h.ranks_eq
  cases t
  simp only [TT.ndims] at *
  simp only [← h1, ← h2]

theorem mkVObj_ok {t : TT K} (h : t.WF) {cores : List (VCore K)} (hc : cores.map (·.value σ) = t.cores) :
    mkVObj σ t.batch cores t.rawShape t.ttRanks = Except.ok ⟨cores, t.rawShape, t.ttRanks, t.batch⟩ := by
  rw [mkVObj, hc, mkLike_self h]; rfl

/-- The values of the cores of `ref`. -/
theorem VObj.IsVariable.core (hv : ref.IsVariable σ as) (σ' : Store K) {i : ℕ} (hi : i < as.length) :
    (ref.tt σ').core i = σ'.getD (as.getD i 0) default := by
  rw [TT.core, VObj.tt, hv.cores, List.map_map, List.getD_eq_getElem _ _ (by simpa using hi), List.getElem_map, List.getD_eq_getElem as _ hi]
  rfl

omit [Zero K] in
theorem VObj.IsVariable.len (hv : ref.IsVariable σ as) : ref.cores.length = as.length := by rw [hv.cores, List.length_map]

omit [Zero K] in
theorem VObj.IsVariable.lt (hv : ref.IsVariable σ as) {i : ℕ} (hi : i < as.length) : as.getD i 0 < σ.length :=
  hv.inStore _ (by rw [List.getD_eq_getElem _ _ hi]; exact List.getElem_mem hi)

omit [Zero K] in
theorem VObj.IsVariable.inj (hv : ref.IsVariable σ as) {i j : ℕ} (hi : i < as.length) (hj : j < as.length) (h : as.getD i 0 = as.getD j 0) : i = j := by
  rw [List.getD_eq_getElem _ _ hi, List.getD_eq_getElem _ _ hj] at h
  exact (List.Nodup.getElem_inj_iff hv.nodup).1 h

theorem VObj.tt_core {o : VObj K} {i : ℕ} (hi : i < o.cores.length) : (o.tt σ).core i = o.cores[i].value σ := by
  rw [TT.core, VObj.tt, List.getD_eq_getElem _ _ (by simpa using hi), List.getElem_map]

/-- Objects are the same when their attributes and the values of their cores are. -/
theorem VObj.tt_congr {o p : VObj K} {σ σ' : Store K} (h1 : o.rawShape = p.rawShape) (h2 : o.ttRanks = p.ttRanks) (h3 : o.batch = p.batch)
    (hl : o.cores.length = p.cores.length) (h : ∀ i < o.cores.length, (o.tt σ).core i = (p.tt σ').core i) : o.tt σ = p.tt σ' := by
  have : (o.tt σ).cores = (p.tt σ').cores := by
    apply List.ext_getElem
    · simpa [VObj.tt] using hl
    · intro i hi hi'
      have := h i (by simpa [VObj.tt] using hi)
      rwa [TT.core, TT.core, List.getD_eq_getElem _ _ hi, List.getD_eq_getElem _ _ hi'] at this
  simp only [VObj.tt] at this ⊢
  rw [this, h1, h2, h3]

/-- One assignment, after those to the first `n` cores. -/
theorem assignStep_eq (hv : ref.IsVariable σ as) (hs : value.Separate as) {n : ℕ} (hn : n < as.length) {σ' : Store K}
    (h2 : ∀ a, (∀ i < n, as.getD i 0 ≠ a) → σ'.getD a default = σ.getD a default) :
    assignStep ref value σ' n = if n < value.cores.length then
      if ((value.tt σ).core n).shape = ((ref.tt σ).core n).shape then Except.ok (σ'.set (as.getD n 0) ((value.tt σ).core n)) else Except.error Err.value
    else Except.error Err.index := by
  have hrc : pyGet ref.cores n = Except.ok (.var (as.getD n 0)) := by
    rw [hv.cores, pyGet_of_lt _ n (.var 0) (by simpa using hn), List.getD_eq_getElem _ _ (by simpa using hn), List.getElem_map,
      List.getD_eq_getElem _ _ hn]
  have hrs : (ref.tt σ).core n = σ'.getD (as.getD n 0) default := by
    rw [h2 _ fun i hi he => absurd (hv.inj (by omega) hn he) (by omega), hv.core σ hn]
  rw [assignStep, hrc, R.ok_bind]
  split_ifs with hnv hsh
  all_goals first
    | (have hvc : pyGet value.cores n = Except.ok value.cores[n] := by
        rw [pyGet_of_lt _ n (.var 0) hnv, List.getD_eq_getElem _ _ hnv]
       have hval : value.cores[n].value σ' = (value.tt σ).core n := by
        rw [VObj.tt_core hnv]
        cases hc : value.cores[n] with
        | tensor T => rfl
        | var a =>
          refine h2 a fun i hi he => ?_
          have := hs n i a (by rw [List.getElem?_eq_getElem hnv, hc]) (by
            rw [List.getElem?_eq_getElem (by omega), ← he, List.getD_eq_getElem _ _ (by omega)])
          omega
       rw [hvc, R.ok_bind, assignCore, hval, ← hrs])
    | skip
  · rw [if_pos hsh]; rfl
  · rw [if_neg hsh]; rfl
  · have : pyGet value.cores n = Except.error Err.index := by
      unfold pyGet
      rw [List.getElem?_eq_none (by omega)]
    rw [this]; rfl

/-- The store after `n` iterations, if the shapes agree. -/
theorem assignLoop_ok (hv : ref.IsVariable σ as) (hs : value.Separate as) {n : ℕ} (hn : n ≤ as.length) (hn' : n ≤ value.cores.length)
    (hsh : ∀ i < n, ((value.tt σ).core i).shape = ((ref.tt σ).core i).shape) :
    ∃ σ', assignLoop ref value σ n = (σ', Except.ok ()) ∧ σ'.length = σ.length ∧
      (∀ i < n, σ'.getD (as.getD i 0) default = (value.tt σ).core i) ∧
      ∀ a, (∀ i < n, as.getD i 0 ≠ a) → σ'.getD a default = σ.getD a default := by
  induction n with
  | zero => exact ⟨σ, rfl, rfl, fun i hi => absurd hi (by omega), fun a _ => rfl⟩
  | succ n ih =>
    obtain ⟨σ', e, hl, h1, h2⟩ := ih (by omega) (by omega) fun i hi => hsh i (by omega)
    have hna : n < as.length := by omega
    have ha := hv.lt hna
    refine ⟨σ'.set (as.getD n 0) ((value.tt σ).core n), ?_, by simp [hl], fun i hi => ?_, fun a hne => ?_⟩
    · have hstep := assignStep_eq hv hs hna h2
      rw [if_pos (by omega), if_pos (hsh n (by omega))] at hstep
      rw [assignLoop, e]
      simp only [hstep]
    · rw [getD_set _ _ _ _ (by omega)]
      rcases Nat.lt_succ_iff_lt_or_eq.1 hi with h | rfl
      · rw [if_neg fun he => absurd (hv.inj (by omega) hna he) (by omega), h1 i h]
      · rw [if_pos rfl]
    · rw [getD_set _ _ _ _ (by omega), if_neg (hne n (by omega)).symm]
      exact h2 a fun i hi => hne i (by omega)

/-- An exception ends the loop. -/
theorem assignLoop_error {n : ℕ} {σ' : Store K} {e : Err} (h : assignLoop ref value σ n = (σ', Except.error e)) (m : ℕ) :
    assignLoop ref value σ (n + m) = (σ', Except.error e) := by
  induction m with
  | zero => exact h
  | succ m ih => rw [← Nat.add_assoc, assignLoop, ih]

/-- The shapes of the cores determine the attributes, for objects of the same kind. -/
theorem attrs_of_shapes {a b : TT K} (ha : a.WF) (hb : b.WF) (hn : a.ndims = b.ndims) (hbatch : a.batch.isSome = b.batch.isSome) (hmat : a.isMatrix ↔ b.isMatrix)
    (h : ∀ i < a.ndims, (a.core i).shape = (b.core i).shape) : a.batch = b.batch ∧ a.rawShape = b.rawShape ∧ a.ttRanks = b.ttRanks := by
  have hlen : a.rawShape.length = b.rawShape.length := by
    have h1 := ha.rows
    have h2 := hb.rows
    simp only [TT.isMatrix] at hmat
    omega
  have hpre : a.bpre.length = b.bpre.length := by
    unfold TT.bpre
    cases h1 : a.batch <;> cases h2 : b.batch <;> simp [h1, h2] at hbatch ⊢
  have key : ∀ k < a.ndims, a.bpre = b.bpre ∧ a.rank k = b.rank k ∧ a.modes k = b.modes k ∧ a.rank (k + 1) = b.rank (k + 1) := by
    intro k hk
    have e := h k hk
    rw [ha.core_shape k hk, hb.core_shape k (hn ▸ hk)] at e
    obtain ⟨e1, e2⟩ := List.append_inj e hpre
    obtain ⟨e3, e4⟩ := List.cons.inj e2
    obtain ⟨e5, e6⟩ := List.append_inj e4 (by simp [TT.modes, hlen])
    exact ⟨e1, e3, e5, by simpa using e6⟩
  refine ⟨?_, ?_, ?_⟩
  · have := (key 0 ha.pos).1
    unfold TT.bpre at this
    cases h1 : a.batch <;> cases h2 : b.batch <;> simp [h1, h2] at this ⊢
    exact this
  · rw [ha.rows_eq, hb.rows_eq, hlen, hn]
    unfold rowsOf
    refine List.map_congr_left fun j _ => List.map_congr_left fun k hk => ?_
    rw [(key k (by rw [hn]; exact List.mem_range.1 hk)).2.2.1]
  · rw [ha.ranks_eq, hb.ranks_eq, hn]
    unfold ranksOf
    refine List.map_congr_left fun k hk => ?_
    have hk' := List.mem_range.1 hk
    rcases Nat.lt_or_ge k a.ndims with h1 | h1
    · exact (key k h1).2.1
    · have : k = a.ndims := by omega
      rw [this, ha.rank_last, hn, hb.rank_last]

end T3f
