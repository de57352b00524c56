import Verif.Proofs.Valid

/-! # The metadata of accepted objects -/

namespace T3f

variable {K : Type} [Zero K]

theorem shape_split0 (s : List ℕ) (nm : ℕ) (h : s.length = nm + 2) :
    s = s.getD 0 0 :: ((List.range nm).map (fun j => s.getD (j + 1) 0) ++ [s.getLastD 0]) := by
  obtain ⟨a, s', rfl⟩ : ∃ a s', s = a :: s' := by cases s with
    | nil => simp at h
    | cons a s' => exact ⟨a, s', rfl⟩
  have hl : s'.length = nm + 1 := by simpa using h
  rcases List.eq_nil_or_concat s' with rfl | ⟨i, b, rfl⟩
  · simp at hl
  · have hi : i.length = nm := by simpa using hl
    subst hi
    have e : (a :: i.concat b).getLastD 0 = b := by
      rw [List.concat_eq_append]
      exact List.getLastD_concat (b := b) (a := 0) (l := a :: i)
    rw [e]
    simp only [List.getD_cons_zero, List.getD_cons_succ, List.concat_eq_append, List.cons.injEq, true_and]
    congr 1
    conv_lhs => rw [list_eq_range_map i 0]
    refine List.map_congr_left fun j hj => ?_
    rw [List.getD_append _ _ _ _ (by simpa using hj)]

theorem shape_split (o : ℕ) (ho : o ≤ 1) (s : List ℕ) (nm : ℕ) (h : s.length = nm + 2 + o) :
    s = s.take o ++ s.getD o 0 :: ((List.range nm).map (fun j => s.getD (j + 1 + o) 0) ++ [s.getLastD 0]) := by
  have : o = 0 ∨ o = 1 := by omega
  rcases this with rfl | rfl
  · simpa using shape_split0 s nm h
  · obtain ⟨a, s', rfl⟩ : ∃ a s', s = a :: s' := by cases s with
      | nil => simp at h
      | cons a s' => exact ⟨a, s', rfl⟩
    have := shape_split0 s' nm (by simpa using h)
    have e : (a :: s').getLastD 0 = s'.getLastD 0 := by
      cases s' with
      | nil => simp at h
      | cons b l => simp
    rw [e]
    simpa using this

/-- Metadata that agrees with consistent cores describes them, and conversely. -/
theorem describes_iff {o : ℕ} {cores : List (Tensor K)} {rows : List (List ℕ)} {rk : List ℕ} {bs : Option ℕ}
    (hne : cores ≠ []) (hbs : bs.toList.length = o)
    (hnm : ((cores.map (·.shape)).getD 0 []).length = rows.length + 2 + o)
    (hrl : ∀ row ∈ rows, row.length = cores.length) (hrk : rk.length = cores.length + 1) :
    (Consistent o (cores.map (·.shape)) ∧
      (∀ n ∈ bs, ∀ i < (cores.map (·.shape)).length, ((cores.map (·.shape)).getD i []).getD 0 0 = n) ∧
      (∀ rw ∈ some rows, ∀ j < rw.length, ∀ i < (cores.map (·.shape)).length,
        ((cores.map (·.shape)).getD i []).getD (j + 1 + o) 0 = (rw.getD j []).getD i 0) ∧
      (∀ r ∈ some rk, (∀ i < (cores.map (·.shape)).length, ((cores.map (·.shape)).getD i []).getD o 0 = r.getD i 0) ∧
        ((cores.map (·.shape)).getD ((cores.map (·.shape)).length - 1) []).getLastD 0 =
          r.getD (cores.map (·.shape)).length 0)) ↔
    Consistent o (cores.map (·.shape)) ∧ (⟨cores, rows, rk, bs⟩ : TT K).Describes := by
  have hpos := List.length_pos_iff.2 hne
  have ho : o ≤ 1 := by cases bs <;> simp at hbs <;> omega
  have hsh : ∀ k < cores.length, (cores.map (·.shape)).getD k [] = (cores.getD k default).shape := fun k hk => by
    rw [List.getD_eq_getElem _ _ (by simpa using hk), List.getElem_map, List.getD_eq_getElem _ _ hk]
  refine and_congr_right fun hc => ?_
  simp only [List.length_map, Option.mem_some_iff, forall_eq']
  constructor
  · rintro ⟨h1, h2, h3, h4⟩
    refine ⟨hrk, hrl, fun k hk => ?_⟩
    have hk' : k < cores.length := hk
    have hl := hc.same k (by simpa using hk')
    rw [hnm] at hl
    have e := shape_split o ho _ _ hl
    have hcore : (⟨cores, rows, rk, bs⟩ : TT K).core k = cores.getD k default := rfl
    rw [hcore, ← hsh k hk', e]
    congr 1
    · simp only [TT.bpre]
      cases bs with
      | none => simp at hbs; subst hbs; simp
      | some n =>
        simp at hbs; subst hbs
        have := h1 n rfl k hk'
        cases hq : (cores.map (·.shape)).getD k [] with
        | nil => rw [hq] at hl; simp at hl
        | cons a s => rw [hq] at this; simp at this; simp [this]
    · congr 1
      · simp only [TT.rank]; rw [← h3 k hk']
      congr 1
      · simp only [TT.modes]
        conv_rhs => rw [list_eq_range_map rows []]
        rw [List.map_map]
        refine List.map_congr_left fun j hj => ?_
        exact h2 j (by simpa using hj) k hk'
      · simp only [TT.rank]
        congr 1
        by_cases hlast : k + 1 < cores.length
        · rw [← h3 (k + 1) hlast]
          exact (hc.link k (by simpa using hlast)).symm
        · have : k + 1 = cores.length := by omega
          rw [this, ← h4, ← this]
          rfl
  · intro hd
    have hcs : ∀ k < cores.length, (cores.map (·.shape)).getD k [] = bs.toList ++ rk.getD k 0 ::
        (rows.map (·.getD k 0) ++ [rk.getD (k + 1) 0]) := fun k hk => by
      rw [hsh k hk]; exact hd.core_shape k hk
    refine ⟨fun n hn i hi => ?_, fun j hj i hi => ?_, fun i hi => ?_, ?_⟩
    · rw [hcs i hi]; cases hn; rfl
    · rw [hcs i hi, List.getD_append_right _ _ _ _ (by omega), hbs, show j + 1 + o - o = j + 1 by omega,
        List.getD_cons_succ, List.getD_append _ _ _ _ (by simpa using hj), List.getD_eq_getElem _ _ (by simpa using hj),
        List.getElem_map, List.getD_eq_getElem _ _ hj]
    · rw [hcs i hi, List.getD_append_right _ _ _ _ (by omega), hbs]
      simp
    · rw [hcs _ (by omega)]
      have : bs.toList ++ rk.getD (cores.length - 1) 0 :: (rows.map (·.getD (cores.length - 1) 0) ++
          [rk.getD (cores.length - 1 + 1) 0]) = (bs.toList ++ rk.getD (cores.length - 1) 0 ::
            rows.map (·.getD (cores.length - 1) 0)) ++ [rk.getD (cores.length - 1 + 1) 0] := by simp
      rw [this, List.getLastD_concat, show cores.length - 1 + 1 = cores.length by omega]

/-- The inferred metadata describes consistent cores. -/
theorem infer_describes {o : ℕ} {cores : List (Tensor K)} {bs : Option ℕ} (hne : cores ≠ [])
    (hbs : bs.toList.length = o) (h0 : 2 + o ≤ ((cores.map (·.shape)).getD 0 []).length)
    (hc : Consistent o (cores.map (·.shape)))
    (hb : ∀ n ∈ bs, ∀ i < cores.length, ((cores.map (·.shape)).getD i []).getD 0 0 = n) :
    (⟨cores, inferRawShape o (cores.map (·.shape)), inferTTRanks o (cores.map (·.shape)), bs⟩ : TT K).Describes := by
  have hpos := List.length_pos_iff.2 hne
  have hhead : (cores.map (·.shape)).headD [] = (cores.map (·.shape)).getD 0 [] := by
    cases cores <;> rfl
  have hlen : (inferRawShape o (cores.map (·.shape))).length = ((cores.map (·.shape)).getD 0 []).length - (2 + o) := by
    rw [inferRawShape, List.length_map, List.length_range, hhead]
  refine ((describes_iff hne hbs (by rw [hlen]; omega) ?_ (by simp [inferTTRanks])).1 ⟨hc, ?_, ?_, ?_⟩).2
  · intro row hrow
    simp only [inferRawShape, List.mem_map, List.mem_range] at hrow
    obtain ⟨j, _, rfl⟩ := hrow
    simp
  · intro n hn i hi
    exact hb n hn i (by simpa using hi)
  · intro rw' hrw j hj i hi
    cases hrw
    rw [hlen] at hj
    have hi' : i < cores.length := by simpa using hi
    simp only [inferRawShape, hhead]
    rw [getD_range_map _ _ _ _ hj, List.getD_eq_getElem (cores.map (·.shape)) _ hi]
    rw [List.getD_eq_getElem (List.map _ (cores.map (·.shape))) _ (by simpa using hi'), List.getElem_map,
      List.getElem_map, List.getElem_map]
  · intro r hr
    cases hr
    constructor
    · intro i hi
      have hi' : i < cores.length := by simpa using hi
      simp only [inferTTRanks]
      rw [List.getD_append _ _ _ _ (by simpa using hi'), List.getD_eq_getElem (cores.map (·.shape)) _ hi,
        List.getD_eq_getElem (List.map _ (cores.map (·.shape))) _ (by simpa using hi'), List.getElem_map,
      List.getElem_map, List.getElem_map]
    · simp only [inferTTRanks]
      rw [List.getD_append_right _ _ _ _ (by simp)]
      have : (cores.map (·.shape)).getLastD [] = (cores.map (·.shape)).getD ((cores.map (·.shape)).length - 1) [] := by
        rw [List.getLastD_eq_getLast?, List.getLast?_eq_getElem?, List.getElem?_eq_getElem (by simpa using hpos),
          List.getD_eq_getElem _ _ (by simpa using hpos)]
        rfl
      rw [this]
      simp

/-- A described object with one or two mode axes and positive sizes is well-formed. -/
theorem TT.Describes.wf {t : TT K} (h : t.Describes) (hpos : 0 < t.ndims) (hrows : t.rawShape.length = 1 ∨ t.rawShape.length = 2)
    (hf : t.rank 0 = 1) (hl : t.rank t.ndims = 1) (hp : ∀ k ≤ t.ndims, 0 < t.rank k) (hb : t.batch ≠ some 0) : t.WF :=
  ⟨hpos, h.ranks_len, hf, hl, hp, hrows, h.rows_len, h.core_shape, hb⟩

theorem describes_rank {t : TT K} {o : ℕ} (h : t.Describes) (hpos : 0 < t.ndims) (ho : t.bpre.length = o)
    (hc : Consistent o (t.cores.map (·.shape))) : t.rank 0 = 1 ∧ t.rank t.ndims = 1 := by
  have hsh : ∀ k < t.ndims, (t.cores.map (·.shape)).getD k [] = (t.core k).shape := fun k hk => by
    have hk' : k < t.cores.length := hk
    rw [List.getD_eq_getElem _ _ (by simpa using hk'), List.getElem_map, TT.core, List.getD_eq_getElem _ _ hk']
  have h1 := hc.first
  have h2 := hc.last
  rw [hsh 0 hpos, h.core_shape 0 hpos, List.getD_append_right _ _ _ _ (by omega), ho] at h1
  rw [List.length_map, show t.cores.length = t.ndims from rfl, hsh _ (by omega), h.core_shape _ (by omega)] at h2
  have : t.bpre ++ t.rank (t.ndims - 1) :: (t.modes (t.ndims - 1) ++ [t.rank (t.ndims - 1 + 1)]) =
    (t.bpre ++ t.rank (t.ndims - 1) :: t.modes (t.ndims - 1)) ++ [t.rank (t.ndims - 1 + 1)] := by simp
  rw [this, List.getLastD_concat, show t.ndims - 1 + 1 = t.ndims by omega] at h2
  exact ⟨by simpa using h1, h2⟩

end T3f
