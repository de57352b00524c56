import Verif.Proofs.Describes
import Verif.Proofs.AutodiffError
import Verif.Proofs.RoundLast
import Verif.Spec.Described

/-! # What the constructors return -/

namespace T3f

variable {K : Type} [Zero K]

theorem TT.Described.ofWF {t : TT K} (h : t.WF) : t.Described :=
  ⟨h.pos, h.rank_first, h.rank_last, h.rows, h.ranks_len, h.rows_len, h.core_shape⟩

/-- The call returns only values with the property. -/
def Post {α : Type} (P : α → Prop) (x : R α) : Prop := ∀ v, x = Except.ok v → P v

theorem Decides.elim {x : R Bool} {p : Prop} (h : Decides x p) (hx : x = Except.ok true) : p := by
  by_contra hp
  rw [h.2 hp] at hx
  cases hx

/-- Accepted cores whose first one has the number of axes that the arguments say. -/
theorem coresValid_described {o : ℕ} {bs bs' : Option ℕ} {cores : List (Tensor K)} {sh : Option (List (List ℕ))} {rk : Option (List ℕ)}
    (hv : coresValid o bs' (cores.map (·.shape)) sh rk = Except.ok true) (hbs : bs.toList.length = o)
    (hb : ∀ n ∈ bs, (∀ m ∈ bs', m = n) ∧ (bs' = none → ∀ k < cores.length, (cores.getD k default).shape.getD 0 0 = n))
    (h0 : (cores.getD 0 default).shape.length = 3 + o ∨ (cores.getD 0 default).shape.length = 4 + o)
    (hsh : ∀ rows ∈ sh, (cores.getD 0 default).shape.length = rows.length + 2 + o ∧ ∀ row ∈ rows, row.length = cores.length)
    (hrk : ∀ r ∈ rk, r.length = cores.length + 1) :
    (⟨cores, sh.getD (inferRawShape o (cores.map (·.shape))), rk.getD (inferTTRanks o (cores.map (·.shape))), bs⟩ : TT K).Described := by
  have hne : cores ≠ [] := by
    rintro rfl
    simp [coresValid, allRange, andR, eqR, pyGet] at hv
  have hpos : 0 < cores.length := List.length_pos_iff.2 hne
  have hs : ∀ k < cores.length, (cores.map (·.shape)).getD k [] = (cores.getD k default).shape := fun k hk => by
    rw [List.getD_eq_getElem _ _ (by simpa using hk), List.getElem_map, List.getD_eq_getElem _ _ hk]
  have hs0 := hs 0 hpos
  obtain ⟨hc, hb', hr', hk'⟩ := (coresValid_decides (o := o) (bs := bs') (shapes := cores.map (·.shape)) (rows := sh) (rk := rk) (by simpa using hne)
    (by rw [hs0]; omega) (fun rw' hrw => ⟨by rw [hs0, (hsh rw' hrw).1]; omega, fun j hj => by
      rw [List.getD_eq_getElem _ _ hj, (hsh rw' hrw).2 _ (List.getElem_mem _), List.length_map]⟩)
    (fun r hr => by rw [hrk r hr]; simp)).elim hv
  have hbb : ∀ n ∈ bs, ∀ i < cores.length, ((cores.map (·.shape)).getD i []).getD 0 0 = n := by
    intro n hn i hi
    cases hb1 : bs' with
    | none => rw [hs i hi]; exact (hb n hn).2 hb1 i hi
    | some m => rw [hb' m hb1 i (by simpa using hi)]; exact (hb n hn).1 m hb1
  have hd0 := infer_describes (bs := bs) hne hbs (by rw [hs0]; omega) hc hbb
  have hhead : (cores.map (·.shape)).headD [] = (cores.map (·.shape)).getD 0 [] := by
    cases cores <;> rfl
  have hlen : (inferRawShape o (cores.map (·.shape))).length = (cores.getD 0 default).shape.length - (2 + o) := by
    rw [inferRawShape, List.length_map, List.length_range, hhead, hs0]
  have hl0 : ((cores.map (·.shape)).getD 0 []).length = (inferRawShape o (cores.map (·.shape))).length + 2 + o := by rw [hlen, hs0]; omega
  obtain ⟨-, -, i2, i3⟩ := (describes_iff hne hbs hl0 hd0.rows_len hd0.ranks_len).2 ⟨hc, hd0⟩
  have hfl : ((cores.map (·.shape)).getD 0 []).length = (sh.getD (inferRawShape o (cores.map (·.shape)))).length + 2 + o := by
    cases sh with
    | none => exact hl0
    | some rows => rw [hs0]; exact (hsh rows rfl).1
  have hd : (⟨cores, sh.getD (inferRawShape o (cores.map (·.shape))), rk.getD (inferTTRanks o (cores.map (·.shape))), bs⟩ : TT K).Describes := by
    refine ((describes_iff hne hbs hfl ?_ ?_).1 ⟨hc, fun n hn i hi => hbb n hn i (by simpa using hi), ?_, ?_⟩).2
    · cases sh with
      | none => exact hd0.rows_len
      | some rows => exact (hsh rows rfl).2
    · cases rk with
      | none => exact hd0.ranks_len
      | some r => exact hrk r rfl
    · cases sh with
      | none => exact i2
      | some rows => exact hr'
    · cases rk with
      | none => exact i3
      | some rows => exact hk'
  obtain ⟨r0, rd⟩ := describes_rank hd hpos hbs hc
  refine ⟨hpos, r0, rd, ?_, hd⟩
  change (sh.getD (inferRawShape o (cores.map (·.shape)))).length = 1 ∨ (sh.getD (inferRawShape o (cores.map (·.shape)))).length = 2
  rw [hs0] at hfl
  omega

/-- `TensorTrain(cores, rows, ranks)`. -/
theorem mkTT_described {cores : List (Tensor K)} {rows : List (List ℕ)} {rk : Option (List ℕ)} (hr : rows.length = 1 ∨ rows.length = 2)
    (hrow : ∀ row ∈ rows, row.length = cores.length) (hrk : ∀ r ∈ rk, r.length = cores.length + 1)
    (h0 : (cores.getD 0 default).shape.length = rows.length + 2) :
    Post (fun t => t.Described ∧ t.cores = cores ∧ t.rawShape = rows ∧ t.batch = none) (mkTT cores (.shapes rows) rk) := by
  intro t h
  have hcl : cleanRawShape (.shapes rows) = Except.ok (some rows) := by cases rows <;> [simp at hr; rfl]
  simp only [mkTT, hcl, R.ok_bind, bind_ok_iff] at h
  obtain ⟨b, hb, h⟩ := h
  cases b with
  | false => cases h
  | true =>
    cases h
    exact ⟨coresValid_described (bs := none) hb rfl nofun (by omega) (fun _ h => by cases h; exact ⟨h0, hrow⟩) hrk, rfl, rfl, rfl⟩

/-- `TensorTrain(cores)`. -/
theorem mkTT_omitted_described {cores : List (Tensor K)} {rk : Option (List ℕ)} (hrk : ∀ r ∈ rk, r.length = cores.length + 1)
    (h0 : (cores.getD 0 default).shape.length = 3 ∨ (cores.getD 0 default).shape.length = 4) :
    Post (fun t => t.Described ∧ t.cores = cores ∧ t.batch = none) (mkTT cores .omitted rk) := by
  intro t h
  simp only [mkTT, cleanRawShape, R.ok_bind, bind_ok_iff] at h
  obtain ⟨b, hb, h⟩ := h
  cases b with
  | false => cases h
  | true =>
    cases h
    exact ⟨coresValid_described (bs := none) hb rfl nofun (by omega) nofun hrk, rfl, rfl⟩

/-- `TensorTrainBatch(cores, rows, ranks, batch_size)`. -/
theorem mkBatch_described {cores : List (Tensor K)} {rows : List (List ℕ)} {rk : Option (List ℕ)} {n : ℕ} {bs : Option ℕ}
    (hr : rows.length = 1 ∨ rows.length = 2)
    (hrow : ∀ row ∈ rows, row.length = cores.length) (hrk : ∀ r ∈ rk, r.length = cores.length + 1)
    (h0 : (cores.getD 0 default).shape.length = rows.length + 3) (hn : bs = some n ∨ bs = none ∧ ∀ k < cores.length, (cores.getD k default).shape.getD 0 0 = n) :
    Post (fun t => t.Described ∧ t.cores = cores ∧ t.rawShape = rows ∧ t.batch = some n) (mkBatch cores (.shapes rows) rk bs) := by
  intro t h
  have hcl : cleanRawShape (.shapes rows) = Except.ok (some rows) := by cases rows <;> [simp at hr; rfl]
  simp only [mkBatch, hcl, R.ok_bind, bind_ok_iff] at h
  obtain ⟨b, hb, h⟩ := h
  cases b with
  | false => cases h
  | true =>
    have hne : 0 < cores.length := by
      rcases cores with _ | ⟨a, l⟩
      · simp [coresValid, allRange, andR, eqR, pyGet] at hb
      · simp
    have e : bs.getD (((cores.map (·.shape)).headD []).headD 0) = n := by
      rcases hn with rfl | ⟨rfl, hn⟩
      · rfl
      · rw [← hn 0 hne]
        rcases cores with _ | ⟨a, l⟩
        · simp at hne
        · rw [Option.getD_none, List.map_cons, List.headD_cons, List.getD_cons_zero]; cases a.shape <;> rfl
    simp only [e] at h
    cases h
    refine ⟨coresValid_described (bs := some n) hb rfl ?_ (by omega) (fun _ h => by cases h; exact ⟨h0, hrow⟩) hrk, rfl, rfl, rfl⟩
    rintro m hm
    cases hm
    refine ⟨?_, ?_⟩
    · rintro m hm
      rcases hn with rfl | ⟨rfl, -⟩ <;> cases hm
      rfl
    · rintro rfl
      rcases hn with hn | ⟨-, hn⟩
      · cases hn
      · exact hn

/-- `TensorTrainBatch(cores)`. -/
theorem mkBatch_omitted_described {cores : List (Tensor K)} {rk : Option (List ℕ)} {n : ℕ} {bs : Option ℕ} (hrk : ∀ r ∈ rk, r.length = cores.length + 1)
    (h0 : (cores.getD 0 default).shape.length = 4 ∨ (cores.getD 0 default).shape.length = 5)
    (hn : bs = some n ∨ bs = none ∧ ∀ k < cores.length, (cores.getD k default).shape.getD 0 0 = n) :
    Post (fun t => t.Described ∧ t.cores = cores ∧ t.batch = some n) (mkBatch cores .omitted rk bs) := by
  intro t h
  simp only [mkBatch, cleanRawShape, R.ok_bind, bind_ok_iff] at h
  obtain ⟨b, hb, h⟩ := h
  cases b with
  | false => cases h
  | true =>
    have hne : 0 < cores.length := by
      rcases cores with _ | ⟨a, l⟩
      · simp [coresValid, allRange, andR, eqR, pyGet] at hb
      · simp
    have e : bs.getD (((cores.map (·.shape)).headD []).headD 0) = n := by
      rcases hn with rfl | ⟨rfl, hn⟩
      · rfl
      · rw [← hn 0 hne]
        rcases cores with _ | ⟨a, l⟩
        · simp at hne
        · rw [Option.getD_none, List.map_cons, List.headD_cons, List.getD_cons_zero]; cases a.shape <;> rfl
    simp only [e] at h
    cases h
    refine ⟨coresValid_described (bs := some n) hb rfl ?_ (by omega) nofun hrk, rfl, rfl⟩
    rintro m hm
    cases hm
    refine ⟨?_, ?_⟩
    · rintro m hm
      rcases hn with rfl | ⟨rfl, -⟩ <;> cases hm
      rfl
    · rintro rfl
      rcases hn with hn | ⟨-, hn⟩
      · cases hn
      · exact hn

/-- The call that ends most functions. -/
theorem mkLike_described {bs : Option ℕ} {cores : List (Tensor K)} {rows : List (List ℕ)} {rk : List ℕ} (hr : rows.length = 1 ∨ rows.length = 2)
    (hrow : ∀ row ∈ rows, row.length = cores.length) (hrk : rk.length = cores.length + 1)
    (h0 : (cores.getD 0 default).shape.length = bs.toList.length + rows.length + 2) :
    Post (fun t => t.Described ∧ t.cores = cores ∧ t.rawShape = rows ∧ t.batch = bs) (mkLike bs cores rows rk) := by
  cases bs with
  | none => exact mkTT_described hr hrow (fun _ h => by cases h; exact hrk) (by simpa using h0)
  | some n => exact mkBatch_described hr hrow (fun _ h => by cases h; exact hrk) (by rw [h0, Option.toList_some, List.length_singleton]; omega) (Or.inl rfl)

end T3f
