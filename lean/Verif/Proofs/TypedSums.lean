import Verif.Proofs.TypedApprox
import Verif.Proofs.TypedPrograms

/-!
# Sums of objects of different data types
-/

namespace T3f.Dt

/-- All cores have one data type, and there are cores. -/
def Nice (t : TT ℝ) : Prop := t.cores ≠ [] ∧ ∃ d, t.Uniform d

theorem Nice.erase {t : TT ℝ} (h : Nice t) : t.erase.cores ≠ [] := by
  intro h0
  exact h.1 (List.map_eq_nil_iff.1 h0)

theorem uniform_unique {t : TT ℝ} {d e : DType} (h : t.cores ≠ []) (hd : t.Uniform d) (he : t.Uniform e) : d = e := by
  obtain ⟨c, hc⟩ := List.exists_mem_of_ne_nil _ h
  exact (hd c hc).symm.trans (he c hc)

/-- `round(a + b, m)` -/
noncomputable def sumRound (qr : QRRoutine) (svd : SVDRoutine) (m : MaxRank) (a b : TT ℝ) : R (TT ℝ) := do
  let sum ← add a b
  ttRound qr svd sum m none

/-- `round(a + b, m)` -/
noncomputable def plainSumRound (qr : QRRoutine) (svd : SVDRoutine) (m : MaxRank) (a b : T3f.TT ℝ) : R (T3f.TT ℝ) := do
  let sum ← T3f.add a b
  T3f.ttRound qr svd sum m none

theorem plainSumRound_ne_nil {qr : QRRoutine} {svd : SVDRoutine} {m : MaxRank} {a b x : T3f.TT ℝ} (h : plainSumRound qr svd m a b = Except.ok x) : x.cores ≠ [] := by
  obtain ⟨s, -, h⟩ := bind_ok_iff.1 h
  exact ttRound_ne_nil h

theorem sumRound_tag {qr : QRRoutine} {svd : SVDRoutine} {m : MaxRank} (d : DType) {a : T3f.TT ℝ} (b : T3f.TT ℝ) (ha : a.cores ≠ []) :
    sumRound qr svd m (tagT d a) (tagT d b) = tagT d <$> plainSumRound qr svd m a b := by
  unfold sumRound plainSumRound
  simp only [add_tag d ha, bind_map, map_bind, ttRound_tag]

theorem sumRound_mixed {qr : QRRoutine} {svd : SVDRoutine} {m : MaxRank} {d e : DType} (h : d ≠ e) {a b : T3f.TT ℝ} (ha : a.cores ≠ []) :
    Mixed (sumRound qr svd m (tagT d a) (tagT e b)) (plainSumRound qr svd m a b) :=
  Mixed.bind_left (add_mixed h ha) _ _

/-- If the summation without data types succeeds then the one with data types fails with TensorFlow's error or does the same. -/
theorem sumRound_ok {qr : QRRoutine} {svd : SVDRoutine} {m : MaxRank} {a b : TT ℝ} (ha : Nice a) (hb : Nice b) {y : T3f.TT ℝ}
    (h : plainSumRound qr svd m a.erase b.erase = Except.ok y) :
    sumRound qr svd m a b = Except.error Err.tf ∨ ∃ z, sumRound qr svd m a b = Except.ok z ∧ Nice z ∧ z.erase = y := by
  obtain ⟨d, hd⟩ := ha.2
  obtain ⟨e, he⟩ := hb.2
  by_cases hde : d = e
  · subst hde
    right
    refine ⟨tagT d y, ?_, ⟨?_, d, tagT_uniform d y⟩, tagT_erase d y⟩
    · rw [eq_tagT hd, eq_tagT he, sumRound_tag d _ ha.erase, h]
      rfl
    · intro h0
      exact plainSumRound_ne_nil h (List.map_eq_nil_iff.1 h0)
  · left
    rw [eq_tagT hd, eq_tagT he]
    exact (sumRound_mixed hde ha.erase).2 y h

/-- If the summation with data types succeeds then the summands have the data type of the sum. -/
theorem sumRound_same {qr : QRRoutine} {svd : SVDRoutine} {m : MaxRank} {a b z : TT ℝ} (ha : Nice a) (hb : Nice b) (h : sumRound qr svd m a b = Except.ok z) :
    Nice z ∧ ∀ d, z.Uniform d → a.Uniform d ∧ b.Uniform d := by
  obtain ⟨d, hd⟩ := ha.2
  obtain ⟨e, he⟩ := hb.2
  rw [eq_tagT hd, eq_tagT he] at h
  by_cases hde : d = e
  · subst hde
    rw [sumRound_tag d _ ha.erase] at h
    cases hy : plainSumRound qr svd m a.erase b.erase with
    | error err => rw [hy] at h; cases h
    | ok y =>
      rw [hy] at h
      cases h
      have hn : (tagT d y).cores ≠ [] := fun h0 => plainSumRound_ne_nil hy (List.map_eq_nil_iff.1 h0)
      refine ⟨⟨hn, d, tagT_uniform d y⟩, fun f hf => ?_⟩
      obtain rfl := uniform_unique hn (tagT_uniform d y) hf
      exact ⟨hd, he⟩
  · obtain ⟨err, h'⟩ := (sumRound_mixed (qr := qr) (svd := svd) (m := m) hde (b := b.erase) ha.erase).1
    rw [h'] at h
    cases h

theorem mapM_tf {α β : Type} {P : α → β → Prop} {f : ℕ → R α} {g : ℕ → R β} : ∀ {l : List ℕ},
    (∀ i ∈ l, ∀ y, g i = Except.ok y → f i = Except.error Err.tf ∨ ∃ z, f i = Except.ok z ∧ P z y) → ∀ {ys : List β}, l.mapM g = Except.ok ys →
      l.mapM f = Except.error Err.tf ∨ ∃ zs, l.mapM f = Except.ok zs ∧ List.Forall₂ P zs ys
  | [], _, ys, h => by
    cases h
    exact Or.inr ⟨[], rfl, .nil⟩
  | i :: l, hP, ys, h => by
    rw [List.mapM_cons] at h ⊢
    obtain ⟨y, hy, h⟩ := bind_ok_iff.1 h
    obtain ⟨ys', hys, h⟩ := bind_ok_iff.1 h
    cases h
    rcases hP i (by simp) y hy with hf | ⟨z, hf, hz⟩
    · rw [hf]; exact Or.inl rfl
    · rw [hf, ok_bind]
      rcases mapM_tf (fun i hi => hP i (List.mem_cons_of_mem _ hi)) hys with h | ⟨zs, h, hzs⟩
      · rw [h]; exact Or.inl rfl
      · rw [h]; exact Or.inr ⟨z :: zs, rfl, .cons hz hzs⟩

theorem mapM_size {α : Type} {f : ℕ → R α} : ∀ {l : List ℕ} {zs : List α}, l.mapM f = Except.ok zs → zs.length = l.length
  | [], _, h => by cases h; rfl
  | j :: l, zs, h => by
    rw [List.mapM_cons] at h
    obtain ⟨y, hy, h⟩ := bind_ok_iff.1 h
    obtain ⟨ys', hys, h⟩ := bind_ok_iff.1 h
    cases h
    rw [List.length_cons, List.length_cons, mapM_size hys]

theorem mapM_elem {α : Type} {f : ℕ → R α} : ∀ {l : List ℕ} {zs : List α}, l.mapM f = Except.ok zs → ∀ i ∈ l, ∃ z ∈ zs, f i = Except.ok z
  | [], _, _ => by simp
  | j :: l, zs, h => by
    rw [List.mapM_cons] at h
    obtain ⟨y, hy, h⟩ := bind_ok_iff.1 h
    obtain ⟨ys', hys, h⟩ := bind_ok_iff.1 h
    cases h
    intro i hi
    rcases List.mem_cons.1 hi with rfl | hi
    · exact ⟨y, by simp, hy⟩
    · obtain ⟨z, hz, he⟩ := mapM_elem hys i hi
      exact ⟨z, List.mem_cons_of_mem _ hz, he⟩

/-- The element `j` of the next level. -/
noncomputable def levelItem (qr : QRRoutine) (svd : SVDRoutine) (m : MaxRank) (prev : List (TT ℝ)) (j : ℕ) : R (TT ℝ) := do
  let curr ← pyGet prev (2 * j)
  if 2 * j + 1 < prev.length then do
    let other ← pyGet prev (2 * j + 1)
    sumRound qr svd m curr other
  else pure curr

theorem pyGet_getElem {α : Type} {l : List α} {k : ℕ} (h : k < l.length) : pyGet l k = Except.ok l[k] := by
  unfold pyGet
  rw [List.getElem?_eq_getElem h]

variable {qr : QRRoutine} {svd : SVDRoutine} {m : MaxRank}

theorem addNLevel_eq (prev : List (TT ℝ)) : addNLevel qr svd m prev = mapRange ((prev.length + 1) / 2) (levelItem qr svd m prev) := rfl

theorem addNLevel_ok {prev : List (TT ℝ)} (hp : ∀ t ∈ prev, Nice t) {ys : List (T3f.TT ℝ)} (h : T3f.addNLevel qr svd m (prev.map TT.erase) = Except.ok ys) :
    addNLevel qr svd m prev = Except.error Err.tf ∨ ∃ zs, addNLevel qr svd m prev = Except.ok zs ∧ (∀ t ∈ zs, Nice t) ∧ zs.map TT.erase = ys := by
  have key := mapM_tf (P := fun z y => Nice z ∧ z.erase = y) (f := levelItem qr svd m prev) (fun j hj y hy => ?_) h
  · rw [List.length_map] at key
    rcases key with h | ⟨zs, h, hz⟩
    · exact Or.inl h
    · refine Or.inr ⟨zs, h, ?_, ?_⟩
      · intro t ht
        obtain ⟨i, hi, rfl⟩ := List.getElem_of_mem ht
        exact ((List.forall₂_iff_get.1 hz).2 i hi (by rw [← hz.length_eq]; exact hi)).1
      · refine List.ext_getElem (by rw [List.length_map]; exact hz.length_eq) fun i h1 h2 => ?_
        rw [List.getElem_map]
        exact ((List.forall₂_iff_get.1 hz).2 i (by simpa using h1) h2).2
  · rw [List.length_map, List.mem_range] at hj
    have h0 : 2 * j < prev.length := by omega
    unfold levelItem
    rw [pyGet_getElem h0, ok_bind]
    rw [pyGet_map, pyGet_getElem h0, map_ok, ok_bind, List.length_map] at hy
    have hn := hp _ (List.getElem_mem h0)
    by_cases h1 : 2 * j + 1 < prev.length
    · rw [if_pos h1, pyGet_getElem h1, ok_bind]
      rw [if_pos h1, pyGet_map, pyGet_getElem h1, map_ok, ok_bind] at hy
      exact sumRound_ok hn (hp _ (List.getElem_mem h1)) hy
    · rw [if_neg h1]
      rw [if_neg h1] at hy
      cases hy
      exact Or.inr ⟨_, rfl, hn, rfl⟩

theorem addNLevel_same {prev next : List (TT ℝ)} (hp : ∀ t ∈ prev, Nice t) (h : addNLevel qr svd m prev = Except.ok next) :
    (∀ t ∈ next, Nice t) ∧ next.length = (prev.length + 1) / 2 ∧ ∀ d, (∀ t ∈ next, t.Uniform d) → ∀ t ∈ prev, t.Uniform d := by
  have item : ∀ j < (prev.length + 1) / 2, ∀ z, levelItem qr svd m prev j = Except.ok z → Nice z ∧
      ∀ d, z.Uniform d → ∀ k (hk : k < prev.length), k / 2 = j → prev[k].Uniform d := by
    intro j hj z hz
    have h0 : 2 * j < prev.length := by omega
    have hn := hp _ (List.getElem_mem h0)
    unfold levelItem at hz
    rw [pyGet_getElem h0, ok_bind] at hz
    by_cases h1 : 2 * j + 1 < prev.length
    · rw [if_pos h1, pyGet_getElem h1, ok_bind] at hz
      obtain ⟨hz1, hz2⟩ := sumRound_same hn (hp _ (List.getElem_mem h1)) hz
      refine ⟨hz1, fun d hd k hk hkj => ?_⟩
      obtain rfl | rfl : k = 2 * j ∨ k = 2 * j + 1 := by omega
      · exact (hz2 d hd).1
      · exact (hz2 d hd).2
    · rw [if_neg h1] at hz
      cases hz
      refine ⟨hn, fun d hd k hk hkj => ?_⟩
      obtain rfl : k = 2 * j := by omega
      exact hd
  rw [addNLevel_eq] at h
  refine ⟨fun t ht => ?_, (mapM_size h).trans List.length_range, fun d hd t ht => ?_⟩
  · obtain ⟨j, hj, he⟩ := mapM_mem h t ht
    exact (item j (List.mem_range.1 hj) t he).1
  · obtain ⟨k, hk, rfl⟩ := List.getElem_of_mem ht
    obtain ⟨z, hz, he⟩ := mapM_elem h (k / 2) (List.mem_range.2 (by omega))
    exact (item (k / 2) (by omega) z he).2 d (hd z hz) k hk rfl

theorem addNLoop_ok : ∀ (fuel : ℕ) {prev : List (TT ℝ)} (_ : ∀ t ∈ prev, Nice t) {ys : List (T3f.TT ℝ)} (_ : T3f.addNLoop qr svd m fuel (prev.map TT.erase) = Except.ok ys),
    addNLoop qr svd m fuel prev = Except.error Err.tf ∨ ∃ zs, addNLoop qr svd m fuel prev = Except.ok zs ∧ zs.map TT.erase = ys
  | 0, prev, _, ys, h => by
    cases h
    exact Or.inr ⟨prev, rfl, rfl⟩
  | fuel + 1, prev, hp, ys, h => by
    unfold T3f.addNLoop at h
    unfold addNLoop
    rw [List.length_map] at h
    split_ifs at h ⊢ with h1
    · obtain ⟨next, hn, h⟩ := bind_ok_iff.1 h
      rcases addNLevel_ok hp hn with h' | ⟨zs, h', hz, rfl⟩
      · rw [h']; exact Or.inl rfl
      · rw [h', ok_bind]
        exact addNLoop_ok fuel hz h
    · cases h
      exact Or.inr ⟨prev, rfl, rfl⟩

theorem addNLoop_same : ∀ (fuel : ℕ) {prev last : List (TT ℝ)} (_ : prev.length ≤ fuel) (_ : ∀ t ∈ prev, Nice t) (_ : addNLoop qr svd m fuel prev = Except.ok last),
    ∃ d, ∀ t ∈ prev, t.Uniform d
  | 0, prev, _, hl, _, _ => by
    obtain rfl : prev = [] := List.length_eq_zero_iff.1 (by omega)
    exact ⟨.float32, by simp⟩
  | fuel + 1, prev, last, hl, hp, h => by
    unfold addNLoop at h
    split_ifs at h with h1
    · obtain ⟨next, hn, h⟩ := bind_ok_iff.1 h
      obtain ⟨hn1, hn2, hn3⟩ := addNLevel_same hp hn
      obtain ⟨d, hd⟩ := addNLoop_same fuel (by omega) hn1 h
      exact ⟨d, hn3 d hd⟩
    · match prev, h1 with
      | [], _ => exact ⟨.float32, by simp⟩
      | [t], _ =>
        obtain ⟨d, hd⟩ := (hp t (by simp)).2
        exact ⟨d, by simpa using hd⟩
      | _ :: _ :: _, h1 => exact absurd (by simp) h1

/-- `add_n` of objects that do not have one data type. -/
theorem addN_mixed {ts : List (TT ℝ)} (hts : ∀ t ∈ ts, Nice t) (h : ¬ ∃ d, ∀ t ∈ ts, t.Uniform d) :
    Mixed (addN qr svd ts m) (T3f.addN qr svd (ts.map TT.erase) m) := by
  have hloop : ∃ err, addNLoop qr svd m ts.length ts = Except.error err := by
    cases hl : addNLoop qr svd m ts.length ts with
    | error err => exact ⟨err, rfl⟩
    | ok last => exact absurd (addNLoop_same _ le_rfl hts hl) h
  obtain ⟨err, he⟩ := hloop
  unfold addN T3f.addN
  refine Mixed.bind_left ⟨⟨err, he⟩, fun s hs => ?_⟩ _ _
  rw [List.length_map] at hs
  rcases addNLoop_ok _ hts hs with h' | ⟨zs, h', -⟩
  · exact h'
  · rw [h'] at he
    cases he

end T3f.Dt
