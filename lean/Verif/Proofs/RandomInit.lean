import Verif.Proofs.Initializers
import Verif.Spec.Ranks

/-! # What the random initializers accept -/

namespace T3f

variable {K : Type} [CommRing K]

theorem require_bind_error {α : Type} {c : Prop} [Decidable c] (f : Unit → R α) (h : ¬ c) (e : Err) :
    (require c e >>= f) = Except.error e := by rw [require_neg h]; rfl

theorem require_bind_ok {α : Type} {c : Prop} [Decidable c] (f : Unit → R α) (h : c) (e : Err) :
    (require c e >>= f) = f () := by rw [require_pos h]; rfl

/-- What `validateRest` checks for a list of `d + 1 ≥ 2` ranks or a number. -/
def SynRank (d : ℕ) : RankArg → Prop
  | .num r => 1 ≤ r
  | .list l => l.length = d + 1 ∧ (∀ r ∈ l, 1 ≤ r)

theorem validateBatch_ok {bs : Option ℤ} (hb : ∀ b ∈ bs, 1 ≤ b) : validateBatch bs = Except.ok () := by
  cases bs with
  | none => rfl
  | some b => exact require_pos (hb b rfl) _

theorem validateRest_ok {d : ℕ} (hd : 0 < d) {bs : Option ℤ} {rank : RankArg} (hb : ∀ b ∈ bs, 1 ≤ b)
    (hr : SynRank d rank) : validateRest d bs (some rank) = Except.ok () := by
  rw [validateRest, validateBatch_ok hb, R.ok_bind]
  cases rank with
  | num r => exact require_pos (c := 1 ≤ r) hr _
  | list l =>
    obtain ⟨h2, h3⟩ := hr
    rw [validateRank, require_bind_ok _ (by omega), require_bind_ok _ h3]
    exact require_pos h2 _

theorem validateRest_error {d : ℕ} {bs : Option ℤ} {rank : RankArg} (h : ¬ ((∀ b ∈ bs, 1 ≤ b) ∧ SynRank d rank)) :
    validateRest d bs (some rank) = Except.error Err.value := by
  rw [validateRest]
  by_cases hb : ∀ b ∈ bs, 1 ≤ b
  · have hr : ¬ SynRank d rank := fun h' => h ⟨hb, h'⟩
    rw [validateBatch_ok hb, R.ok_bind]
    cases rank with
    | num r => exact require_neg (c := 1 ≤ r) hr _
    | list l =>
      rw [validateRank]
      by_cases c1 : l.length ≠ 1
      · rw [require_bind_ok _ c1]
        by_cases c2 : ∀ r ∈ l, 1 ≤ r
        · rw [require_bind_ok _ c2]
          exact require_neg (fun c => hr ⟨c, c2⟩) _
        · exact require_bind_error _ c2 _
      · exact require_bind_error _ c1 _
  · have h1 : validateBatch bs = (Except.error Err.value : R Unit) := by
      cases bs with
      | none => simp at hb
      | some b => exact require_neg (by simpa using hb) _
    rw [h1]; rfl

theorem goodRank_iff {d : ℕ} (hd : 0 < d) (rank : RankArg) :
    GoodRank d rank ↔ SynRank d rank ∧ (usedRanks d rank).getD 0 0 = 1 ∧ (usedRanks d rank).getD d 0 = 1 := by
  cases rank with
  | num r =>
    simp only [GoodRank, SynRank, usedRanks]
    refine ⟨fun h => ⟨h, rfl, ?_⟩, fun h => h.1⟩
    obtain ⟨d, rfl⟩ : ∃ e, d = e + 1 := ⟨d - 1, by omega⟩
    rw [List.getD_cons_succ, List.getD_append_right _ _ _ _ (by simp)]
    simp
  | list l =>
    simp only [GoodRank, SynRank, usedRanks, and_assoc]
    refine and_congr_right fun hl => and_congr_right fun hp => ?_
    have e : ∀ k < l.length, (l.map Int.toNat).getD k 0 = (l.getD k 0).toNat := by
      intro k hk
      rw [List.getD_eq_getElem _ _ (by simpa using hk), List.getElem_map, List.getD_eq_getElem _ _ hk]
    rw [e 0 (by omega), e d (by omega)]
    omega

theorem expandRank_eq {d : ℕ} (hd : 0 < d) {rank : RankArg} :
    ∃ l, expandRank d rank = Except.ok l ∧ l.map Int.toNat = usedRanks d rank ∧
      (SynRank d rank → SynRank d (.list l)) := by
  cases rank with
  | num r =>
    refine ⟨1 :: (List.replicate (d - 1) r ++ [1]), ?_, ?_, fun h => ⟨?_, ?_⟩⟩
    · simp only [expandRank, if_neg hd.ne']; rfl
    · simp [usedRanks]
    · simp; omega
    · intro x hx
      simp only [List.mem_cons, List.mem_append, List.mem_replicate, List.not_mem_nil, or_false] at hx
      have : 1 ≤ r := h
      omega
  | list l => exact ⟨l, rfl, rfl, id⟩

theorem usedRanks_props {d : ℕ} (hd : 0 < d) {rank : RankArg} (h : SynRank d rank) :
    (usedRanks d rank).length = d + 1 ∧ ∀ r ∈ usedRanks d rank, 0 < r := by
  obtain ⟨l, -, e, h'⟩ := expandRank_eq hd (rank := rank)
  obtain ⟨h1, h2⟩ := h' h
  rw [← e]
  refine ⟨by simpa using h1, fun r hr => ?_⟩
  obtain ⟨x, hx, rfl⟩ := List.mem_map.1 hr
  have := h2 x hx
  omega

/-- The common part of the random initializers. -/
theorem fill_spec {d : ℕ} (hd : 0 < d) {rank : RankArg} (hs : SynRank d rank) {g : ℕ → List ℕ → Tensor K}
    (hg : ∀ i s, (g i s).shape = s) {bs : Option ℕ} (hb : bs ≠ some 0) {rows : List (List ℕ)}
    (hnm : rows.length = 1 ∨ rows.length = 2) (hrows : ∀ row ∈ rows, row.length = d) {sh : ShapeArg}
    (hsh : cleanRawShape sh = Except.ok (some rows)) :
    (GoodRank d rank → (fillCores g bs.toList rows (usedRanks d rank) d >>= fun cores => mkAny bs cores sh (usedRanks d rank))
      = Except.ok (filled g bs rows (usedRanks d rank) d) ∧ (filled g bs rows (usedRanks d rank) d).WF) ∧
    (¬ GoodRank d rank → (fillCores g bs.toList rows (usedRanks d rank) d >>= fun cores => mkAny bs cores sh (usedRanks d rank))
      = Except.error Err.value) := by
  obtain ⟨h1, h2⟩ := usedRanks_props hd hs
  have hgr := goodRank_iff hd rank
  constructor
  · intro h
    obtain ⟨-, h3, h4⟩ := hgr.1 h
    exact mkAny_ok hg hd hnm hrows h1 h2 h3 h4 hb hsh
  · intro h
    exact mkAny_error hg hd hrows h1 (fun h' => h (hgr.2 ⟨hs, h'⟩)) hsh

theorem clean_flat {l : List ℕ} (h : 2 ≤ l.length) : cleanRawShape (.flat l) = Except.ok (some [l]) := by
  match l, h with
  | _ :: _ :: _, _ => rfl

theorem clean_nested {a b : List ℕ} (h : 2 ≤ a.length) (hab : a.length = b.length) :
    cleanRawShape (.nested [a, b]) = Except.ok (some [a, b]) := by
  simp [cleanRawShape, hab, show b.length ≠ 1 by omega]

/-- What an initializer for tensors accepts. -/
def GoodTensor (shape : List ℤ) (bs : Option ℤ) (rank : RankArg) : Prop :=
  (∀ n ∈ shape, 1 ≤ n) ∧ (∀ b ∈ bs, 1 ≤ b) ∧ GoodRank shape.length rank

theorem tensorInit_spec (g : ℕ → List ℕ → Tensor K) (hg : ∀ i s, (g i s).shape = s) (shape : List ℤ) (h2 : 2 ≤ shape.length)
    (bs : Option ℤ) (rank : RankArg) :
    let x : R (TT K) := do
      validateTensor shape bs (some rank)
      let rk ← expandRank shape.length rank
      let cores ← fillCores g (bs.map Int.toNat).toList [shape.map Int.toNat] (rk.map Int.toNat) (shape.map Int.toNat).length
      mkAny (bs.map Int.toNat) cores (.flat (shape.map Int.toNat)) (rk.map Int.toNat)
    let t := filled g (bs.map Int.toNat) [shape.map Int.toNat] (usedRanks shape.length rank) shape.length
    (GoodTensor shape bs rank → x = Except.ok t ∧ t.WF) ∧ (¬ GoodTensor shape bs rank → x = Except.error Err.value) := by
  intro x t
  have hd : 0 < shape.length := by omega
  obtain ⟨l, e1, e2, -⟩ := expandRank_eq hd (rank := rank)
  have hl : (shape.map Int.toNat).length = shape.length := by simp
  have hclean : cleanRawShape (.flat (shape.map Int.toNat)) = Except.ok (some [shape.map Int.toNat]) :=
    clean_flat (by simpa using h2)
  by_cases c1 : ∀ n ∈ shape, 1 ≤ n
  · by_cases c2 : (∀ b ∈ bs, 1 ≤ b) ∧ SynRank shape.length rank
    · have hx : x = (fillCores g (bs.map Int.toNat).toList [shape.map Int.toNat] (usedRanks shape.length rank) shape.length >>=
          fun cores => mkAny (bs.map Int.toNat) cores (.flat (shape.map Int.toNat)) (usedRanks shape.length rank)) := by
        simp only [x, validateTensor, require_bind_ok _ c1, validateRest_ok hd c2.1 c2.2, R.ok_bind, e1, e2, hl]
      have hb0 : bs.map Int.toNat ≠ some 0 := by
        cases bs with
        | none => simp
        | some b => have := c2.1 b rfl; simp; omega
      have := fill_spec (g := g) hd c2.2 hg hb0 (rows := [shape.map Int.toNat]) (Or.inl rfl) (by simp) hclean
      rw [hx]
      exact ⟨fun h => this.1 h.2.2, fun h => this.2 fun h' => h ⟨c1, c2.1, h'⟩⟩
    · refine ⟨fun h => absurd ⟨h.2.1, ((goodRank_iff hd rank).1 h.2.2).1⟩ c2, fun _ => ?_⟩
      simp only [x, validateTensor, require_bind_ok _ c1, validateRest_error c2]
      rfl
  · refine ⟨fun h => absurd h.1 c1, fun _ => ?_⟩
    simp only [x, validateTensor, require_bind_error _ c1]
    rfl

/-- What an initializer for matrices accepts. -/
def GoodMatrix (a b : List ℤ) (bs : Option ℤ) (rank : RankArg) : Prop :=
  a.length = b.length ∧ (∀ n ∈ a ++ b, 1 ≤ n) ∧ (∀ b ∈ bs, 1 ≤ b) ∧ GoodRank a.length rank

theorem matrixInit_spec (g : ℕ → List ℕ → Tensor K) (hg : ∀ i s, (g i s).shape = s) (a b : List ℤ) (h2 : 2 ≤ a.length)
    (bs : Option ℤ) (rank : RankArg) :
    let rows := [a.map Int.toNat, b.map Int.toNat]
    let x : R (TT K) := do
      validateMatrix a b bs (some rank)
      let rk ← expandRank a.length rank
      let cores ← fillCores g (bs.map Int.toNat).toList rows (rk.map Int.toNat) a.length
      mkAny (bs.map Int.toNat) cores (.nested rows) (rk.map Int.toNat)
    let t := filled g (bs.map Int.toNat) rows (usedRanks a.length rank) a.length
    (GoodMatrix a b bs rank → x = Except.ok t ∧ t.WF) ∧ (¬ GoodMatrix a b bs rank → x = Except.error Err.value) := by
  intro rows x t
  have hd : 0 < a.length := by omega
  obtain ⟨l, e1, e2, -⟩ := expandRank_eq hd (rank := rank)
  by_cases c0 : a.length = b.length
  · have hclean : cleanRawShape (.nested rows) = Except.ok (some rows) :=
      clean_nested (by simpa using h2) (by simpa using c0)
    by_cases c1 : ∀ n ∈ a ++ b, 1 ≤ n
    · by_cases c2 : (∀ b ∈ bs, 1 ≤ b) ∧ SynRank a.length rank
      · have hx : x = (fillCores g (bs.map Int.toNat).toList rows (usedRanks a.length rank) a.length >>=
            fun cores => mkAny (bs.map Int.toNat) cores (.nested rows) (usedRanks a.length rank)) := by
          simp only [x, validateMatrix, require_bind_ok _ c0, require_bind_ok _ c1, validateRest_ok hd c2.1 c2.2, R.ok_bind,
            e1, e2]
        have hb0 : bs.map Int.toNat ≠ some 0 := by
          cases bs with
          | none => simp
          | some b => have := c2.1 b rfl; simp; omega
        have := fill_spec (g := g) hd c2.2 hg hb0 (rows := rows) (Or.inr rfl) (by simp [rows, c0]) hclean
        rw [hx]
        exact ⟨fun h => this.1 h.2.2.2, fun h => this.2 fun h' => h ⟨c0, c1, c2.1, h'⟩⟩
      · refine ⟨fun h => absurd ⟨h.2.2.1, ((goodRank_iff hd rank).1 h.2.2.2).1⟩ c2, fun _ => ?_⟩
        simp only [x, validateMatrix, require_bind_ok _ c0, require_bind_ok _ c1, validateRest_error c2]
        rfl
    · refine ⟨fun h => absurd h.2.1 c1, fun _ => ?_⟩
      simp only [x, validateMatrix, require_bind_ok _ c0, require_bind_error _ c1]
      rfl
  · refine ⟨fun h => absurd h.1 c0, fun _ => ?_⟩
    simp only [x, validateMatrix, require_bind_error _ c0]
    rfl

end T3f
