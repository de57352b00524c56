import Verif.Proofs.StaticOps
import Verif.Proofs.RoundOps

/-!
# Static shapes: which cores the constructor accepts
-/

namespace T3f

variable {K : Type}

namespace Static

theorem shp_of_length (o nm : ℕ) (x : List (Option ℕ)) (h : x.length = o + nm + 2) :
    x = shp (x.take o) (x.getD o none) ((x.drop (o + 1)).dropLast) (x.getLastD none) := by
  have h1 : x = x.take o ++ x.drop o := (List.take_append_drop o x).symm
  have h2 : x.drop o = x.getD o none :: x.drop (o + 1) := by
    rw [List.drop_eq_getElem_cons (by omega), List.getD_eq_getElem _ _ (by omega)]
  have hne : x.drop (o + 1) ≠ [] := by
    intro hc; have := congrArg List.length hc; simp at this; omega
  have h3 : x.drop (o + 1) = (x.drop (o + 1)).dropLast ++ [x.getLastD none] := by
    conv_lhs => rw [← List.dropLast_append_getLast hne]
    congr 2
    rw [List.getLast_drop]
    have hx : x ≠ [] := by rintro rfl; simp at h
    rw [List.getLastD_eq_getLast?, List.getLast?_eq_some_getLast hx]; rfl
  conv_lhs => rw [h1, h2, h3]

section

variable [Zero K] {cores : List (SCore K)} {t : TT K} {bs : Option ℕ}

theorem sh_length (ht : t.WF) (hv : cores.map (·.val) = t.cores) (hb : t.batch = bs) (hk : ∀ c ∈ cores, List.Forall₂ Knows c.sh c.val.shape)
    {k : ℕ} (h : k < cores.length) : List.Forall₂ Knows cores[k].sh (t.core k).shape ∧ cores[k].sh.length = off bs + t.rawShape.length + 2 ∧ k < t.ndims := by
  have hk' : k < t.cores.length := by rw [← hv]; simpa using h
  have hc : t.core k = cores[k].val := by
    have : t.core k = t.cores[k] := List.getD_eq_getElem _ _ hk'
    rw [this]; simp only [← hv, List.getElem_map]
  have h1 := hk _ (List.getElem_mem h)
  rw [← hc] at h1
  refine ⟨h1, ?_, hk'⟩
  rw [h1.length_eq, ht.core_shape k hk', ← hb, ← bpre_len]
  simp [TT.modes]; omega

/-- The candidate. -/
def cand (bs : Option ℕ) (cores : List (SCore K)) : Sym K :=
  ⟨cores, inferRawShapeS (off bs) (cores.map (·.sh)), inferTTRanksS (off bs) (cores.map (·.sh)), bs⟩

/-- The part functions of the static shapes. -/
def bP (bs : Option ℕ) (cores : List (SCore K)) (k : ℕ) : List (Option ℕ) := ((cores.map (·.sh)).getD k []).take (off bs)
def lP (bs : Option ℕ) (cores : List (SCore K)) (k : ℕ) : Option ℕ := ((cores.map (·.sh)).getD k []).getD (off bs) none
def mP (bs : Option ℕ) (cores : List (SCore K)) (k : ℕ) : List (Option ℕ) := (((cores.map (·.sh)).getD k []).drop (off bs + 1)).dropLast
def rP (cores : List (SCore K)) (k : ℕ) : Option ℕ := ((cores.map (·.sh)).getD k []).getLastD none

omit [Zero K] in
theorem sh_getD {k : ℕ} (h : k < cores.length) : (cores.map (·.sh)).getD k [] = cores[k].sh := by
  rw [List.getD_eq_getElem _ _ (by simpa using h), List.getElem_map]

theorem cand_shaped (ht : t.WF) (hv : cores.map (·.val) = t.cores) (hb : t.batch = bs) (hk : ∀ c ∈ cores, List.Forall₂ Knows c.sh c.val.shape) :
    Shaped (off bs) t.rawShape.length (cores.map (·.sh)) (bP bs cores) (lP bs cores) (mP bs cores) (rP cores) := by
  have hp : 0 < cores.length := by
    have := ht.pos
    rw [TT.ndims, ← hv] at this; simpa using this
  refine ⟨by simpa using hp, fun k h => ?_, fun k h => ?_, fun k h => ?_⟩
  · have h' : k < cores.length := by simpa using h
    obtain ⟨-, hl, -⟩ := sh_length ht hv hb hk h'
    rw [List.getElem?_map, List.getElem?_eq_getElem h', Option.map_some, bP, lP, mP, rP, sh_getD h', ← shp_of_length _ _ _ hl]
  · have h' : k < cores.length := by simpa using h
    obtain ⟨-, hl, -⟩ := sh_length ht hv hb hk h'
    rw [bP, sh_getD h', List.length_take, hl]; omega
  · have h' : k < cores.length := by simpa using h
    obtain ⟨-, hl, -⟩ := sh_length ht hv hb hk h'
    rw [mP, sh_getD h', List.length_dropLast, List.length_drop, hl]; omega

theorem knows_split {b b' : List (Option ℕ)} {b1 b2 : List ℕ} (h : List.Forall₂ Knows (b ++ b') (b1 ++ b2)) (hl : b.length = b1.length) :
    List.Forall₂ Knows b b1 ∧ List.Forall₂ Knows b' b2 := by
  have h1 := List.forall₂_take b.length h
  have h2 := List.forall₂_drop b.length h
  rw [List.take_left, hl, List.take_left] at h1
  rw [List.drop_left, hl, List.drop_left] at h2
  exact ⟨h1, h2⟩

/-- The parts know the sizes. -/
theorem cand_knows (ht : t.WF) (hv : cores.map (·.val) = t.cores) (hb : t.batch = bs) (hk : ∀ c ∈ cores, List.Forall₂ Knows c.sh c.val.shape)
    {k : ℕ} (h : k < cores.length) : List.Forall₂ Knows (bP bs cores k) t.bpre ∧ Knows (lP bs cores k) (t.rank k) ∧
      List.Forall₂ Knows (mP bs cores k) (t.modes k) ∧ Knows (rP cores k) (t.rank (k + 1)) := by
  have S := cand_shaped ht hv hb hk
  obtain ⟨h1, hl, hkd⟩ := sh_length ht hv hb hk h
  have e := S.eq k (by simpa using h)
  rw [List.getElem?_map, List.getElem?_eq_getElem h, Option.map_some, Option.some.injEq] at e
  rw [e, ht.core_shape k hkd] at h1
  obtain ⟨a1, a2⟩ := knows_split h1 (by rw [S.blen k (by simpa using h), bpre_len, hb])
  obtain ⟨a3, a4⟩ := List.forall₂_cons.mp a2
  obtain ⟨a5, a6⟩ := knows_split a4 (by rw [S.mlen k (by simpa using h)]; simp [TT.modes])
  exact ⟨a1, a3, a5, (List.forall₂_cons.mp a6).1⟩

omit [Zero K] in
theorem cand_rank {k : ℕ} (h : k < cores.length) : (inferTTRanksS (off bs) (cores.map (·.sh))).getD k none = lP bs cores k := by
  have hl : k < ((cores.map (·.sh)).map fun s => s.getD (off bs) none).length := by simpa using h
  rw [inferTTRanksS, List.getD_append _ _ _ _ hl, List.getD_eq_getElem _ _ hl, List.getElem_map, lP, sh_getD h, List.getElem_map]

omit [Zero K] in
theorem cand_rank_last : (inferTTRanksS (off bs) (cores.map (·.sh))).getD cores.length none = rP cores (cores.length - 1) := by
  have hl : ((cores.map (·.sh)).map fun s => s.getD (off bs) none).length ≤ cores.length := by simp
  rw [inferTTRanksS, List.getD_append_right _ _ _ _ hl]
  simp only [List.length_map, Nat.sub_self, rP, List.getD_cons_zero]
  congr 1
  rw [List.getLastD_eq_getLast?, List.getLast?_eq_getElem?, List.length_map]
  rfl

omit [Zero K] in
theorem cand_rank_succ (hlink : ∀ k, k + 1 < cores.length → lP bs cores (k + 1) = rP cores k) {k : ℕ} (h : k < cores.length) :
    (inferTTRanksS (off bs) (cores.map (·.sh))).getD (k + 1) none = rP cores k := by
  rcases Nat.lt_or_ge (k + 1) cores.length with h' | h'
  · rw [cand_rank h', hlink k h']
  · obtain rfl : k = cores.length - 1 := by omega
    rw [show cores.length - 1 + 1 = cores.length by omega, cand_rank_last]

theorem cand_rows (ht : t.WF) (hv : cores.map (·.val) = t.cores) (hb : t.batch = bs) (hk : ∀ c ∈ cores, List.Forall₂ Knows c.sh c.val.shape) :
    inferRawShapeS (off bs) (cores.map (·.sh)) = (List.range t.rawShape.length).map fun j => (List.range cores.length).map fun k => (mP bs cores k).getD j none := by
  have S := cand_shaped ht hv hb hk
  have hp : 0 < cores.length := by simpa using S.pos
  have hn : ((cores.map (·.sh)).headD []).length - (2 + off bs) = t.rawShape.length := by
    have : (cores.map (·.sh)).headD [] = cores[0].sh := by
      cases cores with
      | nil => simp at hp
      | cons a l => rfl
    rw [this, (sh_length ht hv hb hk hp).2.1]; omega
  rw [inferRawShapeS, hn]
  apply List.map_congr_left
  intro j hj
  have hj' : j < t.rawShape.length := by simpa using hj
  apply List.ext_getElem
  · simp
  · intro k h1 h2
    have hk' : k < cores.length := by simpa using h1
    have e := S.eq k (by simpa using hk')
    rw [List.getElem?_map, List.getElem?_eq_getElem hk', Option.map_some, Option.some.injEq] at e
    have hm : j < (mP bs cores k).length := by rw [S.mlen k (by simpa using hk')]; exact hj'
    have := shp_mode (bP bs cores k) (lP bs cores k) (mP bs cores k) (rP cores k) hm
    rw [S.blen k (by simpa using hk')] at this
    rw [List.getElem_map, List.getElem_map, e]
    have h3 := (pyGet_getD this none).1
    rw [← h3]
    simp

theorem cand_is (ht : t.WF) (hv : cores.map (·.val) = t.cores) (hb : t.batch = bs) (hk : ∀ c ∈ cores, List.Forall₂ Knows c.sh c.val.shape)
    (hlink : ∀ k, k + 1 < cores.length → lP bs cores (k + 1) = rP cores k) (h0 : lP bs cores 0 = some 1) (h1 : rP cores (cores.length - 1) = some 1) :
    (cand bs cores).Is t := by
  have S := cand_shaped ht hv hb hk
  have hp : 0 < cores.length := by simpa using S.pos
  have hn : cores.length = t.ndims := by rw [TT.ndims, ← hv]; simp
  have hlen : (inferTTRanksS (off bs) (cores.map (·.sh))).length = cores.length + 1 := by simp [inferTTRanksS]
  refine ⟨ht, hv, hb.symm, ?_, ?_, ?_, ?_, ?_⟩
  · rw [List.forall₂_iff_get]
    refine ⟨by show (inferTTRanksS _ _).length = _; rw [hlen, ht.ranks_len, hn], fun i hi hi' => ?_⟩
    have hi2 : i < cores.length + 1 := by
      have : i < (inferTTRanksS (off bs) (cores.map (·.sh))).length := hi
      omega
    have e1 : (cand bs cores).ttRanks.get ⟨i, hi⟩ = (inferTTRanksS (off bs) (cores.map (·.sh))).getD i none := (List.getD_eq_getElem _ _ hi).symm
    have e2 : t.ttRanks.get ⟨i, hi'⟩ = t.rank i := (List.getD_eq_getElem _ _ hi').symm
    rw [e1, e2]
    rcases Nat.lt_or_ge i cores.length with h | h
    · rw [cand_rank h]; exact (cand_knows ht hv hb hk h).2.1
    · obtain rfl : i = cores.length := by omega
      rw [cand_rank_last]
      have := (cand_knows ht hv hb hk (k := cores.length - 1) (by omega)).2.2.2
      rwa [show cores.length - 1 + 1 = cores.length by omega] at this
  · show List.Forall₂ _ (inferRawShapeS _ _) _
    rw [cand_rows ht hv hb hk]
    conv => rw [ht.rows_eq]
    rw [rowsOf, ← hn]
    rw [List.forall₂_iff_get]
    refine ⟨by simp, fun j hj hj' => ?_⟩
    have hj2 : j < t.rawShape.length := by simpa using hj
    simp only [List.get_eq_getElem, List.getElem_map, List.getElem_range]
    rw [List.forall₂_iff_get]
    refine ⟨by simp, fun k hk1 hk2 => ?_⟩
    have hk3 : k < cores.length := by simpa using hk1
    simp only [List.get_eq_getElem, List.getElem_map, List.getElem_range]
    exact forall₂_getD (cand_knows ht hv hb hk hk3).2.2.1 j (by simpa [TT.modes] using hj2)
  · intro k hk'
    have hk2 : k < cores.length := hk'
    refine ⟨bP bs cores k, (cand_knows ht hv hb hk hk2).1, ?_⟩
    show (cores[k]?).map _ = some (_ ++ (inferTTRanksS (off bs) (cores.map (·.sh))).getD k none :: ((inferRawShapeS (off bs) (cores.map (·.sh))).map _ ++ [(inferTTRanksS (off bs) (cores.map (·.sh))).getD (k + 1) none]))
    rw [cand_rank hk2, cand_rank_succ hlink hk2]
    have e := S.eq k (by simpa using hk2)
    rw [List.getElem?_map] at e
    rw [e]
    congr 3
    rw [cand_rows ht hv hb hk, List.map_map]
    rw [list_eq_range_map (mP bs cores k) none, S.mlen k (by simpa using hk2)]
    congr 1
    funext j
    simp only [Function.comp_apply]
    rw [getD_range_map _ _ _ _ hk2]
  · show (inferTTRanksS (off bs) (cores.map (·.sh))).getD 0 none = _
    rw [cand_rank hp, h0]
  · show (inferTTRanksS (off bs) (cores.map (·.sh))).getD cores.length none = _
    rw [cand_rank_last, h1]

omit [Zero K] in
theorem linked_iff {nm : ℕ} (S : Shaped (off bs) nm (cores.map (·.sh)) (bP bs cores) (lP bs cores) (mP bs cores) (rP cores)) :
    StaticallyLinked bs.isSome (cores.map (·.sh)) ↔ (∀ k, k + 1 < (cores.map (·.sh)).length → lP bs cores (k + 1) = rP cores k) ∧ lP bs cores 0 = some 1 ∧
      rP cores ((cores.map (·.sh)).length - 1) = some 1 := by
  set shapes := cores.map (·.sh) with hsh
  have hd : ∀ k < shapes.length, ∀ x, shapes[k]? = some x → (if bs.isSome then x.tail else x).head? = some (lP bs cores k) ∧ x.getLast? = some (rP cores k) := by
    intro k hk x hx
    rw [S.eq k hk, Option.some.injEq] at hx
    subst hx
    have hb := S.blen k hk
    refine ⟨?_, ?_⟩
    · cases bs with
      | none =>
        have : bP none cores k = [] := List.length_eq_zero_iff.mp hb
        rw [this]; rfl
      | some n =>
        obtain ⟨y, hy⟩ : ∃ y, bP (some n) cores k = [y] := List.length_eq_one_iff.mp hb
        rw [hy]; rfl
    · have : shp (bP bs cores k) (lP bs cores k) (mP bs cores k) (rP cores k) = (bP bs cores k ++ lP bs cores k :: mP bs cores k) ++ [rP cores k] := by simp
      rw [this, List.getLast?_append]; rfl
  have hp := S.pos
  have hx0 := S.eq 0 hp
  have hxl := S.eq (shapes.length - 1) (by omega)
  unfold StaticallyLinked
  rw [List.head?_eq_getElem?, List.getLast?_eq_getElem?]
  constructor
  · rintro ⟨h1, h2, h3⟩
    refine ⟨fun k hk => ?_, ?_, ?_⟩
    · have := h3 k _ (S.eq k (by omega)) _ (S.eq (k + 1) hk)
      rw [(hd k (by omega) _ (S.eq k (by omega))).2, (hd (k + 1) hk _ (S.eq (k + 1) hk)).1] at this
      exact (Option.some.inj this).symm
    · have := h1 _ hx0
      rw [(hd 0 hp _ hx0).1] at this
      exact Option.some.inj this
    · have := h2 _ hxl
      rw [(hd _ (by omega) _ hxl).2] at this
      exact Option.some.inj this
  · rintro ⟨h1, h2, h3⟩
    refine ⟨fun x hx => ?_, fun x hx => ?_, fun k x hx y hy => ?_⟩
    · rw [(hd 0 hp x hx).1, h2]
    · rw [(hd _ (by omega) x hx).2, h3]
    · have hk : k + 1 < shapes.length := by
        by_contra hc
        rw [List.getElem?_eq_none (by omega)] at hy; cases hy
      rw [(hd k (by omega) x hx).2, (hd (k + 1) hk y hy).1, h1 k hk]

theorem mkSym_iff (ht : t.WF) (hv : cores.map (·.val) = t.cores) (hb : t.batch = bs) (hk : ∀ c ∈ cores, List.Forall₂ Knows c.sh c.val.shape) :
    (StaticallyLinked bs.isSome (cores.map (·.sh)) → ∃ s, mkSym bs cores none none = Except.ok s ∧ s.Is t) ∧
    (¬ StaticallyLinked bs.isSome (cores.map (·.sh)) → mkSym bs cores none none = Except.error Err.value) := by
  have S := cand_shaped ht hv hb hk
  have hB : BatchOk bs (cores.map (·.sh)).length (bP bs cores) := by
    intro x hx k hk'
    have hk2 : k < cores.length := by simpa using hk'
    have h1 := (cand_knows ht hv hb hk hk2).1
    have hx' : t.batch = some x := by rw [hb]; exact hx
    rw [TT.bpre, hx'] at h1
    generalize bP bs cores k = bk at h1 ⊢
    obtain ⟨y, ys, hy, hys, rfl⟩ := List.forall₂_cons_right_iff.mp h1
    exact ⟨y, rfl, hy⟩
  obtain ⟨v, e, hvi⟩ := coresValidS_eq S hB (shape := none) (ranks := none) (fun _ _ => rfl) (fun _ _ => rfl)
  rw [← linked_iff S] at hvi
  have hm : mkSym bs cores none none = if v = true then Except.ok (cand bs cores) else Except.error Err.value := by
    unfold mkSym
    rw [require_pos (by simp), R.ok_bind]
    show (coresValidS (off bs) bs (cores.map (·.sh)) none none >>= _) = _
    rw [e, R.ok_bind]; rfl
  refine ⟨fun hl => ⟨cand bs cores, ?_, ?_⟩, fun hl => ?_⟩
  · rw [hm, if_pos (hvi.mpr hl)]
  · obtain ⟨a1, a2, a3⟩ := (linked_iff S).mp hl
    rw [List.length_map] at a1 a3
    exact cand_is ht hv hb hk a1 a2 a3
  · rw [hm, if_neg (fun hc => hl (hvi.mp hc))]

end

end Static

end T3f
