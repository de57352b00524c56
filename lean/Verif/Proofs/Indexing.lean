import Verif.Proofs.BatchItem

/-!
# Subscripting all dimensions: the loop with a pending remainder
-/

namespace T3f

variable {K : Type}

/-! ## Selections -/

theorem selShape_append (l l' : List Sel) : selShape (l ++ l') = selShape l ++ selShape l' := by
  induction l with
  | nil => rfl
  | cons x l ih => cases x <;> simp [selShape, ih]

theorem selIdx_append (l l' : List Sel) (i i' : List ℕ) (h : i.length = (selShape l).length) :
    selIdx (l ++ l') (i ++ i') = selIdx l i ++ selIdx l' i' := by
  induction l generalizing i with
  | nil => simp [selShape] at h; subst h; simp [selIdx]
  | cons x l ih =>
    cases x with
    | one p => simp only [List.cons_append, selIdx, ih i h]
    | many ps =>
      cases i with
      | nil => simp [selShape] at h
      | cons j i => simp only [List.cons_append, selIdx, List.headD_cons, List.tail_cons,
          ih i (by simpa [selShape] using h)]

theorem selIdx_length (l : List Sel) (i : List ℕ) : (selIdx l i).length = l.length := by
  induction l generalizing i with
  | nil => rfl
  | cons x l ih => cases x <;> simp [selIdx, ih]

theorem resolveIx_length {s : List ℕ} {sp : List Ix} {l : List Sel} (h : resolveIx s sp = Except.ok l) :
    l.length = s.length := by
  induction s generalizing sp l with
  | nil =>
    cases sp with
    | nil => simp [resolveIx] at h; subst h; rfl
    | cons => simp [resolveIx] at h
  | cons n s ih =>
    cases sp with
    | nil => simp [resolveIx_nil] at h; subst h; simp [allSel]
    | cons ix sp =>
      rw [resolveIx_cons] at h
      cases h1 : resolve1 n ix with
      | error => simp [h1] at h
      | ok x =>
        cases h2 : resolveIx s sp with
        | error => simp [h1, h2] at h
        | ok l' => simp [h1, h2] at h; subst h; simp [ih h2]

theorem resolveIx_getD {s : List ℕ} {sp : List Ix} {l : List Sel} (h : resolveIx s sp = Except.ok l)
    (hl : sp.length = s.length) (i : ℕ) (hi : i < s.length) (dx : Sel) (di : Ix) (dn : ℕ) :
    resolve1 (s.getD i dn) (sp.getD i di) = Except.ok (l.getD i dx) := by
  induction s generalizing sp l i with
  | nil => simp at hi
  | cons n s ih =>
    cases sp with
    | nil => simp at hl
    | cons ix sp =>
      rw [resolveIx_cons] at h
      cases h1 : resolve1 n ix with
      | error => simp [h1] at h
      | ok x =>
        cases h2 : resolveIx s sp with
        | error => simp [h1, h2] at h
        | ok l' =>
          simp [h1, h2] at h; subst h
          cases i with
          | zero => simpa using h1
          | succ i => simpa using ih h2 (by simpa using hl) i (by simpa using hi)

theorem selIdx_valid {s : List ℕ} {sp : List Ix} {l : List Sel} (h : resolveIx s sp = Except.ok l)
    {i : List ℕ} (hi : Valid (selShape l) i) : Valid s (selIdx l i) := by
  induction s generalizing sp l i with
  | nil =>
    cases sp with
    | nil => simp [resolveIx] at h; subst h; trivial
    | cons => simp [resolveIx] at h
  | cons n s ih =>
    cases sp with
    | nil =>
      rw [resolveIx_nil] at h; cases h
      rw [selShape_allSel] at hi
      rw [selIdx_allSel hi]; exact hi
    | cons ix sp =>
      rw [resolveIx_cons] at h
      cases h1 : resolve1 n ix with
      | error => simp [h1] at h
      | ok x =>
        cases h2 : resolveIx s sp with
        | error => simp [h1, h2] at h
        | ok l' =>
          simp [h1, h2] at h; subst h
          have hb := resolve1_inBounds h1
          cases x with
          | one p => exact (valid_cons _ _ _ _).2 ⟨hb, ih h2 hi⟩
          | many ps =>
            obtain ⟨x, j, rfl, hx, hj⟩ := (valid_cons_iff _ _ _).1 hi
            refine (valid_cons _ _ _ _).2 ⟨?_, ih h2 hj⟩
            rw [List.headD_cons, List.getD_eq_getElem _ _ hx]
            exact hb _ (List.getElem_mem _)

/-- Which items drop their axis. -/
theorem resolve1_collapse {n : ℕ} {ix : Ix} {x : Sel} (h : resolve1 n ix = Except.ok x) :
    doCollapseDim ix = true ↔ ∃ p, x = .one p := by
  cases ix with
  | all => simp [resolve1] at h; subst h; simp [doCollapseDim]
  | int i =>
    simp only [resolve1] at h
    cases hi : intPosition n i <;> simp [hi] at h
    subst h; simp [doCollapseDim]
  | slice a b c =>
    simp only [resolve1] at h
    split_ifs at h
    simp at h; subst h; simp [doCollapseDim]

/-! ## Partial products -/

variable [CommRing K]

/-- Product of the matrices selected from the new cores. -/
def LVec (rk : ℕ → ℕ) (L : List (Tensor K)) (q idx : List ℕ) (b : ℕ) : K :=
  lprod rk (fun k a b => (L.getD k default).get (q ++ [a, idx.getD k 0, b])) L.length b

/-- Product of the first `i` matrices selected from the old cores. -/
def SVec (t : TT K) (p m : List ℕ) (i b : ℕ) : K :=
  lprod t.rank (fun k a b => (t.core k).get (p ++ [a, m.getD k 0, b])) i b

structure LInv (P : List ℕ) (rk : ℕ → ℕ) (sh : List ℕ) (L : List (Tensor K)) : Prop where
  len : L.length = sh.length
  r0 : rk 0 = 1
  rpos : ∀ k ≤ L.length, 0 < rk k
  shape : ∀ k < L.length, (L.getD k default).shape = P ++ [rk k, sh.getD k 0, rk (k + 1)]

theorem LInv.snoc {P : List ℕ} {rk : ℕ → ℕ} {sh : List ℕ} {L : List (Tensor K)} (h : LInv P rk sh L)
    (C : Tensor K) (n r' : ℕ) (hr' : 0 < r') (hC : C.shape = P ++ [rk L.length, n, r']) :
    LInv P (Function.update rk (L.length + 1) r') (sh ++ [n]) (L ++ [C]) ∧
    ∀ q idx j b, idx.length = sh.length →
      LVec (Function.update rk (L.length + 1) r') (L ++ [C]) q (idx ++ [j]) b =
        ∑ a ∈ Finset.range (rk L.length), LVec rk L q idx a * C.get (q ++ [a, j, b]) := by
  have hl := h.len
  have hrk : ∀ k ≤ L.length, Function.update rk (L.length + 1) r' k = rk k := fun k hk => by
    rw [Function.update_of_ne (by omega)]
  refine ⟨⟨by simp [hl], by rw [hrk 0 (by omega), h.r0], ?_, ?_⟩, ?_⟩
  · intro k hk
    rw [List.length_append, List.length_singleton] at hk
    rcases Nat.lt_or_ge L.length k with h1 | h1
    · rw [show k = L.length + 1 by omega, Function.update_self]; exact hr'
    · rw [hrk k h1]; exact h.rpos k h1
  · intro k hk
    rw [List.length_append, List.length_singleton] at hk
    rcases Nat.lt_or_ge k L.length with h1 | h1
    · rw [List.getD_append _ _ _ _ h1, List.getD_append _ _ _ _ (by omega), hrk k h1.le, hrk (k + 1) h1]
      exact h.shape k h1
    · obtain rfl : k = L.length := by omega
      rw [List.getD_append_right _ _ _ _ (by omega), List.getD_append_right _ _ _ _ (by omega), hrk _ le_rfl,
        Function.update_self, hl]
      simpa [hl] using hC
  · intro q idx j b hi
    rw [LVec, List.length_append, List.length_singleton, lprod, hrk _ le_rfl]
    refine Finset.sum_congr rfl fun a ha => ?_
    have ha' : a < rk L.length := by simpa using ha
    congr 1
    · refine lprod_congr (fun k hk => hrk k hk.le) (fun k hk x y _ _ => ?_) (by rw [hrk _ le_rfl]; exact ha')
      rw [List.getD_append _ _ _ _ hk, List.getD_append _ _ _ _ (by omega)]
    · rw [List.getD_append_right _ _ _ _ (by omega), List.getD_append_right _ _ _ _ (by omega), hi, hl]
      simp

/-- The loop invariant; `src` translates the batch index. -/
def GInv (P : List ℕ) (src : List ℕ → List ℕ) (t : TT K) (l : List Sel) (i : ℕ)
    (st : List (Tensor K) × Option (Tensor K)) : Prop :=
  ∃ rk, LInv P rk (selShape (l.take i)) st.1 ∧
    match st.2 with
    | none => rk st.1.length = t.rank i ∧
        ∀ q idx b, Valid P q → Valid (selShape (l.take i)) idx → b < t.rank i →
          LVec rk st.1 q idx b = SVec t (src q) (selIdx (l.take i) idx) i b
    | some r => r.shape = P ++ [rk st.1.length, t.rank i] ∧
        ∀ q idx b, Valid P q → Valid (selShape (l.take i)) idx → b < t.rank i →
          ∑ a ∈ Finset.range (rk st.1.length), LVec rk st.1 q idx a * r.get (q ++ [a, b]) =
            SVec t (src q) (selIdx (l.take i) idx) i b

theorem GInv.zero (P : List ℕ) (src : List ℕ → List ℕ) {t : TT K} (h : t.WF) (l : List Sel) :
    GInv P src t l 0 ([], none) := by
  refine ⟨fun _ => 1, ⟨rfl, rfl, fun _ _ => Nat.one_pos, fun k hk => absurd hk (by simp)⟩, ?_⟩
  exact ⟨h.rank_first.symm, fun q idx b _ _ _ => rfl⟩

theorem SVec_succ (t : TT K) (p : List ℕ) (m : List ℕ) (i b x : ℕ) (hm : m.length = i) :
    SVec t p (m ++ [x]) (i + 1) b =
      ∑ a ∈ Finset.range (t.rank i), SVec t p m i a * (t.core i).get (p ++ [a, x, b]) := by
  rw [SVec, lprod]
  refine Finset.sum_congr rfl fun a _ => ?_
  congr 1
  · exact lprod_congr' fun k hk => by
      funext x y; rw [List.getD_append _ _ _ _ (by omega)]
  · rw [List.getD_append_right _ _ _ _ (by omega), hm]; simp

section step
variable {P : List ℕ} {src : List ℕ → List ℕ} {t : TT K} {l : List Sel} {i : ℕ} {L : List (Tensor K)}

theorem take_succ_sel (hi : i < l.length) {x : Sel} (hx : l.getD i (.one 0) = x) :
    l.take (i + 1) = l.take i ++ [x] := by
  rw [List.take_add_one, List.getElem?_eq_getElem hi]
  rw [List.getD_eq_getElem _ _ hi] at hx
  simp [hx]

/-- Integer item, no remainder pending. -/
theorem GInv.one_none (hi : i < l.length) {p : ℕ} (hx : l.getD i (.one 0) = .one p)
    (h : GInv P src t l i (L, none)) (S : Tensor K) (hS : S.shape = P ++ [t.rank i, t.rank (i + 1)])
    (vS : ∀ q a b, Valid P q → a < t.rank i → b < t.rank (i + 1) →
      S.get (q ++ [a, b]) = (t.core i).get (src q ++ [a, p, b])) :
    GInv P src t l (i + 1) (L, some S) := by
  obtain ⟨rk, hL, hr, hv⟩ := h
  have ht := take_succ_sel hi hx
  have hsh : selShape (l.take (i + 1)) = selShape (l.take i) := by
    rw [ht, selShape_append]; simp [selShape]
  refine ⟨rk, hsh ▸ hL, by rw [hS]; simp only [hr], ?_⟩
  intro q idx b hq hidx hb
  rw [hsh] at hidx
  have : selIdx (l.take (i + 1)) idx = selIdx (l.take i) idx ++ [p] := by
    have := selIdx_append (l.take i) [.one p] idx [] hidx.length_eq
    rw [ht]; simpa [selIdx] using this
  rw [this, SVec_succ _ _ _ _ _ _ (by rw [selIdx_length]; simp; omega), hr]
  refine Finset.sum_congr rfl fun a ha => ?_
  have ha' : a < t.rank i := by simpa using ha
  rw [hv q idx a hq hidx ha', vS q a b hq ha' hb]

/-- Integer item, remainder pending. -/
theorem GInv.one_some (hi : i < l.length) {p : ℕ} (hx : l.getD i (.one 0) = .one p) {r : Tensor K}
    (h : GInv P src t l i (L, some r)) (S T : Tensor K)
    (vS : ∀ q a b, Valid P q → a < t.rank i → b < t.rank (i + 1) →
      S.get (q ++ [a, b]) = (t.core i).get (src q ++ [a, p, b]))
    (sT : ∀ x, r.shape = P ++ [x, t.rank i] → T.shape = P ++ [x, t.rank (i + 1)])
    (vT : ∀ q a b, Valid P q → T.get (q ++ [a, b]) =
      ∑ c ∈ Finset.range (t.rank i), r.get (q ++ [a, c]) * S.get (q ++ [c, b])) :
    GInv P src t l (i + 1) (L, some T) := by
  obtain ⟨rk, hL, hr, hv⟩ := h
  have ht := take_succ_sel hi hx
  have hsh : selShape (l.take (i + 1)) = selShape (l.take i) := by
    rw [ht, selShape_append]; simp [selShape]
  refine ⟨rk, hsh ▸ hL, sT _ hr, ?_⟩
  intro q idx b hq hidx hb
  rw [hsh] at hidx
  have : selIdx (l.take (i + 1)) idx = selIdx (l.take i) idx ++ [p] := by
    have := selIdx_append (l.take i) [.one p] idx [] hidx.length_eq
    rw [ht]; simpa [selIdx] using this
  rw [this, SVec_succ _ _ _ _ _ _ (by rw [selIdx_length]; simp; omega)]
  calc _ = ∑ a ∈ Finset.range (rk L.length), ∑ c ∈ Finset.range (t.rank i),
        LVec rk L q idx a * r.get (q ++ [a, c]) * (t.core i).get (src q ++ [c, p, b]) := by
        refine Finset.sum_congr rfl fun a _ => ?_
        rw [vT q a b hq, Finset.mul_sum]
        refine Finset.sum_congr rfl fun c hc => ?_
        rw [vS q c b hq (by simpa using hc) hb, mul_assoc]
    _ = _ := by
        rw [Finset.sum_comm]
        refine Finset.sum_congr rfl fun c hc => ?_
        rw [← hv q idx c hq hidx (by simpa using hc), Finset.sum_mul]

theorem selIdx_snoc_many {l : List Sel} {ps : List ℕ} {idx : List ℕ} (hidx : idx.length = (selShape l).length)
    (j : ℕ) : selIdx (l ++ [.many ps]) (idx ++ [j]) = selIdx l idx ++ [ps.getD j 0] := by
  rw [selIdx_append _ _ _ _ hidx]; rfl

/-- Slice item, no remainder pending. -/
theorem GInv.many_none (hi : i < l.length) {ps : List ℕ} (hx : l.getD i (.one 0) = .many ps)
    (hpos : 0 < t.rank (i + 1))
    (h : GInv P src t l i (L, none)) (S : Tensor K)
    (hS : S.shape = P ++ [t.rank i, ps.length, t.rank (i + 1)])
    (vS : ∀ q a j b, Valid P q → a < t.rank i → j < ps.length → b < t.rank (i + 1) →
      S.get (q ++ [a, j, b]) = (t.core i).get (src q ++ [a, ps.getD j 0, b])) :
    GInv P src t l (i + 1) (L ++ [S], none) := by
  obtain ⟨rk, hL, hr, hv⟩ := h
  have hr : rk L.length = t.rank i := hr
  have ht := take_succ_sel hi hx
  have hsh : selShape (l.take (i + 1)) = selShape (l.take i) ++ [ps.length] := by
    rw [ht, selShape_append]; simp [selShape]
  obtain ⟨hL', hv'⟩ := hL.snoc S ps.length (t.rank (i + 1)) hpos (by rw [hS]; simp only [hr])
  refine ⟨_, hsh ▸ hL', by simp, ?_⟩
  intro q idx b hq hidx hb
  rw [hsh] at hidx
  obtain ⟨idx, j', rfl, hI, hj'⟩ := valid_append_iff.1 hidx
  clear hidx
  rename' hI => hidx
  obtain ⟨j, rfl, hj⟩ := (valid_singleton _ _).1 hj'
  rw [ht, selIdx_snoc_many hidx.length_eq, SVec_succ _ _ _ _ _ _ (by rw [selIdx_length]; simp; omega),
    hv' _ _ _ _ hidx.length_eq]
  simp only [hr]
  refine Finset.sum_congr rfl fun a ha => ?_
  have ha' : a < t.rank i := by simpa using ha
  rw [hv q idx a hq hidx ha', vS q a j b hq ha' hj hb]

/-- Slice item, remainder pending. -/
theorem GInv.many_some (hi : i < l.length) {ps : List ℕ} (hx : l.getD i (.one 0) = .many ps)
    (hpos : 0 < t.rank (i + 1)) {r : Tensor K}
    (h : GInv P src t l i (L, some r)) (S T : Tensor K)
    (vS : ∀ q a j b, Valid P q → a < t.rank i → j < ps.length → b < t.rank (i + 1) →
      S.get (q ++ [a, j, b]) = (t.core i).get (src q ++ [a, ps.getD j 0, b]))
    (sT : ∀ x, r.shape = P ++ [x, t.rank i] → T.shape = P ++ [x, ps.length, t.rank (i + 1)])
    (vT : ∀ q a j b, Valid P q → T.get (q ++ [a, j, b]) =
      ∑ c ∈ Finset.range (t.rank i), r.get (q ++ [a, c]) * S.get (q ++ [c, j, b])) :
    GInv P src t l (i + 1) (L ++ [T], none) := by
  obtain ⟨rk, hL, hr, hv⟩ := h
  have ht := take_succ_sel hi hx
  have hsh : selShape (l.take (i + 1)) = selShape (l.take i) ++ [ps.length] := by
    rw [ht, selShape_append]; simp [selShape]
  obtain ⟨hL', hv'⟩ := hL.snoc T ps.length (t.rank (i + 1)) hpos (sT _ hr)
  refine ⟨_, hsh ▸ hL', by simp, ?_⟩
  intro q idx b hq hidx hb
  rw [hsh] at hidx
  obtain ⟨idx, j', rfl, hI, hj'⟩ := valid_append_iff.1 hidx
  clear hidx
  rename' hI => hidx
  obtain ⟨j, rfl, hj⟩ := (valid_singleton _ _).1 hj'
  rw [ht, selIdx_snoc_many hidx.length_eq, SVec_succ _ _ _ _ _ _ (by rw [selIdx_length]; simp; omega),
    hv' _ _ _ _ hidx.length_eq]
  calc _ = ∑ a ∈ Finset.range (rk L.length), ∑ c ∈ Finset.range (t.rank i),
        LVec rk L q idx a * r.get (q ++ [a, c]) * (t.core i).get (src q ++ [c, ps.getD j 0, b]) := by
        refine Finset.sum_congr rfl fun a _ => ?_
        rw [vT q a j b hq, Finset.mul_sum]
        refine Finset.sum_congr rfl fun c hc => ?_
        rw [vS q c j b hq (by simpa using hc) hj hb, mul_assoc]
    _ = _ := by
        rw [Finset.sum_comm]
        refine Finset.sum_congr rfl fun c hc => ?_
        rw [← hv q idx c hq hidx (by simpa using hc), Finset.sum_mul]

end step

/-! ## After the loop -/

/-- Chain and entries from the final list of cores. -/
theorem finish_none {bs : Option ℕ} (hbs : bs ≠ some 0) {src : List ℕ → List ℕ} {t : TT K} (h : t.WF)
    {l : List Sel} (hl : l.length = t.ndims) (hne : selShape l ≠ []) {L : List (Tensor K)}
    (hg : GInv bs.toList src t l t.ndims (L, none)) :
    ∃ rk, Chain bs L rk (fun k => [(selShape l).getD k 0]) 1 ∧ L.length = (selShape l).length ∧
      ∀ q idx, Valid bs.toList q → Valid (selShape l) idx →
        (chainTT bs L rk (fun k => [(selShape l).getD k 0]) 1).entry q (tIdx idx) =
          t.entry (src q) (tIdx (selIdx l idx)) := by
  obtain ⟨rk, hL, hr, hv⟩ := hg
  have ht : l.take t.ndims = l := by rw [← hl, List.take_length]
  have hr' : rk L.length = 1 := hr.trans h.rank_last
  rw [ht] at hL hv
  have hlen := hL.len
  have hch : Chain bs L rk (fun k => [(selShape l).getD k 0]) 1 :=
    ⟨by rw [hlen]; exact List.length_pos_iff.2 hne, hL.r0, hr', hL.rpos, Or.inl rfl, fun _ _ => rfl,
      fun k hk => hL.shape k hk, hbs⟩
  refine ⟨rk, hch, hlen, ?_⟩
  intro q idx hq hidx
  rw [hch.entry_eq, TT.entry]
  exact hv q idx 0 hq hidx (by rw [h.rank_last]; omega)

theorem finish_some {bs : Option ℕ} {src : List ℕ → List ℕ} {t : TT K} (h : t.WF)
    {l : List Sel} (hl : l.length = t.ndims) (hne : selShape l ≠ []) {L : List (Tensor K)} {r : Tensor K}
    (hg : GInv bs.toList src t l t.ndims (L, some r)) :
    ∃ Li last x y n, L = Li ++ [last] ∧ last.shape = bs.toList ++ [x, n, y] ∧
      r.shape = bs.toList ++ [y, 1] ∧
      ∀ T : Tensor K, T.shape = bs.toList ++ [x, n, 1] →
        (∀ q a j b, Valid bs.toList q → T.get (q ++ [a, j, b]) =
          ∑ c ∈ Finset.range y, last.get (q ++ [a, j, c]) * r.get (q ++ [c, b])) →
        GInv bs.toList src t l t.ndims (Li ++ [T], none) := by
  obtain ⟨rk, hL, hr, hv⟩ := hg
  have ht : l.take t.ndims = l := by rw [← hl, List.take_length]
  rw [ht] at hL hv
  have hlen := hL.len
  have hpos : 0 < L.length := by rw [hlen]; exact List.length_pos_iff.2 hne
  obtain ⟨Li, last, rfl⟩ : ∃ Li last, L = Li ++ [last] :=
    ⟨L.dropLast, L.getLast (List.length_pos_iff.1 hpos), (List.dropLast_append_getLast _).symm⟩
  dsimp only at hL hr hv hlen
  have hll : (Li ++ [last]).length = Li.length + 1 := by simp
  rw [hll] at hr hlen hv
  obtain ⟨sh, n, hsh⟩ : ∃ sh n, selShape l = sh ++ [n] :=
    ⟨(selShape l).dropLast, (selShape l).getLast hne, (List.dropLast_append_getLast _).symm⟩
  have hshl : sh.length = Li.length := by rw [hsh] at hlen; simp at hlen; omega
  have hLi : LInv bs.toList rk sh Li := by
    refine ⟨hshl.symm, hL.r0, fun k hk => hL.rpos k (by rw [hll]; omega), fun k hk => ?_⟩
    have := hL.shape k (by rw [hll]; omega)
    rw [List.getD_append _ _ _ _ hk, hsh, List.getD_append _ _ _ _ (by omega)] at this
    exact this
  have hlast : last.shape = bs.toList ++ [rk Li.length, n, rk (Li.length + 1)] := by
    have := hL.shape Li.length (by rw [hll]; omega)
    rw [List.getD_append_right _ _ _ _ le_rfl, hsh, List.getD_append_right _ _ _ _ (by omega)] at this
    simpa [hshl] using this
  refine ⟨Li, last, rk Li.length, rk (Li.length + 1), n, rfl, hlast, by rw [hr, h.rank_last], ?_⟩
  intro T sT vT
  obtain ⟨hL', hv'⟩ := hLi.snoc T n 1 one_pos sT
  obtain ⟨_, hv''⟩ := hLi.snoc last n (rk (Li.length + 1)) (hL.rpos _ (by rw [hll])) hlast
  refine ⟨_, by rw [ht, hsh]; exact hL', by simp [h.rank_last], ?_⟩
  intro q idx b hq hidx hb
  rw [ht, ← hv q idx b hq (by rw [ht] at hidx; exact hidx) hb]
  rw [ht, hsh] at hidx
  obtain ⟨idx, j', rfl, hI, hj'⟩ := valid_append_iff.1 hidx
  clear hidx
  rename' hI => hidx
  obtain ⟨j, rfl, hj⟩ := (valid_singleton _ _).1 hj'
  simp only [Function.update_eq_self] at hv''
  rw [hv' _ _ _ _ hidx.length_eq]
  calc _ = ∑ a ∈ Finset.range (rk Li.length), ∑ c ∈ Finset.range (rk (Li.length + 1)),
        LVec rk Li q idx a * last.get (q ++ [a, j, c]) * r.get (q ++ [c, b]) := by
        refine Finset.sum_congr rfl fun a _ => ?_
        rw [vT q a j b hq, Finset.mul_sum]
        exact Finset.sum_congr rfl fun c _ => by rw [mul_assoc]
    _ = _ := by
        rw [Finset.sum_comm]
        refine Finset.sum_congr rfl fun c hc => ?_
        rw [hv'' _ _ _ _ hidx.length_eq, Finset.sum_mul]

end T3f
