import Verif.Proofs.Gather
import Verif.Proofs.Broadcast
import Verif.Proofs.FullGet
import Mathlib.Tactic.Ring

/-!
# `gather_nd` with index arrays that do not have two axes
-/

namespace T3f

variable {K : Type}

theorem forRange_returns {σ : Type} (P : ℕ → σ → Prop) {f : ℕ → σ → R σ} :
    ∀ {n a : ℕ} {s r : σ}, (∀ k s s', a ≤ k → k < a + n → P k s → f k s = Except.ok s' → P (k + 1) s') → P a s →
      forRange f a n s = Except.ok r → P (a + n) r
  | 0, a, s, r, _, hs, e => by
    obtain rfl := Except.ok.inj e
    exact hs
  | n + 1, a, s, r, hf, hs, e => by
    rw [forRange] at e
    cases h : f a s with
    | error x => rw [h] at e; cases e
    | ok s' =>
      rw [h, R.ok_bind] at e
      have := forRange_returns P (fun k s s' h1 h2 => hf k s s' (by omega) (by omega)) (hf a s s' le_rfl (by omega) hs h) e
      rwa [show a + 1 + n = a + (n + 1) by omega] at this

/-- `t[:, k]`: the second axis is dropped. -/
theorem column_gen (t : Tensor K) {n m k : ℕ} {s : List ℕ} (h : t.shape = n :: m :: s) :
    (k < m → ∃ C, column t k = Except.ok C ∧ C.shape = n :: s ∧ ∀ o l, Valid (n :: s) (o :: l) → C.get (o :: l) = t.get (o :: k :: l)) ∧
    (m ≤ k → column t k = Except.error Err.tf) := by
  constructor
  · intro hk
    have h2 : resolveIx t.shape [.all, .int (k : ℤ)] =
        Except.ok (Sel.many (List.range n) :: Sel.one k :: s.map fun n => Sel.many (List.range n)) := by
      simp [h, resolveIx, intPosition, hk]
    have h3 : ∀ s : List ℕ, selShape (s.map fun n => Sel.many (List.range n)) = s := by
      intro s
      induction s with
      | nil => rfl
      | cons a s ih => simp [selShape, ih]
    have h4 : ∀ (s l : List ℕ), Valid s l → selIdx (s.map fun n => Sel.many (List.range n)) l = l := by
      intro s
      induction s with
      | nil => intro l hl; rw [valid_nil_iff] at hl; subst hl; rfl
      | cons a s ih =>
        intro l hl
        obtain ⟨x, l, rfl, hx, hl⟩ := (valid_cons_iff _ _ _).1 hl
        simp [selIdx, ih l hl, hx]
    refine ⟨_, by simp [column, getItem, h2]; rfl, by simp [selShape, h3], fun o l hv => ?_⟩
    simp [selIdx, h4 s l hv.2, hv.1]
  · intro hk
    have h2 : resolveIx t.shape [.all, .int (k : ℤ)] = Except.error Err.tf := by
      have h1 : ¬ k < m := by omega
      have h3 : ¬ ((k : ℤ) < 0) := by omega
      simp [h, resolveIx, intPosition, h1, h3]
    simp [column, getItem, h2]

theorem gather_gen (t : Tensor K) (idx : Tensor ℕ) {n a b : ℕ} {s is : List ℕ} (ht : t.shape = n :: s) (hi : idx.shape = a :: b :: is) :
    (∀ C, gather t idx = Except.ok C → C.shape = idx.shape ++ s ∧ ∀ j, Valid idx.shape j → idx.get j < n) ∧
    ((∀ j, Valid idx.shape j → idx.get j < n) → ∃ C, gather t idx = Except.ok C ∧ C.shape = idx.shape ++ s ∧
      ∀ j l, Valid idx.shape j → C.get (j ++ l) = t.get (idx.get j :: l)) := by
  have hc : (∀ k < (a :: b :: is).prod, idx.get (unravel (a :: b :: is) k) < n) ↔ ∀ j, Valid (a :: b :: is) j → idx.get j < n := by
    constructor
    · intro h j hj
      have := h _ (ravel_lt hj)
      rwa [unravel_ravel hj] at this
    · intro h k hk
      exact h _ (unravel_valid hk)
  unfold gather
  simp only [ht, hi]
  constructor
  · intro C e
    split_ifs at e with h
    exact ⟨by rw [← Except.ok.inj e], hc.1 h⟩
  · intro h
    refine ⟨_, if_pos (hc.2 h), rfl, fun j l hj => ?_⟩
    have hl : (a :: b :: is).length = j.length := hj.length_eq.symm
    simp only [hl, List.take_left', List.drop_left']

/-- Inversion of `bmatmul`. -/
theorem bmatmul_inv [Semiring K] {a b C : Tensor K} {pa pb : List ℕ} {m k k' n : ℕ} (ha : a.shape = pa.reverse ++ [m, k])
    (hb : b.shape = pb.reverse ++ [k', n]) (e : bmatmul a b = Except.ok C) : k = k' ∧ ∃ p, bshape pa pb = some p ∧ C.shape = p.reverse ++ [m, n] := by
  unfold bmatmul at e
  have e1 : a.shape.reverse = k :: m :: pa := by rw [ha]; simp
  have e2 : b.shape.reverse = n :: k' :: pb := by rw [hb]; simp
  simp only [e1, e2] at e
  cases hp : bshape pa pb with
  | none => rw [hp] at e; cases e
  | some p =>
    simp only [hp] at e
    split_ifs at e with hk
    exact ⟨hk, p, rfl, by rw [← Except.ok.inj e]⟩

/-- Operands with more than three axes are multiplied by the general rule. -/
theorem matmul_big [Semiring K] {a b : Tensor K} (h : 4 ≤ b.shape.length) : matmul a b = bmatmul a b := by
  unfold matmul
  split
  · rename_i e; rw [e] at h; simp at h
  · rename_i e; rw [e] at h; simp at h
  · rfl

variable [CommRing K]

/-- The shapes of the partial products. -/
def RankInv (t : TT K) (row : List ℕ) (idx : Tensor ℕ) (n m : ℕ) (ps : List ℕ) (k : ℕ) (el : Tensor K) : Prop :=
  (k ≤ m ∧ ∀ q < k, ∀ o l, Valid (n :: (ps ++ [t.ndims])) (o :: l) → idx.get (o :: q :: l) < row.getD q 0) ∧ (k = 0 ∧ el.shape = [n * (m * ps.prod), 1, t.rank 0] ∨
    ∃ D, el.shape = n :: ps ++ [D, 1, t.rank k] ∧
      (D = t.ndims ∧ (n * (m * ps.prod) = t.ndims ∨ n * (m * ps.prod) = 1) ∨ t.ndims = 1 ∧ D = n * (m * ps.prod)))

theorem rankInv_step {t : TT K} (h : t.WF) (hb : t.batch = none) {row : List ℕ} (hr : t.rawShape = [row]) {idx : Tensor ℕ} {n m : ℕ} {ps : List ℕ}
    (hs : idx.shape = n :: m :: (ps ++ [t.ndims])) {k : ℕ} (hk : k < t.ndims) {el el' : Tensor K} (hI : RankInv t row idx n m ps k el)
    (e : gatherStep t idx k el = Except.ok el') : RankInv t row idx n m ps (k + 1) el' := by
  have hcore := h.core_shape k hk
  have hmod : t.modes k = [row.getD k 0] := by simp [TT.modes, hr]
  rw [hmod] at hcore
  have hbp := bpre_none hb
  simp only [hbp, List.nil_append, List.cons_append] at hcore
  have hbb : t.isBatch = false := by simp [TT.isBatch, hb]
  obtain ⟨T, eT, sT, vT⟩ := transpose102 hcore
  simp only [gatherStep, h.pyCore hk, hbb, R.ok_bind, Bool.false_eq_true, if_false, eT] at e
  have hkm : k < m := by
    by_contra hc
    rw [(column_gen idx hs).2 (by omega)] at e
    cases e
  obtain ⟨C, eC, sC, vC⟩ := (column_gen idx hs).1 hkm
  rw [eC, R.ok_bind] at e
  have sC' : ∃ b is, C.shape = n :: b :: is := by
    rw [sC]
    cases ps <;> exact ⟨_, _, rfl⟩
  obtain ⟨b, is, sC''⟩ := sC'
  cases eG : gather T C with
  | error x => rw [eG] at e; cases e
  | ok G =>
    rw [eG, R.ok_bind] at e
    obtain ⟨sG, hrange⟩ := (gather_gen T C sT sC'').1 G eG
    rw [sC] at sG
    have sG' : G.shape = (t.ndims :: (n :: ps).reverse).reverse ++ [t.rank k, t.rank (k + 1)] := by rw [sG]; simp
    rw [matmul_big (by rw [sG]; simp)] at e
    refine ⟨⟨hkm, fun q hq o l hv => ?_⟩, Or.inr ?_⟩
    · rcases Nat.lt_succ_iff_lt_or_eq.1 hq with hq | rfl
      · exact hI.1.2 q hq o l hv
      · have := hrange (o :: l) (by rw [sC]; exact hv)
        rwa [vC o l hv] at this
    rcases hI.2 with ⟨rfl, hel⟩ | ⟨D, hel, hD⟩
    · obtain ⟨-, p, hp, sp⟩ := bmatmul_inv (pa := [n * (m * ps.prod)]) (m := 1) (k := t.rank 0) (by simpa using hel) sG' e
      simp only [bshape] at hp
      split_ifs at hp with h1 h2 h3
      · obtain rfl : _ = p := by simpa using hp
        exact ⟨t.ndims, by rw [sp]; simp [h1], Or.inl ⟨rfl, Or.inl h1⟩⟩
      · obtain rfl : _ = p := by simpa using hp
        exact ⟨t.ndims, by rw [sp]; simp, Or.inl ⟨rfl, Or.inr h2⟩⟩
      · obtain rfl : _ = p := by simpa using hp
        exact ⟨_, by rw [sp]; simp, Or.inr ⟨h3, rfl⟩⟩
    · obtain ⟨-, p, hp, sp⟩ := bmatmul_inv (pa := D :: (n :: ps).reverse) (m := 1) (k := t.rank k) (by rw [hel]; simp) sG' e
      simp only [bshape, bshape_self, Option.map_eq_map, Option.map_some] at hp
      refine ⟨D, ?_, hD⟩
      split_ifs at hp with h1 h2 h3
      · obtain rfl : _ = p := by simpa using hp
        rw [sp]; simp
      · obtain rfl : _ = p := by simpa using hp
        have : t.ndims = D := by
          rcases hD with ⟨h4, -⟩ | ⟨h4, -⟩
          · exact h4.symm
          · omega
        rw [sp]; simp [this]
      · obtain rfl : _ = p := by simpa using hp
        rw [sp]; simp

/-- The start of `gather_nd` after the checks. -/
theorem gatherStart {t : TT K} {row : List ℕ} (hr : t.rawShape = [row]) {idx : Tensor ℕ} {n m q : ℕ} {ps : List ℕ}
    (hq : q = if t.isBatch then t.ndims + 1 else t.ndims) (hs : idx.shape = n :: m :: (ps ++ [q])) :
    ∃ E : Tensor K, ttGatherNd t idx = (forRange (gatherStep t idx) 0 t.ndims E >>= fun el => reshape el ((n :: m :: ps).map some)) ∧
      E.shape = [n * (m * ps.prod), 1, 1] ∧ ∀ i, E.get i = 1 := by
  have hm : ¬ t.isMatrix := by simp [TT.isMatrix, hr]
  have hd : idx.shape.dropLast = n :: m :: ps := by
    rw [hs, show n :: m :: (ps ++ [q]) = (n :: m :: ps) ++ [q] by simp, List.dropLast_concat]
  have hl : pyLast idx.shape = Except.ok q := by
    rw [hs, show n :: m :: (ps ++ [q]) = (n :: m :: ps) ++ [q] by simp]
    unfold pyLast
    rw [List.getLast?_concat]
  have hres : resolveShape (n :: m :: ps).prod [none, some 1, some 1] = Except.ok [n * (m * ps.prod), 1, 1] :=
    resolveShape_infer [none, some 1, some 1] (n * (m * ps.prod)) _ rfl (by simp [knownProd]) (by simp [knownProd])
  have eE : reshape (ones (n :: m :: ps) : Tensor K) [none, some 1, some 1] = Except.ok ⟨[n * (m * ps.prod), 1, 1], fun _ => 1⟩ := by
    unfold reshape
    rw [show (ones (n :: m :: ps) : Tensor K).shape = n :: m :: ps from rfl, hres]
    rfl
  refine ⟨⟨[n * (m * ps.prod), 1, 1], fun _ => 1⟩, ?_, rfl, fun _ => rfl⟩
  unfold ttGatherNd
  rw [require_pos hm, hl, R.ok_bind, R.ok_bind, require_pos hq, R.ok_bind, hd]
  simp only [eE, R.ok_bind]

omit [CommRing K] in
theorem reshape_some_error (t : Tensor K) (s : List ℕ) (h : t.shape.prod ≠ s.prod) : reshape t (s.map some) = Except.error Err.tf := by
  have hc : (s.map some).count none = 0 := List.count_eq_zero.2 (by simp)
  have hk : knownProd (s.map some) = s.prod := by
    induction s with
    | nil => rfl
    | cons a s ih =>
      clear ih hc h
      induction s generalizing a with
      | nil => simp [knownProd]
      | cons b s ih => simp only [List.map_cons, knownProd, List.prod_cons] at ih ⊢; rw [ih b]
  unfold reshape resolveShape
  simp only [hc, hk]
  rw [if_neg (fun h' => h h'.symm)]
  rfl

/-- The shapes for which `gather_nd` returns. -/
def RankOk (d n m : ℕ) (ps : List ℕ) : Prop := n * ps.prod = 1 ∧ m = d ∨ d = 1 ∧ n * ps.prod ≤ 1 ∧ 1 ≤ m

/-- When `gather_nd` returns. -/
theorem gatherRank_returns {t : TT K} (h : t.WF) (hb : t.batch = none) {row : List ℕ} (hr : t.rawShape = [row]) {idx : Tensor ℕ} {n m : ℕ}
    {ps : List ℕ} (hs : idx.shape = n :: m :: (ps ++ [t.ndims])) {G : Tensor K} (e : ttGatherNd t idx = Except.ok G) :
    RankOk t.ndims n m ps ∧ ∀ k < t.ndims, ∀ o l, Valid (n :: (ps ++ [t.ndims])) (o :: l) → idx.get (o :: k :: l) < row.getD k 0 := by
  obtain ⟨E, eE, sE, -⟩ := gatherStart hr (by simp [TT.isBatch, hb]) hs
  rw [eE] at e
  cases eF : forRange (gatherStep t idx) 0 t.ndims E with
  | error x => rw [eF] at e; cases e
  | ok F =>
    rw [eF, R.ok_bind] at e
    have hF := forRange_returns (RankInv t row idx n m ps) (fun k s s' _ hk hI => rankInv_step h hb hr hs (by omega) hI)
      ⟨⟨Nat.zero_le _, fun q hq => absurd hq (Nat.not_lt_zero _)⟩, Or.inl ⟨rfl, by rw [sE, h.rank_first]⟩⟩ eF
    rw [zero_add] at hF
    obtain ⟨⟨hm, hrange⟩, hF⟩ := hF
    refine ⟨?_, hrange⟩
    have hpos := h.pos
    rcases hF with ⟨h0, -⟩ | ⟨D, sF, hD⟩
    · omega
    · have hprod : F.shape.prod = (n :: m :: ps).prod := by
        by_contra hne
        rw [reshape_some_error _ _ hne] at e
        cases e
      rw [sF, h.rank_last] at hprod
      simp only [List.cons_append, List.prod_cons, List.prod_append, List.prod_nil, mul_one] at hprod
      obtain ⟨A, hA⟩ : ∃ A, A = n * ps.prod := ⟨_, rfl⟩
      have hN : n * (m * ps.prod) = A * m := by rw [hA]; ring
      have hprod' : A * D = A * m := by rw [← hN, ← hprod, hA]; ring
      rw [hN] at hD
      unfold RankOk
      rw [← hA]
      have hm1 : 1 ≤ m := by omega
      rcases hD with ⟨rfl, h1 | h1⟩ | ⟨h1, rfl⟩
      · left
        have : A = 1 := by
          rcases A with _ | _ | A
          · simp at h1; omega
          · rfl
          · nlinarith
        subst this
        exact ⟨rfl, by omega⟩
      · left
        have h2 := Nat.eq_one_of_mul_eq_one_right h1
        have h3 := Nat.eq_one_of_mul_eq_one_left h1
        exact ⟨h2, by omega⟩
      · right
        refine ⟨h1, ?_, hm1⟩
        by_contra hA2
        have : A * m * 2 ≤ A * (A * m) := by
          calc A * m * 2 = 2 * (A * m) := by ring
            _ ≤ A * (A * m) := Nat.mul_le_mul_right _ (by omega)
        have : 0 < A * m := Nat.mul_pos (by omega) (by omega)
        omega

/-- The column of the index array that is read for position `j`. -/
def pickCol (d j : ℕ) : ℕ := if d = 1 then 0 else j

theorem bproj_pick {n d j o : ℕ} {ps l : List ℕ} (h : Valid (n :: ps) (o :: l)) :
    bproj (n :: ps ++ [d]) (o :: l ++ [j]) = o :: l ++ [pickCol d j] := by
  unfold bproj
  have hl : (o :: l).length = (n :: ps).length := h.length_eq
  rw [List.length_append, List.length_append, hl]
  simp only [List.length_singleton, Nat.sub_self, List.drop_zero]
  rw [List.zipWith_append hl.symm, zipWith_valid h]
  rfl

/-- The partial products and their values. -/
def RankVal (t : TT K) (idx : Tensor ℕ) (n N : ℕ) (ps : List ℕ) (k : ℕ) (el : Tensor K) : Prop :=
  ∃ pa, el.shape = pa.reverse ++ [1, t.rank k] ∧ bshape pa (t.ndims :: (n :: ps).reverse) = some (N :: (n :: ps).reverse) ∧
    ∀ o l j b, Valid (n :: ps) (o :: l) → j < N → b < t.rank k → el.get (bproj pa.reverse (o :: l ++ [j]) ++ [0, b]) =
      lprod t.rank (t.slice [] fun q => [idx.get (o :: q :: (l ++ [pickCol t.ndims j]))]) k b

theorem rankVal_step {t : TT K} (h : t.WF) (hb : t.batch = none) {row : List ℕ} (hr : t.rawShape = [row]) {idx : Tensor ℕ} {n m N : ℕ} {ps : List ℕ}
    (hs : idx.shape = n :: m :: (ps ++ [t.ndims])) {k : ℕ} (hk : k < t.ndims) (hkm : k < m) {el : Tensor K} (hI : RankVal t idx n N ps k el)
    (hrange : ∀ o l, Valid (n :: (ps ++ [t.ndims])) (o :: l) → idx.get (o :: k :: l) < row.getD k 0) (hN : N = t.ndims ∨ t.ndims = 1) :
    ∃ el', gatherStep t idx k el = Except.ok el' ∧ el'.shape = n :: ps ++ [N, 1, t.rank (k + 1)] ∧ RankVal t idx n N ps (k + 1) el' := by
  have hcore := h.core_shape k hk
  have hmod : t.modes k = [row.getD k 0] := by simp [TT.modes, hr]
  rw [hmod] at hcore
  have hbp := bpre_none hb
  simp only [hbp, List.nil_append, List.cons_append] at hcore
  have hbb : t.isBatch = false := by simp [TT.isBatch, hb]
  obtain ⟨T, eT, sT, vT⟩ := transpose102 hcore
  obtain ⟨C, eC, sC, vC⟩ := (column_gen idx hs).1 hkm
  have sC' : ∃ b is, C.shape = n :: b :: is := by
    rw [sC]
    cases ps <;> exact ⟨_, _, rfl⟩
  obtain ⟨b, is, sC''⟩ := sC'
  have hC : ∀ j, Valid C.shape j → C.get j < row.getD k 0 := by
    intro j hj
    rw [sC] at hj
    obtain ⟨o, l, rfl, ho, hl⟩ := (valid_cons_iff _ _ _).1 hj
    rw [vC o l hj]
    exact hrange o l hj
  obtain ⟨G, eG, sG, vG⟩ := (gather_gen T C sT sC'').2 hC
  obtain ⟨pa, sel, hpa, vel⟩ := hI
  have sG' : G.shape = (t.ndims :: (n :: ps).reverse).reverse ++ [t.rank k, t.rank (k + 1)] := by rw [sG, sC]; simp
  have eM := bmatmul_eq (a := el) (b := G) sel sG' hpa
  have hrev : (N :: (n :: ps).reverse).reverse = n :: ps ++ [N] := by simp
  have hrev' : (t.ndims :: (n :: ps).reverse).reverse = n :: ps ++ [t.ndims] := by simp
  have hlen : (N :: (n :: ps).reverse).length = ps.length + 2 := by simp
  rw [hrev, hrev', hlen] at eM
  refine ⟨_, by
    simp only [gatherStep, h.pyCore hk, hbb, R.ok_bind, Bool.false_eq_true, if_false, eT, eC, eG]
    rw [matmul_big (by rw [sG, sC]; simp), eM], by simp, N :: (n :: ps).reverse, by simp, ?_, ?_⟩
  · simp only [bshape, bshape_self, Option.map_eq_map, Option.map_some]
    rcases hN with rfl | h1
    · rw [if_pos rfl]
    · rw [h1]
      by_cases h2 : N = 1
      · simp [h2]
      · simp [h2]
  · intro o l j c hv hj hc
    have hl : l.length = ps.length := by simpa using hv.length_eq
    have hvj : Valid (n :: ps ++ [N]) (o :: l ++ [j]) := valid_append hv ⟨hj, trivial⟩
    rw [hrev, bproj_valid hvj]
    have e1 : (o :: l ++ [j] ++ [0, c]).take (ps.length + 2) = o :: l ++ [j] := by
      rw [show ps.length + 2 = (o :: l ++ [j]).length by simp [hl]]; exact List.take_left' rfl
    have e2 : (o :: l ++ [j] ++ [0, c]).getD (ps.length + 2) 0 = 0 := by
      rw [show ps.length + 2 = (o :: l ++ [j]).length by simp [hl], List.getD_append_right _ _ _ _ le_rfl]; simp
    have e3 : (o :: l ++ [j] ++ [0, c]).getD (ps.length + 2 + 1) 0 = c := by
      rw [show ps.length + 2 + 1 = (o :: l ++ [j]).length + 1 by simp [hl], List.getD_append_right _ _ _ _ (by omega)]; simp
    simp only [e1, e2, e3, bproj_pick hv]
    rw [lprod]
    refine Finset.sum_congr rfl fun a ha => ?_
    rw [Finset.mem_range] at ha
    have hpick : pickCol t.ndims j < t.ndims := by
      unfold pickCol
      have := h.pos
      split
      · omega
      · rcases hN with rfl | h1
        · exact hj
        · omega
    have hvp : Valid (n :: (ps ++ [t.ndims])) (o :: (l ++ [pickCol t.ndims j])) := ⟨hv.1, valid_append hv.2 ⟨hpick, trivial⟩⟩
    rw [vel o l j a hv hj ha, show o :: l ++ [pickCol t.ndims j] = o :: (l ++ [pickCol t.ndims j]) from rfl,
      vG _ _ (by rw [sC]; exact hvp), vC _ _ hvp, vT]
    rfl

/-- What `gather_nd` returns. -/
theorem gatherRank_spec {t : TT K} (h : t.WF) (hb : t.batch = none) {row : List ℕ} (hr : t.rawShape = [row]) {idx : Tensor ℕ} {n m : ℕ}
    {ps : List ℕ} (hs : idx.shape = n :: m :: (ps ++ [t.ndims])) (hok : RankOk t.ndims n m ps)
    (hrange : ∀ k < t.ndims, ∀ o l, Valid (n :: (ps ++ [t.ndims])) (o :: l) → idx.get (o :: k :: l) < row.getD k 0) :
    ∃ G, ttGatherNd t idx = Except.ok G ∧ G.shape = n :: m :: ps ∧ ∀ o j l, Valid (n :: m :: ps) (o :: j :: l) →
      G.get (o :: j :: l) = t.entry [] fun q => [idx.get (o :: q :: (l ++ [pickCol t.ndims j]))] := by
  obtain ⟨E, eE, sE, vE⟩ := gatherStart hr (by simp [TT.isBatch, hb]) hs
  have hpos := h.pos
  obtain ⟨N, hNdef⟩ : ∃ N, N = n * (m * ps.prod) := ⟨_, rfl⟩
  rw [← hNdef] at sE
  have hAm : N = n * ps.prod * m := by rw [hNdef]; ring
  have hN : N = t.ndims ∨ t.ndims = 1 := by
    rcases hok with ⟨h1, h2⟩ | ⟨h1, -⟩
    · left; rw [hAm, h1, one_mul, h2]
    · exact Or.inr h1
  have hdm : t.ndims ≤ m := by
    rcases hok with ⟨-, h2⟩ | ⟨h1, -, h2⟩ <;> omega
  have h0 : RankVal t idx n N ps 0 E := by
    refine ⟨[N], by rw [sE, h.rank_first]; rfl, ?_, fun o l j b _ _ hb' => ?_⟩
    · simp only [bshape, Option.map_eq_map, Option.map_some]
      rcases hN with rfl | h1
      · simp
      · by_cases h2 : N = 1
        · simp [h2, h1]
        · simp [h2, h1]
    · rw [h.rank_first] at hb'
      rw [vE, lprod, if_pos (by omega)]
  obtain ⟨F, eF, hF⟩ := forRange_inv (fun k el => RankVal t idx n N ps k el ∧ (0 < k → el.shape = n :: ps ++ [N, 1, t.rank k])) (gatherStep t idx)
    0 t.ndims E ⟨h0, fun h => absurd h (lt_irrefl _)⟩ (fun k el _ hk hI => by
      obtain ⟨el', e1, e2, e3⟩ := rankVal_step h hb hr hs (by omega) (by omega) hI.1 (hrange k (by omega)) hN
      exact ⟨el', e1, e3, fun _ => e2⟩)
  rw [zero_add] at hF
  have sF := hF.2 hpos
  rw [h.rank_last] at sF
  have hA : n * ps.prod = 1 ∨ n * ps.prod = 0 := by
    rcases hok with ⟨h1, -⟩ | ⟨-, h1, -⟩
    · exact Or.inl h1
    · omega
  have hsize : (n :: m :: ps).prod = F.shape.prod := by
    rw [sF]
    simp only [List.cons_append, List.prod_cons, List.prod_append, List.prod_nil, mul_one]
    rw [← mul_assoc n ps.prod N, ← hNdef, hAm]
    rcases hA with h1 | h1 <;> rw [h1] <;> simp
  obtain ⟨G, eG, sG, vG⟩ := reshape_spec F ((n :: m :: ps).map some) (n :: m :: ps) (resolveShape_some _ _ hsize)
  refine ⟨G, by rw [eE, eF, R.ok_bind, eG], sG, fun o j l hv => ?_⟩
  have hA1 : n * ps.prod = 1 := by
    rcases hA with h1 | h1
    · exact h1
    · have := hv.prod_pos
      simp only [List.prod_cons] at this
      rw [show n * (m * ps.prod) = n * ps.prod * m by ring, h1] at this
      omega
  have hNm : N = m := by rw [hAm, hA1, one_mul]
  have hn1 := Nat.eq_one_of_mul_eq_one_right hA1
  have hp1 := Nat.eq_one_of_mul_eq_one_left hA1
  have hv' : Valid (n :: ps) (o :: l) := ⟨hv.1, hv.2.2⟩
  have hj : j < N := hNm ▸ hv.2.1
  obtain ⟨pa, sel, hpa, vel⟩ := hF.1
  have hpa' : pa = N :: (n :: ps).reverse := by
    have := congrArg List.reverse (sF.symm.trans sel)
    rw [h.rank_last] at this
    simp at this
    simpa using this.symm
  subst hpa'
  have hfin := vel o l j 0 hv' hj (by rw [h.rank_last]; omega)
  have hrev : (N :: (n :: ps).reverse).reverse = n :: ps ++ [N] := by simp
  have hvN : Valid (n :: ps ++ [N]) (o :: l ++ [j]) := valid_append hv' ⟨hj, trivial⟩
  rw [hrev, bproj_valid hvN] at hfin
  rw [vG _ (o :: l ++ [j] ++ [0, 0]) ?_ ?_, hfin]
  · rfl
  · rw [sF, show n :: ps ++ [N, 1, 1] = n :: ps ++ [N] ++ [1, 1] by simp]
    exact valid_append hvN ⟨by omega, by omega, trivial⟩
  · have hl0 : ravel ps l = 0 := by
      have := ravel_lt hv.2.2
      omega
    have ho0 : o = 0 := by have := hv.1; omega
    have hll : (o :: l).length = (n :: ps).length := hv'.length_eq
    rw [sF, show o :: l ++ [j] ++ [0, 0] = o :: l ++ [j, 0, 0] by simp, ravel_append _ _ hll]
    simp [ravel_cons, hl0, ho0, hp1]

/-! ## Batches -/

omit [CommRing K] in
theorem stack1_gen (a b : Tensor K) {n c : ℕ} (ha : a.shape = [n, c]) (hb : b.shape = [n, c]) :
    ∃ Z, stack1 a b = Except.ok Z ∧ Z.shape = [n, 2, c] ∧ ∀ o x, Z.get [o, 0, x] = a.get [o, x] ∧ Z.get [o, 1, x] = b.get [o, x] := by
  refine ⟨⟨[n, 2, c], fun j => if j.getD 1 0 = 0 then a.get (j.eraseIdx 1) else b.get (j.eraseIdx 1)⟩, ?_, rfl, fun o x => ⟨rfl, rfl⟩⟩
  unfold stack1
  simp only [ha, hb, if_true]

omit [CommRing K] in
theorem gatherNd2_gen (t : Tensor K) (idx : Tensor ℕ) {n c q : ℕ} (hi : idx.shape = [n, c, q]) : gatherNd2 t idx = gatherNdAny t idx := by
  unfold gatherNd2
  split
  · rename_i e; rw [hi] at e; simp at e
  · rfl

omit [CommRing K] in
theorem gatherNdAny_inv {t C : Tensor K} {idx : Tensor ℕ} {n c q : ℕ} (hi : idx.shape = [n, c, q]) (e : gatherNdAny t idx = Except.ok C) :
    q ≤ t.shape.length ∧ C.shape = n :: c :: t.shape.drop q := by
  unfold gatherNdAny at e
  have h : idx.shape.reverse = [q, c, n] := by rw [hi]; rfl
  simp only [h] at e
  split_ifs at e with hk
  exact ⟨hk.1, by rw [← Except.ok.inj e]; rfl⟩

theorem gatherRank_batch_step {t : TT K} (h : t.WF) {B : ℕ} (hb : t.batch = some B) {row : List ℕ} (hr : t.rawShape = [row]) {idx : Tensor ℕ} {n m : ℕ}
    (hs : idx.shape = [n, m, t.ndims + 1]) {k : ℕ} (hk : k < t.ndims) {el el' : Tensor K} (e : gatherStep t idx k el = Except.ok el') :
    k + 1 < m ∧ t.ndims ≤ 3 ∧ ∃ G, G.shape = n :: 2 :: [B, row.getD k 0, t.rank k, t.rank (k + 1)].drop (t.ndims + 1) ∧ matmul el G = Except.ok el' := by
  have hcore := h.core_shape k hk
  have hmod : t.modes k = [row.getD k 0] := by simp [TT.modes, hr]
  rw [hmod] at hcore
  have hbp := bpre_some hb
  have hbb : t.isBatch = true := by simp [TT.isBatch, hb]
  simp only [hbp, List.nil_append, List.cons_append] at hcore
  obtain ⟨T, eT, sT, vT⟩ := transpose4 hcore
  simp only [gatherStep, h.pyCore hk, hbb, R.ok_bind, if_true, eT] at e
  have hkm : k + 1 < m := by
    by_contra hc
    cases e0 : column idx 0 with
    | error x => rw [e0] at e; cases e
    | ok C0 =>
      rw [e0, R.ok_bind, (column_gen idx (s := [t.ndims + 1]) hs).2 (by omega)] at e
      cases e
  obtain ⟨C0, eC0, sC0, -⟩ := (column_gen idx (k := 0) (s := [t.ndims + 1]) hs).1 (by omega)
  obtain ⟨C, eC, sC, -⟩ := (column_gen idx (s := [t.ndims + 1]) hs).1 hkm
  obtain ⟨Z, eZ, sZ, -⟩ := stack1_gen C0 C sC0 sC
  rw [eC0, R.ok_bind, eC, R.ok_bind, eZ, R.ok_bind, gatherNd2_gen T Z sZ] at e
  cases eG : gatherNdAny T Z with
  | error x => rw [eG] at e; cases e
  | ok G =>
    rw [eG, R.ok_bind] at e
    obtain ⟨h1, h2⟩ := gatherNdAny_inv sZ eG
    rw [sT] at h1 h2
    refine ⟨hkm, ?_, G, h2, e⟩
    simp at h1
    omega

omit [CommRing K] in
theorem forRange_succ_inv {σ : Type} {f : ℕ → σ → R σ} {a n : ℕ} {s r : σ} (e : forRange f a (n + 1) s = Except.ok r) :
    ∃ s', f a s = Except.ok s' ∧ forRange f (a + 1) n s' = Except.ok r := by
  rw [forRange] at e
  cases h : f a s with
  | error x => rw [h] at e; cases e
  | ok s' => exact ⟨s', rfl, by rwa [h, R.ok_bind] at e⟩

/-- Batches: `gather_nd` only returns for two elements of tensors with one axis. -/
theorem gatherRank_batch_returns {t : TT K} (h : t.WF) {B : ℕ} (hb : t.batch = some B) {row : List ℕ} (hr : t.rawShape = [row]) {idx : Tensor ℕ}
    {n m : ℕ} (hs : idx.shape = [n, m, t.ndims + 1]) {G : Tensor K} (e : ttGatherNd t idx = Except.ok G) : t.ndims = 1 ∧ n = 1 ∧ m = 2 := by
  obtain ⟨E, eE, sE, -⟩ := gatherStart (n := n) (m := m) (ps := []) hr (by simp [TT.isBatch, hb]) hs
  rw [eE] at e
  cases eF : forRange (gatherStep t idx) 0 t.ndims E with
  | error x => rw [eF] at e; cases e
  | ok F =>
    have hpos := h.pos
    obtain ⟨d, hd⟩ : ∃ d, t.ndims = d + 1 := ⟨t.ndims - 1, by omega⟩
    rw [hd] at eF
    obtain ⟨E1, e1, eF⟩ := forRange_succ_inv eF
    obtain ⟨hm, h3, G1, sG1, eM⟩ := gatherRank_batch_step h hb hr hs hpos e1
    obtain ⟨D1, eD1, sD1, -⟩ := matmul_bmatmul eM
    simp only [List.prod_nil, mul_one] at sE
    have hd3 : d = 0 ∨ d = 1 ∨ d = 2 := by omega
    rcases hd3 with rfl | rfl | rfl
    · rw [hd] at sG1
      obtain ⟨-, p, hp, -⟩ := bmatmul_inv (pa := [n * m]) (pb := [2, n]) (m := 1) (k := 1) (k' := t.rank 0) (n := t.rank (0 + 1)) (by simpa using sE)
        (by simpa using sG1) eD1
      refine ⟨by omega, ?_⟩
      have hN : n * m = 2 ∨ n * m = 1 := by
        simp only [bshape] at hp
        split_ifs at hp with h1 h2 h4
        · exact Or.inl h1
        · exact Or.inr h2
        · omega
      have hn : 0 < n := by
        rcases Nat.eq_zero_or_pos n with rfl | hn
        · simp at hN
        · exact hn
      have h5 : n * 2 ≤ n * m := Nat.mul_le_mul_left _ (by omega)
      have hn1 : n = 1 := by omega
      subst hn1
      omega
    · rw [hd] at sG1
      obtain ⟨h5, -⟩ := bmatmul_inv (pa := [n * m]) (pb := [n]) (m := 1) (k := 1) (k' := 2) (n := t.rank (0 + 1)) (by simpa using sE)
        (by simpa using sG1) eD1
      omega
    · rw [hd] at sG1
      obtain ⟨h5, p, hp, sp⟩ := bmatmul_inv (pa := [n * m]) (pb := []) (m := 1) (k := 1) (k' := n) (n := 2) (by simpa using sE)
        (by simpa using sG1) eD1
      obtain rfl : _ = p := by simpa [bshape] using hp
      obtain ⟨E2, e2, -⟩ := forRange_succ_inv eF
      obtain ⟨-, -, G2, sG2, eM2⟩ := gatherRank_batch_step h hb hr hs (by omega) e2
      obtain ⟨D2, eD2, -, -⟩ := matmul_bmatmul eM2
      rw [hd] at sG2
      obtain ⟨h6, -⟩ := bmatmul_inv (pa := [n * m]) (pb := []) (m := 1) (k := 2) (k' := n) (n := 2) (by rw [← sD1, sp])
        (by simpa using sG2) eD2
      omega

/-- The remaining case. -/
theorem gatherRank_batch_spec {t : TT K} (h : t.WF) {B : ℕ} (hb : t.batch = some B) {row : List ℕ} (hr : t.rawShape = [row]) {idx : Tensor ℕ}
    (hd : t.ndims = 1) (hs : idx.shape = [1, 2, 2]) (hrange : ∀ j < 2, idx.get [0, j, 0] < B ∧ idx.get [0, j, 1] < row.getD 0 0) :
    ∃ G, ttGatherNd t idx = Except.ok G ∧ G.shape = [1, 2] ∧
      ∀ j < 2, G.get [0, j] = t.entry [idx.get [0, j, 0]] fun _ => [idx.get [0, j, 1]] := by
  have hbb : t.isBatch = true := by simp [TT.isBatch, hb]
  obtain ⟨E, eE, sE, vE⟩ := gatherStart (n := 1) (m := 2) (ps := []) hr (by rw [hbb, hd]; rfl) hs
  have hk : 0 < t.ndims := h.pos
  have hcore := h.core_shape 0 hk
  have hmod : t.modes 0 = [row.getD 0 0] := by simp [TT.modes, hr]
  have hr0 := h.rank_first
  have hr1 : t.rank (0 + 1) = 1 := by have := h.rank_last; rwa [hd] at this
  rw [hmod] at hcore
  simp only [bpre_some hb, List.nil_append, List.cons_append, hr0, hr1] at hcore
  obtain ⟨T, eT, sT, vT⟩ := transpose4 hcore
  obtain ⟨C0, eC0, sC0, vC0⟩ := (column_gen idx (k := 0) (s := [2]) hs).1 (by omega)
  obtain ⟨C, eC, sC, vC⟩ := (column_gen idx (k := 0 + 1) (s := [2]) hs).1 (by omega)
  obtain ⟨Z, eZ, sZ, vZ⟩ := stack1_gen C0 C sC0 sC
  have hZ : ∀ j < 2, ∀ x < 2, Z.get [0, j, x] = idx.get [0, j, x] := by
    intro j hj x hx
    have hv : Valid [1, 2] [0, x] := ⟨by omega, hx, trivial⟩
    have : j = 0 ∨ j = 1 := by omega
    rcases this with rfl | rfl
    · rw [(vZ 0 x).1, vC0 0 [x] hv]
    · rw [(vZ 0 x).2, vC 0 [x] hv]
  have hrow : ∀ j < 2, gatherRow Z 2 [0, j] = [idx.get [0, j, 0], idx.get [0, j, 1]] := by
    intro j hj
    have e0 : gatherRow Z 2 [0, j] = [Z.get [0, j, 0], Z.get [0, j, 1]] := rfl
    rw [e0, hZ j hj 0 (by omega), hZ j hj 1 (by omega)]
  have hur : ∀ j < 2, unravel [1, 2] j = [0, j] := by
    intro j hj
    have : j = 0 ∨ j = 1 := by omega
    rcases this with rfl | rfl <;> rfl
  have eG : gatherNd2 T Z = Except.ok ⟨[1, 2, 1, 1], fun j => T.get (gatherRow Z 2 (j.take 2) ++ j.drop 2)⟩ := by
    rw [gatherNd2_gen T Z sZ]
    unfold gatherNdAny
    have : Z.shape.reverse = [2, 2, 1] := by rw [sZ]; rfl
    simp only [this, sT]
    rw [if_pos]
    · rfl
    · refine ⟨by simp, fun j hj x hx => ?_⟩
      have hj : j < 2 := by simpa using hj
      have e1 : ([2, 1] : List ℕ).reverse = [1, 2] := rfl
      rw [e1, hur j hj, hrow j hj]
      have : x = 0 ∨ x = 1 := by omega
      rcases this with rfl | rfl
      · exact (hrange j hj).1
      · exact (hrange j hj).2
  simp only [List.prod_nil, mul_one] at sE
  have eM := bmatmul_eq (a := E) (b := ⟨[1, 2, 1, 1], fun j => T.get (gatherRow Z 2 (j.take 2) ++ j.drop 2)⟩) (pa := [2]) (pb := [2, 1]) (p := [2, 1])
    (m := 1) (k := 1) (n := 1) (by rw [sE]; rfl) rfl (by simp [bshape])
  obtain ⟨M, eM'⟩ : ∃ M, bmatmul E ⟨[1, 2, 1, 1], fun j => T.get (gatherRow Z 2 (j.take 2) ++ j.drop 2)⟩ = Except.ok M := ⟨_, eM⟩
  have hM := Except.ok.inj (eM'.symm.trans eM)
  have sM : M.shape = [1, 2, 1, 1] := by rw [hM]; rfl
  obtain ⟨G, eG', sG, vG⟩ := reshape_spec M (([1, 2] : List ℕ).map some) [1, 2] (resolveShape_some _ _ (by rw [sM]; rfl))
  refine ⟨G, ?_, sG, fun j hj => ?_⟩
  · rw [eE, hd]
    simp only [forRange, gatherStep, h.pyCore hk, hbb, R.ok_bind, if_true, eT, eC0, eC, eZ, eG]
    rw [matmul_big (by simp), eM', R.ok_bind, R.ok_bind, eG']
  · rw [vG [0, j] [0, j, 0, 0] (by rw [sM]; exact ⟨by omega, hj, by omega, by omega, trivial⟩) (by rw [sM]; simp), hM]
    have hv : Valid [1, 2] [0, j] := ⟨by omega, hj, trivial⟩
    simp only [List.reverse_cons, List.reverse_nil, List.nil_append, List.cons_append, List.length_cons, List.length_nil, zero_add, Finset.sum_range_one]
    rw [vE, one_mul, show List.take (1 + 1) [0, j, 0, 0] = [0, j] from rfl, bproj_valid hv]
    show T.get (gatherRow Z 2 [0, j] ++ [0, 0]) = _
    rw [hrow j hj]
    show T.get [idx.get [0, j, 0], idx.get [0, j, 1], 0, 0] = _
    rw [vT, TT.entry, hd, lprod, hr0, Finset.sum_range_one, lprod, if_pos rfl, one_mul]
    rfl

end T3f
