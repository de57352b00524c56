import Verif.Model.Initializers
import Verif.Proofs.ChainEntry
import Verif.Proofs.FullGet
import Verif.Proofs.Valid

/-! # Initializers: construction of the cores -/

namespace T3f

variable {K : Type} [CommRing K]

omit [CommRing K] in
theorem rowsOf_getD (rows : List (List ℕ)) (d : ℕ) (h : ∀ row ∈ rows, row.length = d) :
    rowsOf (fun k => rows.map (·.getD k 0)) d rows.length = rows := by
  unfold rowsOf
  conv_rhs => rw [list_eq_range_map rows []]
  refine List.map_congr_left fun j hj => ?_
  have hj' : j < rows.length := by simpa using hj
  have hl : (rows.getD j []).length = d := h _ (by rw [List.getD_eq_getElem _ _ hj']; exact List.getElem_mem _)
  conv_rhs => rw [list_eq_range_map (rows.getD j []) 0, hl]
  refine List.map_congr_left fun k _ => ?_
  rw [List.getD_eq_getElem (rows.map _) _ (by simpa using hj'), List.getElem_map, List.getD_eq_getElem rows _ hj']

omit [CommRing K] in
theorem ranksOf_getD (rk : List ℕ) (d : ℕ) (h : rk.length = d + 1) : ranksOf (fun k => rk.getD k 0) d = rk := by
  unfold ranksOf
  conv_rhs => rw [list_eq_range_map rk 0, h]

omit [CommRing K] in
theorem fillCores_eq (g : ℕ → List ℕ → Tensor K) (pre : List ℕ) (rows : List (List ℕ)) (rk : List ℕ) (d : ℕ)
    (hrows : ∀ row ∈ rows, row.length = d) (hrk : rk.length = d + 1) :
    fillCores g pre rows rk d = Except.ok ((List.range d).map fun k =>
      g k (pre ++ rk.getD k 0 :: (rows.map (·.getD k 0) ++ [rk.getD (k + 1) 0]))) := by
  refine mapRange_eq _ _ _ fun k hk => ?_
  rw [pyGet_of_lt rk k 0 (by omega), R.ok_bind,
    mapM_ok (fun row => pyGet row k) (fun row => row.getD k 0) rows
      (fun row hrow => pyGet_of_lt row k 0 (by rw [hrows row hrow]; exact hk)), R.ok_bind,
    pyGet_of_lt rk (k + 1) 0 (by omega), R.ok_bind]
  rfl

/-- The constructor call at the end of an initializer. -/
def mkAny (bs : Option ℕ) (cores : List (Tensor K)) (sh : ShapeArg) (rk : List ℕ) : R (TT K) :=
  match bs with
  | none => mkTT cores sh (some rk)
  | some n => mkBatch cores sh (some rk) (some n)

/-- The object made of cores of the given shapes. -/
def filled (g : ℕ → List ℕ → Tensor K) (bs : Option ℕ) (rows : List (List ℕ)) (rk : List ℕ) (d : ℕ) : TT K :=
  ⟨(List.range d).map fun k => g k (bs.toList ++ rk.getD k 0 :: (rows.map (·.getD k 0) ++ [rk.getD (k + 1) 0])),
    rows, rk, bs⟩

section
variable {g : ℕ → List ℕ → Tensor K} {bs : Option ℕ} {rows : List (List ℕ)} {rk : List ℕ} {d : ℕ}

theorem filled_chain (hg : ∀ i s, (g i s).shape = s) (hd : 0 < d) (hnm : rows.length = 1 ∨ rows.length = 2)
    (hrk : rk.length = d + 1) (hpos : ∀ r ∈ rk, 0 < r) (h0 : rk.getD 0 0 = 1) (h1 : rk.getD d 0 = 1) (hb : bs ≠ some 0) :
    Chain bs (filled g bs rows rk d).cores (fun k => rk.getD k 0) (fun k => rows.map (·.getD k 0)) rows.length where
  pos := by simpa [filled] using hd
  r0 := h0
  rd := by simpa [filled] using h1
  rpos := fun k hk => by
    have hk' : k < rk.length := by simp [filled] at hk; omega
    exact hpos _ (by rw [List.getD_eq_getElem _ _ hk']; exact List.getElem_mem _)
  nm12 := hnm
  Mlen := fun k _ => by simp
  shape := fun k hk => by
    have hk' : k < d := by simpa [filled] using hk
    simp only [filled]
    rw [getD_range_map _ _ _ _ hk', hg]
  bpos := hb

omit [CommRing K] in
theorem filled_eq_chain (hrows : ∀ row ∈ rows, row.length = d) (hrk : rk.length = d + 1) :
    chainTT bs (filled g bs rows rk d).cores (fun k => rk.getD k 0) (fun k => rows.map (·.getD k 0)) rows.length =
      filled g bs rows rk d := by
  have hl : (filled g bs rows rk d).cores.length = d := by simp [filled]
  unfold chainTT
  rw [hl, rowsOf_getD rows d hrows, ranksOf_getD rk d hrk]
  rfl

/-- The constructor accepts the cores. -/
theorem mkAny_ok (hg : ∀ i s, (g i s).shape = s) (hd : 0 < d) (hnm : rows.length = 1 ∨ rows.length = 2)
    (hrows : ∀ row ∈ rows, row.length = d) (hrk : rk.length = d + 1) (hpos : ∀ r ∈ rk, 0 < r) (h0 : rk.getD 0 0 = 1)
    (h1 : rk.getD d 0 = 1) (hb : bs ≠ some 0) {sh : ShapeArg} (hsh : cleanRawShape sh = Except.ok (some rows)) :
    (fillCores g bs.toList rows rk d >>= fun cores => mkAny bs cores sh rk) = Except.ok (filled g bs rows rk d) ∧
    (filled g bs rows rk d).WF := by
  have hch := filled_chain (g := g) hg hd hnm hrk hpos h0 h1 hb
  have hl : (filled g bs rows rk d).cores.length = d := by simp [filled]
  have hw := hch.wf
  rw [filled_eq_chain hrows hrk] at hw
  refine ⟨?_, hw⟩
  rw [fillCores_eq g _ rows rk d hrows hrk, R.ok_bind]
  have e := filled_eq_chain (g := g) (bs := bs) hrows hrk
  have hr : some rk = some (ranksOf (fun k => rk.getD k 0) (filled g bs rows rk d).cores.length) := by
    rw [hl, ranksOf_getD rk d hrk]
  have hs : cleanRawShape sh = Except.ok (some (rowsOf (fun k => rows.map (·.getD k 0))
      (filled g bs rows rk d).cores.length rows.length)) := by
    rw [hl, rowsOf_getD rows d hrows, hsh]
  conv_rhs => rw [← e]
  cases bs with
  | none => exact mkTT_ok hch sh (Or.inr hs) (some rk) (Or.inr hr)
  | some n => exact mkBatch_ok hch sh (Or.inr hs) (some rk) (Or.inr hr) (some n) (Or.inr rfl)

omit [CommRing K] in
/-- Boundary ranks other than one are rejected. -/
theorem mkAny_error (hg : ∀ i s, (g i s).shape = s) (hd : 0 < d)
    (hrows : ∀ row ∈ rows, row.length = d) (hrk : rk.length = d + 1) (h01 : ¬ (rk.getD 0 0 = 1 ∧ rk.getD d 0 = 1))
    {sh : ShapeArg} (hsh : cleanRawShape sh = Except.ok (some rows)) :
    (fillCores g bs.toList rows rk d >>= fun cores => mkAny bs cores sh rk) = Except.error Err.value := by
  rw [fillCores_eq g _ rows rk d hrows hrk, R.ok_bind]
  set cores := (List.range d).map fun k =>
      g k (bs.toList ++ rk.getD k 0 :: (rows.map (·.getD k 0) ++ [rk.getD (k + 1) 0])) with hcores
  have hl : cores.length = d := by simp [cores]
  have hsk : ∀ k < d, (cores.map (·.shape)).getD k [] =
      bs.toList ++ rk.getD k 0 :: (rows.map (·.getD k 0) ++ [rk.getD (k + 1) 0]) := by
    intro k hk
    rw [hcores, List.map_map, getD_range_map _ _ _ _ hk, Function.comp, hg]
  have hv : ∀ b', (b' = none ∨ b' = bs) → coresValid bs.toList.length b' (cores.map (·.shape)) (some rows) (some rk) =
      Except.ok false := by
    intro b' _
    refine (coresValid_decides (by rw [← List.length_pos_iff]; simpa [hl] using hd) (by rw [hsk 0 hd]; simp) ?_ ?_).2 ?_
    · intro rw' h
      cases h
      refine ⟨by rw [hsk 0 hd]; simp; omega, fun j hj => ?_⟩
      rw [List.length_map, hl, hrows _ (by rw [List.getD_eq_getElem _ _ hj]; exact List.getElem_mem _)]
    · intro r h
      cases h
      rw [List.length_map, hl]; omega
    · rintro ⟨hc, -, -, h4⟩
      refine h01 ⟨?_, ?_⟩
      · rw [← hc.first, hsk 0 hd, List.getD_append_right _ _ _ _ le_rfl]; simp
      · rw [← hc.last]
        have hl' : (cores.map (·.shape)).length = d := by simp [hl]
        rw [hl', hsk (d - 1) (by omega)]
        have : bs.toList ++ rk.getD (d - 1) 0 :: (rows.map (·.getD (d - 1) 0) ++ [rk.getD (d - 1 + 1) 0]) =
          (bs.toList ++ rk.getD (d - 1) 0 :: rows.map (·.getD (d - 1) 0)) ++ [rk.getD (d - 1 + 1) 0] := by simp
        rw [this, List.getLastD_concat, show d - 1 + 1 = d by omega]
  cases bs with
  | none =>
    have := hv none (Or.inl rfl)
    simp only [mkAny, mkTT, hsh, R.ok_bind]
    rw [show (0 : ℕ) = (none : Option ℕ).toList.length from rfl, this]
    rfl
  | some n =>
    have := hv (some n) (Or.inr rfl)
    simp only [mkAny, mkBatch, hsh, R.ok_bind]
    rw [show (1 : ℕ) = (some n).toList.length from rfl, this]
    rfl

/-- Entries of the object. -/
theorem filled_entry (hg : ∀ i s, (g i s).shape = s) (hd : 0 < d) (hnm : rows.length = 1 ∨ rows.length = 2)
    (hrows : ∀ row ∈ rows, row.length = d) (hrk : rk.length = d + 1) (hpos : ∀ r ∈ rk, 0 < r) (h0 : rk.getD 0 0 = 1)
    (h1 : rk.getD d 0 = 1) (hb : bs ≠ some 0) (p : List ℕ) (m : ℕ → List ℕ) :
    (filled g bs rows rk d).entry p m = lprod (fun k => rk.getD k 0) (fun k a b =>
      (g k (bs.toList ++ rk.getD k 0 :: (rows.map (·.getD k 0) ++ [rk.getD (k + 1) 0]))).get (p ++ a :: (m k ++ [b]))) d 0 := by
  have hch := filled_chain (g := g) hg hd hnm hrk hpos h0 h1 hb
  have hl : (filled g bs rows rk d).cores.length = d := by simp [filled]
  have := hch.entry_eq p m
  rw [filled_eq_chain hrows hrk, hl] at this
  rw [this]
  refine lprod_congr (fun _ _ => rfl) (fun k hk _ _ _ _ => ?_) (by omega)
  simp only [filled]
  rw [getD_range_map _ _ _ _ hk]

end

/-- All ranks one: the product of the single entries. -/
theorem lprod_rank_one (r : ℕ → ℕ) (A : ℕ → ℕ → ℕ → K) (d : ℕ) (h : ∀ k < d, r k = 1) (b : ℕ) (hb : d = 0 → b = 0) :
    lprod r A d b = ∏ k ∈ Finset.range d, A k 0 (if k + 1 = d then b else 0) := by
  induction d generalizing b with
  | zero => simp [lprod, hb rfl]
  | succ d ih =>
    rw [lprod, h d (by omega), Finset.sum_range_one, ih (fun k hk => h k (by omega)) 0 (fun _ => rfl),
      Finset.prod_range_succ]
    simp only [if_true]
    congr 1
    refine Finset.prod_congr rfl fun k hk => ?_
    have := Finset.mem_range.1 hk
    rw [if_neg (by omega : ¬ k + 1 = d + 1)]
    simp

theorem lprod_rank_one_zero (r : ℕ → ℕ) (A : ℕ → ℕ → ℕ → K) (d : ℕ) (h : ∀ k < d, r k = 1) :
    lprod r A d 0 = ∏ k ∈ Finset.range d, A k 0 0 := by
  rw [lprod_rank_one r A d h 0 (fun _ => rfl)]
  simp

end T3f
