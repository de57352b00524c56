import Verif.Proofs.RandomMoments
import Verif.Proofs.ConstInit

/-! # Moments of the entries made by the random initializers -/

namespace T3f

open MeasureTheory ProbabilityTheory

/-- The scaling of the cores gives the requested variance. -/
theorem coreStddev_pow (d : ℕ) (hd : 0 < d) (l : List ℤ) (hl : l.length = d + 1) (hp : ∀ r ∈ l, 1 ≤ r) (h1 : l.getD d 0 = 1)
    (s : ℝ) (hs : 0 ≤ s) :
    coreStddev d l s ^ (2 * d) * ∏ j ∈ Finset.range d, (((l.map Int.toNat).getD j 0 : ℕ) : ℝ) = s ^ 2 := by
  have hd' : (d : ℝ) ≠ 0 := by exact_mod_cast hd.ne'
  have e1 : (s ^ (1 / (d : ℝ))) ^ (2 * d) = s ^ 2 := by
    rw [← Real.rpow_natCast, ← Real.rpow_mul hs, ← Real.rpow_natCast]
    congr 1
    push_cast
    field_simp
  have e2 : ∀ r ∈ l, ((r : ℝ) ^ (-1 / (2 * (d : ℝ)))) ^ (2 * d) = (r : ℝ)⁻¹ := by
    intro r hr
    have hr' : (0 : ℝ) ≤ r := by exact_mod_cast (by have := hp r hr; omega : (0 : ℤ) ≤ r)
    rw [← Real.rpow_natCast, ← Real.rpow_mul hr', ← Real.rpow_neg_one]
    congr 1
    push_cast
    field_simp
  have e3 : ((l.map fun r : ℤ => (r : ℝ) ^ (-1 / (2 * (d : ℝ)))).prod) ^ (2 * d) = (l.map fun r : ℤ => (r : ℝ)⁻¹).prod := by
    clear hl h1 hp
    induction l with
    | nil => simp
    | cons r l ih =>
      simp only [List.map_cons, List.prod_cons, mul_pow]
      rw [e2 r (by simp), ih fun r hr => e2 r (by simp [hr])]
  have e4 : (l.map fun r : ℤ => (r : ℝ)⁻¹).prod * ∏ j ∈ Finset.range d, (((l.map Int.toNat).getD j 0 : ℕ) : ℝ) = 1 := by
    have h5 : (l.map fun r : ℤ => (r : ℝ)⁻¹).prod = ∏ j ∈ Finset.range (d + 1), ((l.getD j 0 : ℤ) : ℝ)⁻¹ := by
      conv_lhs => rw [list_eq_range_map l 0, hl, List.map_map]
      rw [Finset.prod_range, ← List.prod_ofFn]
      congr 1
      apply List.ext_getElem (by simp)
      intro i h1 h2
      rw [List.getElem_ofFn, List.getElem_map, List.getElem_range]
      rfl
    rw [h5, Finset.prod_range_succ, h1, mul_assoc, mul_comm _ (∏ j ∈ Finset.range d, (((l.map Int.toNat).getD j 0 : ℕ) : ℝ)),
      ← mul_assoc, ← Finset.prod_mul_distrib]
    rw [Finset.prod_eq_one]
    · simp
    · intro j hj
      have hj' : j < l.length := by have := Finset.mem_range.1 hj; omega
      have hr := hp l[j] (List.getElem_mem _)
      rw [List.getD_eq_getElem l _ hj', List.getD_eq_getElem (l.map _) _ (by simpa using hj'), List.getElem_map]
      have : ((l[j].toNat : ℕ) : ℝ) = (l[j] : ℝ) := by
        have := Int.toNat_of_nonneg (show 0 ≤ l[j] by omega)
        exact_mod_cast this
      rw [this]
      have : (l[j] : ℝ) ≠ 0 := by exact_mod_cast (by omega : l[j] ≠ 0)
      field_simp
  rw [coreStddev, mul_pow, e1, e3, mul_assoc, e4, mul_one]

/-- Different positions have different mode indices. -/
theorem restModes_inj {rows : List (List ℕ)} {d : ℕ} (hnm : rows.length = 1 ∨ rows.length = 2) (hrows : ∀ row ∈ rows, row.length = d)
    {i j : List ℕ} (hi : Valid (restShape rows) i) (hj : Valid (restShape rows) j)
    (h : ∀ k < d, restModes rows i k = restModes rows j k) : i = j := by
  rcases hnm with h1 | h1
  · obtain ⟨row, rfl⟩ := List.length_eq_one_iff.1 h1
    have l1 := hi.length_eq
    have l2 := hj.length_eq
    rw [restShape_tensor, hrows row (by simp)] at l1 l2
    apply List.ext_getElem (by omega)
    intro k h1 h2
    have := h k (by omega)
    simp only [restModes_tensor, tIdx, List.cons.injEq, and_true] at this
    rwa [List.getD_eq_getElem _ _ h1, List.getD_eq_getElem _ _ h2] at this
  · obtain ⟨I, J, rfl⟩ := List.length_eq_two.1 h1
    rw [restShape_matrix] at hi hj
    obtain ⟨x, _, rfl, hx, hi'⟩ := (valid_cons_iff _ _ _).1 hi
    obtain ⟨y, _, rfl, hy, hi''⟩ := (valid_cons_iff _ _ _).1 hi'
    obtain ⟨x', _, rfl, hx', hj'⟩ := (valid_cons_iff _ _ _).1 hj
    obtain ⟨y', _, rfl, hy', hj''⟩ := (valid_cons_iff _ _ _).1 hj'
    rw [valid_nil_iff] at hi'' hj''
    subst hi'' hj''
    simp only [restModes_matrix, mIdx, List.cons.injEq, and_true] at h
    have hI := hrows I (by simp)
    have hJ := hrows J (by simp)
    rw [unravel_getD_eq hx hx' (fun k hk => (h k (by omega)).1), unravel_getD_eq hy hy' (fun k hk => (h k (by omega)).2)]

theorem restModes_length {rows : List (List ℕ)} (hnm : rows.length = 1 ∨ rows.length = 2)
    {i j : List ℕ} (hi : Valid (restShape rows) i) (hj : Valid (restShape rows) j) (k : ℕ) :
    (restModes rows i k).length = (restModes rows j k).length := by
  rcases hnm with h1 | h1
  · obtain ⟨row, rfl⟩ := List.length_eq_one_iff.1 h1
    rfl
  · obtain ⟨I, J, rfl⟩ := List.length_eq_two.1 h1
    rw [restShape_matrix] at hi hj
    obtain ⟨x, _, rfl, hx, hi'⟩ := (valid_cons_iff _ _ _).1 hi
    obtain ⟨y, _, rfl, hy, hi''⟩ := (valid_cons_iff _ _ _).1 hi'
    obtain ⟨x', _, rfl, hx', hj'⟩ := (valid_cons_iff _ _ _).1 hj
    obtain ⟨y', _, rfl, hy', hj''⟩ := (valid_cons_iff _ _ _).1 hj'
    rw [valid_nil_iff] at hi'' hj''
    subst hi'' hj''
    rfl

theorem position_inj {p p' m m' : List ℕ} (hp : p.length = p'.length) (hm : m.length = m'.length) (a b a' b' : ℕ) :
    p ++ a :: (m ++ [b]) = p' ++ a' :: (m' ++ [b']) ↔ a = a' ∧ b = b' ∧ p ++ 0 :: (m ++ [0]) = p' ++ 0 :: (m' ++ [0]) := by
  constructor
  · intro h
    obtain ⟨rfl, h2⟩ := List.append_inj h hp
    obtain ⟨rfl, h3⟩ := List.cons.inj h2
    obtain ⟨rfl, h4⟩ := List.append_inj h3 hm
    exact ⟨rfl, by simpa using h4, rfl⟩
  · rintro ⟨rfl, rfl, h⟩
    obtain ⟨rfl, h2⟩ := List.append_inj h hp
    obtain ⟨_, h3⟩ := List.cons.inj h2
    obtain ⟨rfl, _⟩ := List.append_inj h3 hm
    rfl

variable {Ω : Type} [MeasurableSpace Ω] {μ : Measure Ω} [IsProbabilityMeasure μ] {z : Ω → ℕ → List ℕ → ℝ}

/-- Moments of the entries of an object with random cores of standard deviation `σ`. -/
theorem filled_moments (h : StandardDraws μ z) {bs : Option ℕ} {rows : List (List ℕ)} {rk : List ℕ} {d : ℕ} (σ : ℝ)
    (hd : 0 < d) (hnm : rows.length = 1 ∨ rows.length = 2) (hrows : ∀ row ∈ rows, row.length = d) (hrk : rk.length = d + 1)
    (hpos : ∀ r ∈ rk, 0 < r) (h0 : rk.getD 0 0 = 1) (h1 : rk.getD d 0 = 1) (hb : bs ≠ some 0)
    {F : Ω → Tensor ℝ}
    (hF : ∀ ω, full (filled (fun i => randomNormal 0 σ (z ω i)) bs rows rk d) = Except.ok (F ω))
    (hw : ∀ ω, (filled (fun i => randomNormal 0 σ (z ω i)) bs rows rk d).WF) :
    WhiteNoise μ (fun ω => (F ω).get) (bs.toList ++ restShape rows) (σ ^ (2 * d) * ∏ j ∈ Finset.range d, (rk.getD j 0 : ℝ)) := by
  have hg : ∀ (ω : Ω) (i : ℕ) (s : List ℕ), (randomNormal 0 σ (z ω i) s).shape = s := fun _ _ _ => rfl
  have hval : ∀ p i, Valid bs.toList p → Valid (restShape rows) i → ∀ ω, (F ω).get (p ++ i) =
      randomRow (fun k => rk.getD k 0) σ (fun k a b => p ++ a :: (restModes rows i k ++ [b])) z ω d 0 := by
    intro p i hp hi ω
    obtain ⟨-, v⟩ := full_get (hw ω) (hF ω)
    have := v p i hp hi
    rw [this, filled_entry (hg ω) hd hnm hrows hrk hpos h0 h1 hb, randomRow]
    refine lprod_congr' fun k _ => ?_
    funext a b
    simp [randomNormal, filled]
  intro i hi
  obtain ⟨p, i, rfl, hp, hi⟩ := valid_append_iff.1 hi
  have hP : ∀ k a b a' b', p ++ a :: (restModes rows i k ++ [b]) = p ++ a' :: (restModes rows i k ++ [b']) ↔ a = a' ∧ b = b' := by
    intro k a b a' b'
    rw [position_inj rfl rfl]; simp only [and_true]
  have hb' : 0 < (fun k => rk.getD k 0) d := by simp only; omega
  refine ⟨?_, ?_, ?_⟩
  · simp only [hval p i hp hi]
    have hm : Measurable fun ω => randomRow (fun k => rk.getD k 0) σ (fun k a b => p ++ a :: (restModes rows i k ++ [b])) z ω d 0 :=
      lprod_measurable _ _ _ (fun j _ a b => (h.meas j _).const_mul _) _
    refine (memLp_two_iff_integrable_sq hm.aestronglyMeasurable).2 ?_
    have := (randomRow_moment (fun k => rk.getD k 0) σ (fun k a b => p ++ a :: (restModes rows i k ++ [b])) h h0
      (fun k a b => p ++ a :: (restModes rows i k ++ [b])) (fun k a b a' b' => by rw [hP]; simp only [and_true]) d 0 hb' 0 hb').1
    simpa only [sq] using this
  · simp only [hval p i hp hi]
    exact randomRow_mean (fun k => rk.getD k 0) σ (fun k a b => p ++ a :: (restModes rows i k ++ [b])) h h0 hP d hd 0 hb'
  · intro j hj
    obtain ⟨q, j, rfl, hq, hj⟩ := valid_append_iff.1 hj
    simp only [hval p i hp hi, hval q j hq hj]
    have hpq : p.length = q.length := by rw [hp.length_eq, hq.length_eq]
    rw [(randomRow_moment (fun k => rk.getD k 0) σ _ h h0 (fun k a b => q ++ a :: (restModes rows j k ++ [b]))
      (fun k a b a' b' => position_inj hpq (restModes_length hnm hi hj k) a b a' b') d 0 hb' 0 hb').2]
    congr 1
    rw [eq_iff_iff]
    constructor
    · rintro ⟨-, hk⟩
      have hk' : ∀ k < d, p = q ∧ restModes rows i k = restModes rows j k := by
        intro k hkd
        obtain ⟨e1, e2⟩ := List.append_inj (hk k hkd) hpq
        obtain ⟨_, e3⟩ := List.cons.inj e2
        exact ⟨e1, (List.append_inj e3 (restModes_length hnm hi hj k)).1⟩
      rw [(hk' 0 hd).1, restModes_inj hnm hrows hi hj fun k hkd => (hk' k hkd).2]
    · intro e
      obtain ⟨rfl, rfl⟩ := List.append_inj e hpq
      exact ⟨rfl, fun _ _ => rfl⟩

/-- The cores scaled by `coreStddev` give white noise of the requested standard deviation. -/
theorem scaled_moments (h : StandardDraws μ z) {bs : Option ℕ} {rows : List (List ℕ)} {l : List ℤ} {d : ℕ} {s : ℝ} (hs : 0 ≤ s)
    (hd : 0 < d) (hnm : rows.length = 1 ∨ rows.length = 2) (hrows : ∀ row ∈ rows, row.length = d) (hl : GoodRank d (.list l))
    (hb : bs ≠ some 0)
    (hw : ∀ ω, (filled (fun i => randomNormal 0 (coreStddev d l s) (z ω i)) bs rows (l.map Int.toNat) d).WF) :
    ∃ F : Ω → Tensor ℝ, (∀ ω, full (filled (fun i => randomNormal 0 (coreStddev d l s) (z ω i)) bs rows (l.map Int.toNat) d) =
      Except.ok (F ω) ∧ (F ω).shape = bs.toList ++ restShape rows) ∧
      WhiteNoise μ (fun ω => (F ω).get) (bs.toList ++ restShape rows) (s ^ 2) := by
  have hF := fun ω => full_ok (hw ω)
  choose F hF hS _ using hF
  obtain ⟨⟨hlen, hpos⟩, g0, g1⟩ := (goodRank_iff hd _).1 hl
  refine ⟨F, fun ω => ⟨hF ω, hS ω⟩, ?_⟩
  rw [← coreStddev_pow d hd l hlen hpos hl.2.2.2 s hs]
  exact filled_moments h _ hd hnm hrows (by simpa [usedRanks] using hlen) (fun r hr => by
    obtain ⟨x, hx, rfl⟩ := List.mem_map.1 hr
    have := hpos x hx
    omega) g0 g1 hb hF hw

theorem goodRank_list {d : ℕ} (hd : 0 < d) {rank : RankArg} (h : GoodRank d rank) :
    ∃ l, expandRank d rank = Except.ok l ∧ l.map Int.toNat = usedRanks d rank ∧ GoodRank d (.list l) := by
  obtain ⟨l, e1, e2, e3⟩ := expandRank_eq hd (rank := rank)
  obtain ⟨h1, h2, h3⟩ := (goodRank_iff hd _).1 h
  refine ⟨l, e1, e2, (goodRank_iff hd _).2 ⟨e3 h1, ?_⟩⟩
  simp only [usedRanks, e2]
  exact ⟨h2, h3⟩

theorem checkMean_ok {α : Type} {mean : ℝ} (h : |mean| < 1e-8) (t : α) : checkMean mean t = Except.ok t := if_pos h

theorem checkMean_error {α : Type} {mean : ℝ} (h : ¬ |mean| < 1e-8) (t : α) : checkMean mean t = Except.error Err.notImpl := if_neg h

end T3f
