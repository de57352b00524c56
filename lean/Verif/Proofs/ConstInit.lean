import Verif.Proofs.RandomInit
import Verif.Proofs.Matmul

/-! # Constant tensors, constant matrices and the identity -/

namespace T3f

variable {K : Type} [CommRing K]

theorem toNat_pos {l : List ℤ} (h : ∀ n ∈ l, 1 ≤ n) : ∀ n ∈ l.map Int.toNat, 0 < n := by
  intro n hn
  obtain ⟨x, hx, rfl⟩ := List.mem_map.1 hn
  have := h x hx
  omega

theorem getD_replicate_one (d k : ℕ) (hk : k < d) : (List.replicate d 1).getD k 0 = 1 := by
  rw [List.getD_eq_getElem _ _ (by simpa using hk)]; simp

/-- The object with constant cores. -/
theorem const_spec (c : K) (d : ℕ) (hd : 0 < d) (rows : List (List ℕ)) (hnm : rows.length = 1 ∨ rows.length = 2)
    (hrows : ∀ row ∈ rows, row.length = d) {sh : ShapeArg} (hsh : cleanRawShape sh = Except.ok (some rows)) :
    ∃ t F, (fillCores (fun _ s => (⟨s, fun _ => c⟩ : Tensor K)) [] rows (List.replicate (d + 1) 1) d >>= fun cores =>
        mkTT cores sh (some (List.replicate (d + 1) 1))) = Except.ok t ∧ t.WF ∧ t.batch = none ∧ t.rawShape = rows ∧
      t.ttRanks = List.replicate (d + 1) 1 ∧ full t = Except.ok F ∧ F.shape = restShape rows ∧
      ∀ i, Valid F.shape i → F.get i = c ^ d := by
  have hg : ∀ (i : ℕ) (s : List ℕ), ((fun (_ : ℕ) (s : List ℕ) => (⟨s, fun _ => c⟩ : Tensor K)) i s).shape = s := fun _ _ => rfl
  obtain ⟨e, w⟩ := mkAny_ok (g := fun _ s => (⟨s, fun _ => c⟩ : Tensor K)) (bs := none) hg hd hnm hrows
    (rk := List.replicate (d + 1) 1) (by simp) (by simp) (getD_replicate_one _ _ (by omega)) (getD_replicate_one _ _ (by omega))
    (by simp) hsh
  obtain ⟨F, eF, sF, vF⟩ := full_ok w
  refine ⟨_, F, e, w, rfl, rfl, rfl, eF, sF, fun i hi => ?_⟩
  have := vF [] i trivial (by rw [sF] at hi; exact hi)
  rw [List.nil_append] at this
  rw [this, filled_entry hg hd hnm hrows (by simp) (by simp) (getD_replicate_one _ _ (by omega))
    (getD_replicate_one _ _ (by omega)) (by simp), lprod_rank_one_zero]
  · simp
  · intro k hk
    exact getD_replicate_one _ _ (by omega)

theorem unravel_getD_eq {s : List ℕ} {x y : ℕ} (hx : x < s.prod) (hy : y < s.prod)
    (h : ∀ k < s.length, (unravel s x).getD k 0 = (unravel s y).getD k 0) : x = y := by
  rw [← ravel_unravel hx, ← ravel_unravel hy]
  congr 1
  have l1 := (unravel_valid hx).length_eq
  have l2 := (unravel_valid hy).length_eq
  apply List.ext_getElem (by omega)
  intro k h1 h2
  have := h k (by omega)
  rwa [List.getD_eq_getElem _ _ h1, List.getD_eq_getElem _ _ h2] at this

/-- The cores of the identity. -/
theorem eye_spec (sh : List ℕ) (h2 : 2 ≤ sh.length) (hp : ∀ n ∈ sh, 0 < n) :
    ∃ (t : TT K) (F : Tensor K), (mapRange sh.length (fun i => do
        let n ← pyGet sh i
        reshape (eyeT n : Tensor K) [some 1, some n, some n, some 1]) >>= fun cores =>
        mkTT cores (.nested [sh, sh]) (some (List.replicate (sh.length + 1) 1))) = Except.ok t ∧ t.WF ∧ t.batch = none ∧
      t.rawShape = [sh, sh] ∧ t.ttRanks = List.replicate (sh.length + 1) 1 ∧ full t = Except.ok F ∧
      F.shape = [sh.prod, sh.prod] ∧
      ∀ x < sh.prod, ∀ y < sh.prod, F.get [x, y] = if x = y then 1 else 0 := by
  obtain ⟨cores, e, hl, hch, hv⟩ := Chain.build (fun i => do
        let n ← pyGet sh i
        reshape (eyeT n : Tensor K) [some 1, some n, some n, some 1]) sh.length none
    (fun k => (List.replicate (sh.length + 1) 1).getD k 0) (fun k => [sh.getD k 0, sh.getD k 0]) 2
    (fun k C => ∀ i < sh.getD k 0, ∀ j < sh.getD k 0, C.get [0, i, j, 0] = if i = j then 1 else 0) (by omega)
    (getD_replicate_one _ _ (by omega)) (getD_replicate_one _ _ (by omega))
    (fun k hk => by rw [getD_replicate_one _ _ (by omega)]; omega) (Or.inr rfl) (fun _ _ => rfl) (by simp) (by
      intro k hk
      have hn : 0 < sh.getD k 0 := hp _ (by rw [List.getD_eq_getElem _ _ hk]; exact List.getElem_mem _)
      rw [pyGet_of_lt sh k 0 hk, R.ok_bind]
      set n := sh.getD k 0
      obtain ⟨C, eC, sC, vC⟩ := reshape_spec (eyeT n : Tensor K) [some 1, some n, some n, some 1] [1, n, n, 1]
        (by simp [resolveShape, knownProd, eyeT])
      refine ⟨C, eC, ?_, fun i hi j hj => ?_⟩
      · rw [sC]
        rw [getD_replicate_one _ _ (by omega), getD_replicate_one _ _ (by omega)]
        rfl
      · rw [vC [0, i, j, 0] [i, j] ⟨hi, hj, trivial⟩ (by simp [eyeT, ravel])]
        simp [eyeT])
  have hrows : rowsOf (fun k => [sh.getD k 0, sh.getD k 0]) cores.length 2 = [sh, sh] := by
    have := rowsOf_getD [sh, sh] sh.length (by simp)
    rw [hl]
    exact this
  have hranks : ranksOf (fun k => (List.replicate (sh.length + 1) 1).getD k 0) cores.length = List.replicate (sh.length + 1) 1 := by
    rw [hl, ranksOf_getD _ _ (by simp)]
  have hmk := mkTT_ok hch (.nested [sh, sh]) (Or.inr (by rw [hrows]; exact clean_nested h2 rfl)) (some (List.replicate (sh.length + 1) 1))
    (Or.inr (by rw [hranks]))
  have hw := hch.wf
  have hr : (chainTT none cores (fun k => (List.replicate (sh.length + 1) 1).getD k 0) (fun k => [sh.getD k 0, sh.getD k 0]) 2).rawShape =
      [sh, sh] := hrows
  obtain ⟨F, eF, sF, vF⟩ := full_matrix hw hr
  refine ⟨_, F, by rw [e, R.ok_bind, hmk], hw, rfl, hr, hranks, eF, sF, fun x hx y hy => ?_⟩
  have hx' := unravel_valid hx
  have hy' := unravel_valid hy
  have := vF [] x y trivial hx hy
  rw [List.nil_append] at this
  rw [this, hch.entry_eq, lprod_rank_one_zero _ _ _ (fun k hk => getD_replicate_one _ _ (by omega)), hl]
  have hk : ∀ k < sh.length, (cores.getD k default).get ([] ++ 0 :: (mIdx (unravel sh x) (unravel sh y) k ++ [0])) =
      if (unravel sh x).getD k 0 = (unravel sh y).getD k 0 then (1 : K) else 0 := by
    intro k hk
    exact hv k hk _ (((valid_iff_getD _ _).1 hx').2 k hk) _ (((valid_iff_getD _ _).1 hy').2 k hk)
  rw [Finset.prod_congr rfl fun k hk' => hk k (Finset.mem_range.1 hk')]
  by_cases hxy : x = y
  · subst hxy; simp
  · rw [if_neg hxy]
    have : ∃ k < sh.length, (unravel sh x).getD k 0 ≠ (unravel sh y).getD k 0 := by
      by_contra hc
      push Not at hc
      exact hxy (unravel_getD_eq hx hy hc)
    obtain ⟨k, hk1, hk2⟩ := this
    exact Finset.prod_eq_zero (Finset.mem_range.2 hk1) (if_neg hk2)

end T3f
