import Verif.Proofs.Gap
import Verif.Proofs.Remode
import Verif.Proofs.FullGet

/-! # Best approximations of matrices are those of the paired tensors -/

namespace T3f

theorem zipWith_getD {f : ℕ → ℕ → ℕ} {x y : List ℕ} {d : ℕ} (hx : x.length = d) (hy : y.length = d) {k : ℕ} (hk : k < d) :
    (List.zipWith f x y).getD k 0 = f (x.getD k 0) (y.getD k 0) := by
  rw [List.getD_eq_getElem _ _ (by rw [List.length_zipWith]; omega), List.getD_eq_getElem _ _ (by omega),
    List.getD_eq_getElem _ _ (by omega), List.getElem_zipWith]

/-- The pair of positions for the paired index. -/
def pairSplit (a b i : List ℕ) : List ℕ := [ravel a (List.zipWith (· / ·) i b), ravel b (List.zipWith (· % ·) i b)]

/-- The paired index. -/
def pairJoin (a b x : List ℕ) : List ℕ :=
  (List.range a.length).map fun k => (unravel a (x.getD 0 0)).getD k 0 * b.getD k 0 + (unravel b (x.getD 1 0)).getD k 0

section
variable {a b : List ℕ} (hab : a.length = b.length)
include hab

theorem pair_div_valid {i : List ℕ} (hi : Valid (List.zipWith (· * ·) a b) i) : Valid a (List.zipWith (· / ·) i b) := by
  have hl := hi.length_eq
  rw [List.length_zipWith] at hl
  rw [valid_iff_getD]
  refine ⟨by rw [List.length_zipWith]; omega, fun k hk => ?_⟩
  have := ((valid_iff_getD _ _).1 hi).2 k (by rw [List.length_zipWith]; omega)
  rw [zipWith_getD rfl hab.symm hk] at this
  rw [zipWith_getD (d := a.length) (by omega) hab.symm hk]
  exact Nat.div_lt_of_lt_mul (by rwa [Nat.mul_comm])

theorem pair_mod_valid {i : List ℕ} (hi : Valid (List.zipWith (· * ·) a b) i) : Valid b (List.zipWith (· % ·) i b) := by
  have hl := hi.length_eq
  rw [List.length_zipWith] at hl
  rw [valid_iff_getD]
  refine ⟨by rw [List.length_zipWith]; omega, fun k hk => ?_⟩
  have := ((valid_iff_getD _ _).1 hi).2 k (by rw [List.length_zipWith]; omega)
  rw [zipWith_getD rfl hab.symm (by omega)] at this
  rw [zipWith_getD (d := b.length) (by omega) rfl hk]
  refine Nat.mod_lt _ (Nat.pos_of_ne_zero fun h => ?_)
  rw [h] at this
  omega

theorem pairSplit_valid {i : List ℕ} (hi : Valid (List.zipWith (· * ·) a b) i) : Valid [a.prod, b.prod] (pairSplit a b i) :=
  ⟨ravel_lt (pair_div_valid hab hi), ravel_lt (pair_mod_valid hab hi), trivial⟩

omit hab in
theorem pairJoin_getD {x : List ℕ} {k : ℕ} (hk : k < a.length) :
    (pairJoin a b x).getD k 0 = (unravel a (x.getD 0 0)).getD k 0 * b.getD k 0 + (unravel b (x.getD 1 0)).getD k 0 := getD_range_map _ _ _ _ hk

theorem pairJoin_valid {x : List ℕ} (hx : Valid [a.prod, b.prod] x) : Valid (List.zipWith (· * ·) a b) (pairJoin a b x) := by
  obtain ⟨u, v, rfl, hu, hv⟩ := (valid_pair _ _ _).1 hx
  have h1 := ((valid_iff_getD _ _).1 (unravel_valid hu)).2
  have h2 := ((valid_iff_getD _ _).1 (unravel_valid hv)).2
  rw [valid_iff_getD]
  refine ⟨by simp [pairJoin, hab], fun k hk => ?_⟩
  rw [List.length_zipWith] at hk
  rw [pairJoin_getD (by omega), zipWith_getD rfl hab.symm (by omega)]
  exact mul_add_lt (h1 k (by omega)) (h2 k (by omega))

theorem pairJoin_split {i : List ℕ} (hi : Valid (List.zipWith (· * ·) a b) i) : pairJoin a b (pairSplit a b i) = i := by
  have hl := hi.length_eq
  rw [List.length_zipWith] at hl
  refine List.ext_getElem (by simp [pairJoin]; omega) fun k h1 h2 => ?_
  have hk : k < a.length := by omega
  rw [← List.getD_eq_getElem _ 0 h1, ← List.getD_eq_getElem _ 0 h2, pairJoin_getD hk]
  simp only [pairSplit, List.getD_cons_zero, List.getD_cons_succ]
  rw [unravel_ravel (pair_div_valid hab hi), unravel_ravel (pair_mod_valid hab hi), zipWith_getD (d := a.length) (by omega) hab.symm hk,
    zipWith_getD (d := a.length) (by omega) hab.symm hk]
  exact Nat.div_add_mod' _ _

theorem pairSplit_join {x : List ℕ} (hx : Valid [a.prod, b.prod] x) : pairSplit a b (pairJoin a b x) = x := by
  have hj := pairJoin_valid hab hx
  obtain ⟨u, v, rfl, hu, hv⟩ := (valid_pair _ _ _).1 hx
  have h2 := ((valid_iff_getD _ _).1 (unravel_valid hv)).2
  have hl : (pairJoin a b [u, v]).length = a.length := by simp [pairJoin]
  have e1 : List.zipWith (· / ·) (pairJoin a b [u, v]) b = unravel a u := by
    refine List.ext_getElem ?_ fun k h1 h2' => ?_
    · rw [List.length_zipWith, hl, (unravel_valid hu).length_eq]; omega
    rw [List.length_zipWith] at h1
    have hk : k < a.length := by omega
    rw [← List.getD_eq_getElem _ 0, ← List.getD_eq_getElem _ 0 h2', zipWith_getD hl hab.symm hk, pairJoin_getD hk]
    have := h2 k (by omega)
    simp only [List.getD_cons_zero, List.getD_cons_succ]
    rw [Nat.mul_comm, Nat.mul_add_div (by omega), Nat.div_eq_of_lt this, Nat.add_zero]
  have e2 : List.zipWith (· % ·) (pairJoin a b [u, v]) b = unravel b v := by
    refine List.ext_getElem ?_ fun k h1 h2' => ?_
    · rw [List.length_zipWith, hl, (unravel_valid hv).length_eq]; omega
    rw [List.length_zipWith] at h1
    have hk : k < a.length := by omega
    rw [← List.getD_eq_getElem _ 0, ← List.getD_eq_getElem _ 0 h2', zipWith_getD hl hab.symm hk, pairJoin_getD hk]
    have := h2 k (by omega)
    simp only [List.getD_cons_zero, List.getD_cons_succ]
    rw [Nat.mul_comm, Nat.mul_add_mod, Nat.mod_eq_of_lt this]
  rw [pairSplit, e1, e2, ravel_unravel hu, ravel_unravel hv]

theorem sqDist_paired (X Y : List ℕ → ℝ) :
    sqDist [a.prod, b.prod] X Y = sqDist (List.zipWith (· * ·) a b) (paired a b X) (paired a b Y) := by
  unfold sqDist dot
  symm
  refine Finset.sum_nbij' (fun n => ravel [a.prod, b.prod] (pairSplit a b (unravel (List.zipWith (· * ·) a b) n)))
    (fun n => ravel (List.zipWith (· * ·) a b) (pairJoin a b (unravel [a.prod, b.prod] n))) ?_ ?_ ?_ ?_ ?_
  · intro n hn
    exact Finset.mem_range.2 (ravel_lt (pairSplit_valid hab (unravel_valid (Finset.mem_range.1 hn))))
  · intro n hn
    exact Finset.mem_range.2 (ravel_lt (pairJoin_valid hab (unravel_valid (Finset.mem_range.1 hn))))
  · intro n hn
    have hn := Finset.mem_range.1 hn
    rw [unravel_ravel (pairSplit_valid hab (unravel_valid hn)), pairJoin_split hab (unravel_valid hn), ravel_unravel hn]
  · intro n hn
    have hn := Finset.mem_range.1 hn
    rw [unravel_ravel (pairJoin_valid hab (unravel_valid hn)), pairSplit_join hab (unravel_valid hn), ravel_unravel hn]
  · intro n hn
    have hn := Finset.mem_range.1 hn
    rw [unravel_ravel (pairSplit_valid hab (unravel_valid hn))]
    rfl

theorem hasTT_paired {bd : ℕ → ℕ} {A : List ℕ → ℝ} (h : HasTT [a, b] bd A) : HasTT [List.zipWith (· * ·) a b] bd (paired a b A) := by
  rw [hasTT_iff] at *
  obtain ⟨S, w, hr, hb, hk, hv⟩ := h
  have hn : S.ndims = a.length := (w.rows_len a (by rw [hr]; simp)).symm
  set c := List.zipWith (· * ·) a b with hc
  have hcl : c.length = a.length := by rw [hc, List.length_zipWith]; omega
  refine ⟨remode S (fun k => [c.getD k 0]) 1, remode_wf w (Or.inl rfl) (fun _ _ => rfl), ?_, rfl, fun k h0 hk' => ?_, fun i hi => ?_⟩
  · rw [remode_rawShape, hn, ← hcl]
    conv_rhs => rw [list_eq_range_map c 0]
    rfl
  · rw [remode_ndims] at hk'
    rw [remode_rank hk'.le]
    exact hk k h0 hk'
  · have hi : Valid c i := hi
    rw [restModes_tensor]
    refine Eq.trans ?_ (hv _ (pairSplit_valid hab hi))
    rw [restModes_matrix, unravel_ravel (pair_div_valid hab hi), unravel_ravel (pair_mod_valid hab hi)]
    refine remode_entry w (fun k hk => ?_) (fun k hk => ?_)
    · rw [TT.modes, hr]
      exact ⟨((valid_iff_getD _ _).1 (pair_div_valid hab hi)).2 k (by omega), ((valid_iff_getD _ _).1 (pair_mod_valid hab hi)).2 k (by omega), trivial⟩
    · have hl := hi.length_eq
      rw [TT.modes, hr]
      simp only [tIdx, mIdx, ravel, List.map_cons, List.map_nil]
      rw [zipWith_getD (d := a.length) (by omega) hab.symm (by omega), zipWith_getD (d := a.length) (by omega) hab.symm (by omega)]
      simp
      exact (Nat.div_add_mod' _ _).symm

theorem hasTT_unpaired {bd : ℕ → ℕ} {A : List ℕ → ℝ} (h : HasTT [List.zipWith (· * ·) a b] bd A) :
    HasTT [a, b] bd fun x => A (pairJoin a b x) := by
  rw [hasTT_iff] at *
  obtain ⟨S, w, hr, hb, hk, hv⟩ := h
  have hn : S.ndims = a.length := by
    rw [(w.rows_len (List.zipWith (· * ·) a b) (by rw [hr]; simp)).symm, List.length_zipWith]; omega
  refine ⟨remode S (fun k => [a.getD k 0, b.getD k 0]) 2, remode_wf w (Or.inr rfl) (fun _ _ => rfl), ?_, rfl, fun k h0 hk' => ?_, fun i hi => ?_⟩
  · rw [remode_rawShape, hn]
    have q1 := list_eq_range_map a 0
    have q2 := list_eq_range_map b 0
    rw [← hab] at q2
    conv_rhs => rw [q1, q2]
    rfl
  · rw [remode_ndims] at hk'
    rw [remode_rank hk'.le]
    exact hk k h0 hk'
  · have hi : Valid [a.prod, b.prod] i := hi
    refine Eq.trans ?_ (hv _ (pairJoin_valid hab hi))
    rw [restModes_tensor]
    refine remode_entry w (fun k hk => ?_) (fun k hk => ?_)
    · rw [TT.modes, hr]
      refine ⟨((valid_iff_getD _ _).1 (pairJoin_valid hab hi)).2 k ?_, trivial⟩
      rw [List.length_zipWith]; omega
    · rw [TT.modes, hr]
      simp only [tIdx, ravel, List.map_cons, List.map_nil]
      rw [pairJoin_getD (by omega)]
      obtain ⟨u, v, rfl, hu, hv⟩ := (valid_pair _ _ _).1 hi
      rw [restModes_matrix]
      simp [mIdx, ravel]

theorem nearestCut_paired {k r : ℕ} {X Z : List ℕ → ℝ} (h : NearestCut [a, b] [a.prod, b.prod] k r X Z) :
    NearestCut [List.zipWith (· * ·) a b] (List.zipWith (· * ·) a b) k r (paired a b X) (paired a b Z) := by
  obtain ⟨⟨bd, hb, hZ⟩, hm⟩ := h
  refine ⟨⟨bd, hb, hasTT_paired hab hZ⟩, fun Z' ⟨bd', hb', hZ'⟩ => ?_⟩
  have := hm _ ⟨bd', hb', hasTT_unpaired hab hZ'⟩
  rw [sqDist_paired hab, sqDist_paired hab] at this
  refine this.trans (le_of_eq ?_)
  refine sqDist_congr (s := List.zipWith (· * ·) a b) (fun _ _ => rfl) fun i hi => ?_
  show Z' (pairJoin a b (pairSplit a b i)) = Z' i
  rw [pairJoin_split hab hi]

theorem truncated_paired {bd : ℕ → ℕ} {ks : List ℕ} {X Y : List ℕ → ℝ} (h : Truncated [a, b] [a.prod, b.prod] bd ks X Y) :
    Truncated [List.zipWith (· * ·) a b] (List.zipWith (· * ·) a b) bd ks (paired a b X) (paired a b Y) := by
  induction h with
  | done h => exact .done fun i hi => h _ (pairSplit_valid hab hi)
  | cut h _ ih => exact .cut (nearestCut_paired hab h) ih

end

end T3f
