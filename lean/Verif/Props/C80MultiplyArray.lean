import Verif.Proofs.MulArray
import Verif.Proofs.FullGet
import Verif.Model.Full
import Verif.Spec.ExamplesReal

/-!
# C80: `multiply` by an array

`multiply(tt, right)` and `tt * right` take everything that is not a TT object for a number. The theorems say what an array does instead.
-/

namespace T3f

/-- C80: for arrays that have not more axes than the cores, the call succeeds exactly if the array can be broadcast to the shape of every core; the result is then
a well-formed object of the same kind, shape, batch size and TT-ranks, and the entry at `(m_0, m_1, …)` is multiplied by
`sign(w(m_0)) · ∏_k |w(m_k)|^(1/d)` where `w(m_k)` is the entry of the array that meets the mode index `m_k`. -/
theorem C80_array {a : TT ℝ} (ha : a.WF) (A : Tensor ℝ) (hA : A.shape.length ≤ a.bpre.length + a.rawShape.length + 2) :
    ((∃ c, multiplyArray a A = Except.ok c) ↔ ∀ k < a.ndims, Fits A.shape (a.core k).shape) ∧
    ∀ c, multiplyArray a A = Except.ok c → c.WF ∧ c.rawShape = a.rawShape ∧ c.batch = a.batch ∧ c.ttRanks = a.ttRanks ∧
      ∀ p m, Valid a.bpre p → a.ValidModes m a.ndims →
        c.entry p m = (∏ k ∈ Finset.range a.ndims, |arrayAt A p (m k)| ^ (1 / (a.ndims : ℝ))) * (SignType.sign (arrayAt A p (m 0)) : SignType) * a.entry p m := by
  refine ⟨⟨fun ⟨c, hc⟩ k hk => multiplyArray_fits ha hA hc hk, fun hf => ?_⟩, fun c hc => ?_⟩
  · obtain ⟨c, hc, -⟩ := multiplyArray_ok ha hf
    exact ⟨c, hc⟩
  · obtain ⟨c', hc', h1, h2, h3, h4, -, h5⟩ := multiplyArray_ok ha fun k hk => multiplyArray_fits ha hA hc hk
    rw [hc] at hc'
    cases hc'
    exact ⟨h1, h2, h3, h4, h5⟩

/-- Equal factors give their product. -/
theorem prod_root_sign (w : ℝ) {d : ℕ} (hd : 0 < d) : (∏ _k ∈ Finset.range d, |w| ^ (1 / (d : ℝ))) * (SignType.sign w : SignType) = w := by
  rw [Finset.prod_const, Finset.card_range, one_div, Real.rpow_inv_natCast_pow (abs_nonneg w) (by omega), mul_comm]
  exact sign_mul_abs w

theorem bproj_replicate_one (n : ℕ) (idx : List ℕ) (h : n ≤ idx.length) : bproj (List.replicate n 1) idx = List.replicate n 0 := by
  refine List.ext_getElem (by simp [bproj]; omega) fun t h1 h2 => ?_
  simp [bproj]

theorem fits_replicate_one {n : ℕ} {s : List ℕ} (h : n ≤ s.length) : Fits (List.replicate n 1) s :=
  ⟨by simpa using h, fun t ht => by
    rw [List.length_replicate] at ht
    exact Or.inl (by rw [List.getD_eq_getElem _ _ (by simpa using ht)]; simp)⟩

/-- C80: an array with a single entry, for example of shape `()` or `(1, 1)`, acts as that number. -/
theorem C80_single_entry {a : TT ℝ} (ha : a.WF) {A : Tensor ℝ} {n : ℕ} (hA : A.shape = List.replicate n 1) (hn : n ≤ a.bpre.length + a.rawShape.length + 2) :
    ∃ c, multiplyArray a A = Except.ok c ∧ c.WF ∧ c.rawShape = a.rawShape ∧ c.batch = a.batch ∧ c.ttRanks = a.ttRanks ∧
      ∀ p m, Valid a.bpre p → a.ValidModes m a.ndims → c.entry p m = A.get (List.replicate n 0) * a.entry p m := by
  obtain ⟨c, hc, h1, h2, h3, h4, -, h5⟩ := multiplyArray_ok ha (A := A) fun k hk => by
    rw [hA]; exact fits_replicate_one (by rw [core_axes ha hk]; exact hn)
  refine ⟨c, hc, h1, h2, h3, h4, fun p m hp hm => ?_⟩
  rw [h5 p m hp hm]
  have hw : ∀ k < a.ndims, arrayAt A p (m k) = A.get (List.replicate n 0) := fun k hk => by
    rw [arrayAt, hA, bproj_replicate_one]
    simp only [List.length_append, List.length_cons, List.length_nil, hp.length_eq, (hm k hk).length_eq, TT.modes, List.length_map]
    omega
  rw [Finset.prod_congr rfl fun k hk => by rw [hw k (Finset.mem_range.1 hk)], hw 0 ha.pos, prod_root_sign _ ha.pos]

/-- C80: an array of shape `(B, 1, 1, 1)` (TT-tensors) or `(B, 1, 1, 1, 1)` (TT-matrices) multiplies every member of a batch of size `B` by its own number. -/
theorem C80_per_item {a : TT ℝ} (ha : a.WF) {B : ℕ} (hb : a.batch = some B) {A : Tensor ℝ} (hA : A.shape = B :: List.replicate (a.rawShape.length + 2) 1) :
    ∃ c, multiplyArray a A = Except.ok c ∧ c.WF ∧ c.rawShape = a.rawShape ∧ c.batch = some B ∧ c.ttRanks = a.ttRanks ∧
      ∀ b < B, ∀ m, a.ValidModes m a.ndims → c.entry [b] m = A.get (b :: List.replicate (a.rawShape.length + 2) 0) * a.entry [b] m := by
  have hbp : a.bpre = [B] := by simp [TT.bpre, hb]
  obtain ⟨c, hc, h1, h2, h3, h4, -, h5⟩ := multiplyArray_ok ha (A := A) fun k hk => by
    have hl := core_axes ha hk
    rw [hbp, List.length_singleton] at hl
    rw [hA]
    refine ⟨by rw [hl, List.length_cons, List.length_replicate]; omega, fun t ht => ?_⟩
    cases t with
    | zero =>
      refine Or.inr ?_
      rw [hl, ha.core_shape k hk, hbp]
      simp only [List.length_cons, List.length_replicate, show 0 + (1 + a.rawShape.length + 2 - (a.rawShape.length + 2 + 1)) = 0 by omega]
      rfl
    | succ t =>
      simp only [List.length_cons, List.length_replicate] at ht
      exact Or.inl (by rw [List.getD_cons_succ, List.getD_eq_getElem _ _ (by simp; omega)]; simp)
  refine ⟨c, hc, h1, h2, h3.trans hb, h4, fun b hbB m hm => ?_⟩
  rw [h5 [b] m (by rw [hbp]; exact ⟨hbB, trivial⟩) hm]
  have hw : ∀ k < a.ndims, arrayAt A [b] (m k) = A.get (b :: List.replicate (a.rawShape.length + 2) 0) := fun k hk => by
    have hml : (m k).length = a.rawShape.length := by rw [(hm k hk).length_eq]; simp [TT.modes]
    have hz : (0 :: (m k ++ [0])).length = a.rawShape.length + 2 := by simp [hml]
    have := bproj_replicate_one (a.rawShape.length + 2) (0 :: (m k ++ [0])) hz.ge
    unfold bproj at this
    rw [hz, List.length_replicate, Nat.sub_self, List.drop_zero] at this
    rw [arrayAt, hA, bproj, List.singleton_append]
    simp only [List.length_cons, List.length_replicate, List.length_append, List.length_nil, hml,
      show a.rawShape.length + (0 + 1) + 1 + 1 - (a.rawShape.length + 2 + 1) = 0 by omega, List.drop_zero, List.zipWith_cons_cons, this]
    congr 2
    split
    · omega
    · rfl
  rw [Finset.prod_congr rfl fun k hk => by rw [hw k (Finset.mem_range.1 hk)], hw 0 ha.pos, prod_root_sign _ ha.pos]

/-- C80: an array whose last axis is not of length one is rejected, whatever its other axes; in particular one number per member of a batch, given as a vector. -/
theorem C80_last_axis {a : TT ℝ} (ha : a.WF) {A : Tensor ℝ} (hne : A.shape ≠ []) (h : A.shape.getLastD 0 ≠ 1) : ∃ e, multiplyArray a A = Except.error e :=
  not_ok_error fun _ hc => h (multiplyArray_last ha hc hne)

theorem prod_one_all : ∀ l : List ℕ, l.prod = 1 → ∀ x ∈ l, x = 1
  | [], _, x, hx => by cases hx
  | n :: l, h, x, hx => by
    rw [List.prod_cons] at h
    rcases List.mem_cons.1 hx with rfl | hx
    · exact Nat.eq_one_of_mul_eq_one_right h
    · exact prod_one_all l (Nat.eq_one_of_mul_eq_one_left h) x hx

/-- C80: a single TT-tensor or TT-matrix cannot be multiplied by a dense array of its own shape, unless all its modes have size one. -/
theorem C80_own_shape {a : TT ℝ} (ha : a.WF) (hb : a.batch = none) {A : Tensor ℝ} (hA : A.shape = a.denseShape)
    (h : ∃ row ∈ a.rawShape, ∃ n ∈ row, n ≠ 1) : ∃ e, multiplyArray a A = Except.error e := by
  refine not_ok_error fun c hc => ?_
  obtain ⟨row, hrow, n, hn, hn1⟩ := h
  have hpos := ha.pos
  have hbp : a.bpre = [] := by simp [TT.bpre, hb]
  rcases ha.rows with h1 | h2
  · obtain ⟨row', hr⟩ := List.length_eq_one_iff.1 h1
    rw [hr, List.mem_singleton] at hrow
    subst hrow
    have hA' : A.shape = row := by rw [hA, denseShape_eq, hbp, hr]; rfl
    have := multiplyArray_own_tensor ha hb hr hA' hc
    obtain ⟨k, hk, rfl⟩ := List.getElem_of_mem hn
    have hk' := this k (by rw [← ha.rows_len row (by simp [hr])]; exact hk)
    rw [List.getD_eq_getElem _ _ hk] at hk'
    exact hn1 hk'
  · obtain ⟨I, J, hr⟩ := List.length_eq_two.1 h2
    have hA' : A.shape = [I.prod, J.prod] := by rw [hA, denseShape_eq, hbp, hr]; rfl
    have hJ := multiplyArray_last ha hc (by rw [hA']; simp)
    rw [hA'] at hJ
    simp only [List.getLastD_cons, List.getLastD_nil] at hJ
    have hJ' := prod_one_all J hJ
    have hf := multiplyArray_fits ha (by rw [hA', hbp, hr]; simp) hc hpos
    have hJl : J.length = a.ndims := ha.rows_len J (by simp [hr])
    have hJ0 : J.getD 0 0 = 1 := by rw [List.getD_eq_getElem _ _ (by omega)]; exact hJ' _ (List.getElem_mem _)
    have hI : I.prod = 1 := by
      have := hf.2 0 (by rw [hA']; simp)
      rw [ha.core_shape 0 hpos, hA', hbp] at this
      simp only [TT.modes, hr, List.map_cons, List.map_nil, hJ0] at this
      simpa using this
    have hI' := prod_one_all I hI
    rw [hr] at hrow
    simp only [List.mem_cons, List.not_mem_nil, or_false] at hrow
    rcases hrow with rfl | rfl
    · exact hn1 (hI' n hn)
    · exact hn1 (hJ' n hn)

/-- The tensor of shape `(2, 2)` with all entries one. -/
noncomputable def exOnes2 : TT ℝ where
  cores := [ones [1, 2, 1], ones [1, 2, 1]]
  rawShape := [[2, 2]]
  ttRanks := [1, 1, 1]
  batch := none

theorem exOnes2_wf : exOnes2.WF where
  pos := by simp [exOnes2, TT.ndims]
  ranks_len := by simp [exOnes2, TT.ndims]
  rank_first := rfl
  rank_last := rfl
  rank_pos := by
    intro k hk
    have : k ≤ 2 := hk
    interval_cases k <;> decide
  rows := by simp [exOnes2]
  rows_len := by simp [exOnes2, TT.ndims]
  core_shape := by
    intro k hk
    have : k < 2 := hk
    interval_cases k <;> rfl
  batch_pos := by simp [exOnes2]

/-- C80: an array can be accepted although the result is not the product: the tensor of shape `(2, 2)` with all entries one times the array `[[1], [4]]`, whose
dense product is `[[1, 1], [4, 4]]`, gives `[[1, 2], [2, 4]]`. -/
theorem C80_not_product : ∃ (a c : TT ℝ) (A F D P : Tensor ℝ), a.WF ∧ c.WF ∧ multiplyArray a A = Except.ok c ∧ full a = Except.ok F ∧ full c = Except.ok D ∧
    binop (· * ·) F A = Except.ok P ∧ D.shape = P.shape ∧ D.get [0, 1] = 2 ∧ P.get [0, 1] = 1 := by
  set A : Tensor ℝ := .ofList [2, 1] [1, 4] with hA
  obtain ⟨c, hc, h1, h2, h3, -, h4, h5⟩ := multiplyArray_ok exOnes2_wf (A := A) (by
    intro k hk
    have : k < 2 := hk
    refine ⟨?_, fun t ht => ?_⟩
    · interval_cases k <;> decide
    · have : t < 2 := ht
      interval_cases k <;> interval_cases t <;> decide)
  obtain ⟨F, hF, sF, vF⟩ := full_ok exOnes2_wf
  obtain ⟨D, hD, sD, vD⟩ := full_ok h1
  have sF' : F.shape = [2, 2] := sF
  have e := binop_right (f := (· * ·)) (a := F) (b := A) (by
    rw [sF']
    refine ⟨by decide, fun t ht => ?_⟩
    have : t < 2 := ht
    interval_cases t <;> decide)
  have hcb : c.bpre = [] := by rw [TT.bpre, h3]; rfl
  have hone : ∀ m : ℕ → List ℕ, exOnes2.entry [] m = 1 := by
    intro m
    simp [TT.entry, TT.ndims, exOnes2, lprod, TT.rank, TT.slice, TT.core, ones]
  have q1 := vF [] [0, 1] trivial (by decide)
  have q2 := vD [] [0, 1] (by rw [hcb]; trivial) (by rw [h2]; decide)
  rw [h2, h5 [] _ trivial (validModes_rest exOnes2_wf (i := [0, 1]) (by decide)), hone] at q2
  rw [hone] at q1
  refine ⟨exOnes2, c, A, F, D, _, exOnes2_wf, h1, hc, hF, hD, e, ?_, ?_, ?_⟩
  · rw [sD, hcb, h2, sF']; rfl
  · rw [List.nil_append] at q2
    rw [q2]
    have w0 : arrayAt A [] (restModes exOnes2.rawShape [0, 1] 0) = 1 := rfl
    have w1 : arrayAt A [] (restModes exOnes2.rawShape [0, 1] 1) = 4 := rfl
    have hd : exOnes2.ndims = 2 := rfl
    rw [hd, Finset.prod_range_succ, Finset.prod_range_one, w0, w1]
    have : (4 : ℝ) = 2 ^ (2 : ℕ) := by norm_num
    rw [show |(4 : ℝ)| ^ (1 / ((2 : ℕ) : ℝ)) = 2 by
      rw [abs_of_nonneg (by norm_num), this, one_div, Real.pow_rpow_inv_natCast (by norm_num) (by norm_num)]]
    simp
  · change F.get (bproj F.shape [0, 1]) * A.get (bproj A.shape [0, 1]) = 1
    rw [sF', show bproj [2, 2] [0, 1] = [0, 1] from rfl, show F.get [0, 1] = 1 from q1]
    change 1 * ((1 : ℝ)) = 1
    norm_num

/-- C80: an array with more axes than the cores can be accepted although the result is not a tensor of the advertised shape: the tensor of shape `(2, 2)` with all
entries one times ones of shape `(1, 2, 1, 1)` is an object with raw shape `((2, 2),)` that `full` rejects. -/
theorem C80_malformed : ∃ (a c : TT ℝ) (A : Tensor ℝ), a.WF ∧ multiplyArray a A = Except.ok c ∧ c.rawShape = a.rawShape ∧ ¬ c.WF ∧ ∃ e, full c = Except.error e := by
  refine ⟨exOnes2, _, ones [1, 2, 1, 1], exOnes2_wf, rfl, rfl, fun h => ?_, ?_⟩
  · have := congrArg List.length (h.core_shape 0 (by decide))
    revert this
    decide
  · exact ⟨Err.tf, rfl⟩

/-- A batch of two tensors of shape `(2, 3)`. -/
noncomputable def exPair : TT ℝ where
  cores := [ones [2, 1, 2, 2], ones [2, 2, 3, 1]]
  rawShape := [[2, 3]]
  ttRanks := [1, 2, 1]
  batch := some 2

theorem exPair_wf : exPair.WF where
  pos := by simp [exPair, TT.ndims]
  ranks_len := by simp [exPair, TT.ndims]
  rank_first := rfl
  rank_last := rfl
  rank_pos := by
    intro k hk
    have : k ≤ 2 := hk
    interval_cases k <;> decide
  rows := by simp [exPair]
  rows_len := by simp [exPair, TT.ndims]
  core_shape := by
    intro k hk
    have : k < 2 := hk
    interval_cases k <;> rfl
  batch_pos := by simp [exPair]

/-- `C80_array`: the array `[[1], [4]]` fits the cores of a tensor of shape `(2, 2)`, but not those of a tensor of shape `(2, 3)`. -/
example : (∃ c, multiplyArray exOnes2 (.ofList [2, 1] [1, 4]) = Except.ok c) ∧ ¬ ∃ c, multiplyArray exReal (.ofList [2, 1] [1, 4]) = Except.ok c := by
  rw [(C80_array exOnes2_wf (.ofList [2, 1] [1, 4]) (by decide)).1, (C80_array exReal_wf (.ofList [2, 1] [1, 4]) (by decide)).1]
  refine ⟨fun k hk => ⟨?_, fun t ht => ?_⟩, fun h => ?_⟩
  · have : k < 2 := hk
    interval_cases k <;> decide
  · have : k < 2 := hk
    have : t < 2 := ht
    interval_cases k <;> interval_cases t <;> decide
  · have := (h 1 (by decide)).2 0 (by decide)
    revert this
    decide

/-- `C80_per_item`: the members of a batch of two times `2` and `-3`. -/
example : ∃ c, multiplyArray exPair (.ofList [2, 1, 1, 1] [2, -3]) = Except.ok c ∧ c.WF ∧
    ∀ m, exPair.ValidModes m 2 → c.entry [0] m = 2 * exPair.entry [0] m ∧ c.entry [1] m = -3 * exPair.entry [1] m := by
  obtain ⟨c, h1, h2, -, -, -, h3⟩ := C80_per_item exPair_wf (B := 2) rfl (A := .ofList [2, 1, 1, 1] [2, -3]) rfl
  exact ⟨c, h1, h2, fun m hm => ⟨h3 0 (by decide) m hm, h3 1 (by decide) m hm⟩⟩

/-- `C80_single_entry`, `C80_last_axis`, `C80_own_shape`: arrays of shape `(1, 1)`, `(2,)` and `(2, 3)`. -/
example : (∃ c, multiplyArray exReal (.ofList [1, 1] [-5]) = Except.ok c) ∧ (∃ e, multiplyArray exPair (.ofList [2] [2, -3]) = Except.error e) ∧
    ∃ e, multiplyArray exReal (ones [2, 3]) = Except.error e := by
  refine ⟨?_, C80_last_axis exPair_wf (by simp [Tensor.ofList]) (by decide), C80_own_shape exReal_wf rfl rfl ⟨[2, 3], by simp [exReal], 2, by simp, by decide⟩⟩
  obtain ⟨c, hc, -⟩ := C80_single_entry exReal_wf (A := .ofList [1, 1] [-5]) (n := 2) rfl (by decide)
  exact ⟨c, hc⟩

end T3f
