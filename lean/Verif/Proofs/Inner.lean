import Verif.Proofs.Contract
import Verif.Proofs.Multiply
import Verif.Model.Inner

/-!
# Inner products
-/

namespace T3f

variable {K : Type} [CommRing K]

theorem batch_cases {ba bb : Option ℕ} (hc : ba = none ∨ bb = none ∨ ba = bb) :
    (ba = none ∧ bb = none) ∨ (∃ s, ba = some s ∧ bb = none) ∨ (∃ s, ba = none ∧ bb = some s) ∨
      ∃ s, ba = some s ∧ bb = some s := by
  rcases ba with _ | s <;> rcases bb with _ | t <;> simp_all

/-- First einsum of the contraction of two chains. -/
theorem innerEin_first (c : Char) (hc' : c = 'o' ∨ c = 'n') (ba bb : Option ℕ)
    (hc : ba = none ∨ bb = none ∨ ba = bb) (A B : Tensor K) (M : List ℕ) (ax : List Char)
    (hM : (M.length = 1 ∧ ax = chars! "i") ∨ (M.length = 2 ∧ ax = chars! "ij")) (ra rb ra' rb' : ℕ)
    (hA : A.shape = ba.toList ++ ra :: (M ++ [ra'])) (hB : B.shape = bb.toList ++ rb :: (M ++ [rb'])) :
    ∃ E, einsum (innerSpec true ax (bLabel c ba) (bLabel c bb) (bLabel c (resBatch ba bb))) [A, B]
        = Except.ok E ∧
      E.shape = (resBatch ba bb).toList ++ [ra', rb'] ∧
      ∀ o x' y', E.get (lsel (resBatch ba bb) o ++ [x', y']) =
        ∑ x ∈ Finset.range ra, ∑ y ∈ Finset.range rb, ∑ n ∈ Finset.range M.prod,
          A.get (lsel ba o ++ x :: (unravel M n ++ [x'])) * B.get (lsel bb o ++ y :: (unravel M n ++ [y'])) := by
  rcases hM with ⟨hM, rfl⟩ | ⟨hM, rfl⟩
  · obtain ⟨i, rfl⟩ := List.length_eq_one_iff.1 hM
    have key : ∀ o x' y', ∑ x ∈ Finset.range ra, ∑ y ∈ Finset.range rb, ∑ n ∈ Finset.range [i].prod,
          A.get (lsel ba o ++ x :: (unravel [i] n ++ [x'])) * B.get (lsel bb o ++ y :: (unravel [i] n ++ [y'])) =
        ∑ x ∈ Finset.range ra, ∑ z ∈ Finset.range i, ∑ y ∈ Finset.range rb,
          A.get (lsel ba o ++ [x, z, x']) * B.get (lsel bb o ++ [y, z, y']) := by
      intro o x' y'
      refine Finset.sum_congr rfl fun x _ => ?_
      rw [Finset.sum_comm]
      rw [sum_mode1 i fun v => ∑ y ∈ Finset.range rb,
        A.get (lsel ba o ++ x :: (v ++ [x'])) * B.get (lsel bb o ++ y :: (v ++ [y']))]
      rfl
    simp only [key]
    rcases hc' with rfl | rfl <;>
    rcases batch_cases hc with ⟨rfl, rfl⟩ | ⟨s, rfl, rfl⟩ | ⟨s, rfl, rfl⟩ | ⟨s, rfl, rfl⟩ <;>
    exact ⟨_, if_pos (by simp [innerSpec, bLabel, resBatch, einDims, hA, hB, List.lookup]), by
      simp [innerSpec, bLabel, resBatch, einDims, hA, hB, List.lookup, lookupLabel], fun o x' y' => by
      simp [innerSpec, bLabel, resBatch, einDims, hA, hB, List.lookup, lookupLabel, sumOver, List.eraseDupsBy,
          List.eraseDupsBy.loop, lsel]⟩
  · obtain ⟨i, j, rfl⟩ := List.length_eq_two.1 hM
    have key : ∀ o x' y', ∑ x ∈ Finset.range ra, ∑ y ∈ Finset.range rb, ∑ n ∈ Finset.range [i, j].prod,
          A.get (lsel ba o ++ x :: (unravel [i, j] n ++ [x'])) * B.get (lsel bb o ++ y :: (unravel [i, j] n ++ [y'])) =
        ∑ x ∈ Finset.range ra, ∑ z ∈ Finset.range i, ∑ w ∈ Finset.range j, ∑ y ∈ Finset.range rb,
          A.get (lsel ba o ++ [x, z, w, x']) * B.get (lsel bb o ++ [y, z, w, y']) := by
      intro o x' y'
      refine Finset.sum_congr rfl fun x _ => ?_
      rw [Finset.sum_comm]
      rw [sum_mode2 i j fun v => ∑ y ∈ Finset.range rb,
        A.get (lsel ba o ++ x :: (v ++ [x'])) * B.get (lsel bb o ++ y :: (v ++ [y']))]
      rfl
    simp only [key]
    rcases hc' with rfl | rfl <;>
    rcases batch_cases hc with ⟨rfl, rfl⟩ | ⟨s, rfl, rfl⟩ | ⟨s, rfl, rfl⟩ | ⟨s, rfl, rfl⟩ <;>
    exact ⟨_, if_pos (by simp [innerSpec, bLabel, resBatch, einDims, hA, hB, List.lookup]), by
      simp [innerSpec, bLabel, resBatch, einDims, hA, hB, List.lookup, lookupLabel], fun o x' y' => by
      simp [innerSpec, bLabel, resBatch, einDims, hA, hB, List.lookup, lookupLabel, sumOver, List.eraseDupsBy,
          List.eraseDupsBy.loop, lsel]⟩

/-- The einsum of the following steps. -/
theorem innerEin_step (c : Char) (hc' : c = 'o' ∨ c = 'n') (ba bb : Option ℕ)
    (hc : ba = none ∨ bb = none ∨ ba = bb) (Q A B : Tensor K) (M : List ℕ) (ax : List Char)
    (hM : (M.length = 1 ∧ ax = chars! "i") ∨ (M.length = 2 ∧ ax = chars! "ij")) (ra rb ra' rb' : ℕ)
    (hQ : Q.shape = (resBatch ba bb).toList ++ [ra, rb])
    (hA : A.shape = ba.toList ++ ra :: (M ++ [ra'])) (hB : B.shape = bb.toList ++ rb :: (M ++ [rb'])) :
    ∃ E, einsum (innerSpec false ax (bLabel c ba) (bLabel c bb) (bLabel c (resBatch ba bb))) [Q, A, B]
        = Except.ok E ∧
      E.shape = (resBatch ba bb).toList ++ [ra', rb'] ∧
      ∀ o x' y', E.get (lsel (resBatch ba bb) o ++ [x', y']) =
        ∑ x ∈ Finset.range ra, ∑ y ∈ Finset.range rb, Q.get (lsel (resBatch ba bb) o ++ [x, y]) *
          ∑ n ∈ Finset.range M.prod,
          A.get (lsel ba o ++ x :: (unravel M n ++ [x'])) * B.get (lsel bb o ++ y :: (unravel M n ++ [y'])) := by
  simp only [Finset.mul_sum]
  rcases hM with ⟨hM, rfl⟩ | ⟨hM, rfl⟩
  · obtain ⟨i, rfl⟩ := List.length_eq_one_iff.1 hM
    have key : ∀ o x' y', ∑ x ∈ Finset.range ra, ∑ y ∈ Finset.range rb, ∑ n ∈ Finset.range [i].prod,
          Q.get (lsel (resBatch ba bb) o ++ [x, y]) *
          (A.get (lsel ba o ++ x :: (unravel [i] n ++ [x'])) * B.get (lsel bb o ++ y :: (unravel [i] n ++ [y']))) =
        ∑ x ∈ Finset.range ra, ∑ y ∈ Finset.range rb, ∑ z ∈ Finset.range i,
          Q.get (lsel (resBatch ba bb) o ++ [x, y]) *
          (A.get (lsel ba o ++ [x, z, x']) * B.get (lsel bb o ++ [y, z, y'])) := by
      intro o x' y'
      refine Finset.sum_congr rfl fun x _ => Finset.sum_congr rfl fun y _ => ?_
      rw [sum_mode1 i fun v => Q.get (lsel (resBatch ba bb) o ++ [x, y]) *
        (A.get (lsel ba o ++ x :: (v ++ [x'])) * B.get (lsel bb o ++ y :: (v ++ [y'])))]
      rfl
    simp only [key]
    rcases hc' with rfl | rfl <;>
    rcases batch_cases hc with ⟨rfl, rfl⟩ | ⟨s, rfl, rfl⟩ | ⟨s, rfl, rfl⟩ | ⟨s, rfl, rfl⟩ <;>
    exact ⟨_, if_pos (by simp [innerSpec, bLabel, resBatch, einDims, hQ, hA, hB, List.lookup]), by
      simp [innerSpec, bLabel, resBatch, einDims, hQ, hA, hB, List.lookup, lookupLabel], fun o x' y' => by
      simp [innerSpec, bLabel, resBatch, einDims, hQ, hA, hB, List.lookup, lookupLabel, sumOver, List.eraseDupsBy,
          List.eraseDupsBy.loop, lsel]⟩
  · obtain ⟨i, j, rfl⟩ := List.length_eq_two.1 hM
    have key : ∀ o x' y', ∑ x ∈ Finset.range ra, ∑ y ∈ Finset.range rb, ∑ n ∈ Finset.range [i, j].prod,
          Q.get (lsel (resBatch ba bb) o ++ [x, y]) *
          (A.get (lsel ba o ++ x :: (unravel [i, j] n ++ [x'])) * B.get (lsel bb o ++ y :: (unravel [i, j] n ++ [y']))) =
        ∑ x ∈ Finset.range ra, ∑ y ∈ Finset.range rb, ∑ z ∈ Finset.range i, ∑ w ∈ Finset.range j,
          Q.get (lsel (resBatch ba bb) o ++ [x, y]) *
          (A.get (lsel ba o ++ [x, z, w, x']) * B.get (lsel bb o ++ [y, z, w, y'])) := by
      intro o x' y'
      refine Finset.sum_congr rfl fun x _ => Finset.sum_congr rfl fun y _ => ?_
      rw [sum_mode2 i j fun v => Q.get (lsel (resBatch ba bb) o ++ [x, y]) *
        (A.get (lsel ba o ++ x :: (v ++ [x'])) * B.get (lsel bb o ++ y :: (v ++ [y'])))]
      rfl
    simp only [key]
    rcases hc' with rfl | rfl <;>
    rcases batch_cases hc with ⟨rfl, rfl⟩ | ⟨s, rfl, rfl⟩ | ⟨s, rfl, rfl⟩ | ⟨s, rfl, rfl⟩ <;>
    exact ⟨_, if_pos (by simp [innerSpec, bLabel, resBatch, einDims, hQ, hA, hB, List.lookup]), by
      simp [innerSpec, bLabel, resBatch, einDims, hQ, hA, hB, List.lookup, lookupLabel], fun o x' y' => by
      simp [innerSpec, bLabel, resBatch, einDims, hQ, hA, hB, List.lookup, lookupLabel, sumOver, List.eraseDupsBy,
          List.eraseDupsBy.loop, lsel]⟩

theorem modeLabels_spec {t : TT K} (h : t.WF) (k : ℕ) :
    ((t.modes k).length = 1 ∧ modeLabels t = chars! "i") ∨
    ((t.modes k).length = 2 ∧ modeLabels t = chars! "ij") := by
  rcases rows_cases h with ⟨row, hr, hl⟩ | ⟨row0, row1, hr, hl0, hl1⟩
  · left; simp [TT.modes, hr, modeLabels, TT.isMatrix]
  · right; simp [TT.modes, hr, modeLabels, TT.isMatrix]

omit [CommRing K] in
theorem modeLabels_congr {a b : TT K} (h : a.rawShape = b.rawShape) : modeLabels b = modeLabels a := by
  by_cases hm : a.isMatrix
  · have hm' : b.isMatrix := by rw [TT.isMatrix, ← h]; exact hm
    rw [modeLabels, modeLabels, if_pos hm, if_pos hm']
  · have hm' : ¬ b.isMatrix := by rw [TT.isMatrix, ← h]; exact hm
    rw [modeLabels, modeLabels, if_neg hm, if_neg hm']

/-- The contraction of two TT objects of the same shape. -/
theorem innerLoop_spec (c : Char) (hc' : c = 'o' ∨ c = 'n') {a b : TT K} (ha : a.WF) (hb : b.WF)
    (hr : a.rawShape = b.rawShape) (hc : a.batch = none ∨ b.batch = none ∨ a.batch = b.batch)
    (ax : List Char) (hax : ax = modeLabels a) :
    ∃ T, innerLoop a b a.ndims ax (bLabel c a.batch) (bLabel c b.batch)
        (bLabel c (resBatch a.batch b.batch)) = Except.ok T ∧
      T.shape = (resBatch a.batch b.batch).toList ++ [1, 1] ∧
      ∀ o, T.get (lsel (resBatch a.batch b.batch) o ++ [0, 0]) =
        ∑ n ∈ Finset.range (restShape a.rawShape).prod,
          a.entry (lsel a.batch o) (restModes a.rawShape (unravel (restShape a.rawShape) n)) *
          b.entry (lsel b.batch o) (restModes a.rawShape (unravel (restShape a.rawShape) n)) := by
  have hn : a.ndims = b.ndims := by
    rcases rows_cases ha with ⟨row, h1, h2⟩ | ⟨row, _, h1, h2, -⟩
    · rw [← h2]; exact hb.rows_len row (by simp [← hr, h1])
    · rw [← h2]; exact hb.rows_len row (by simp [← hr, h1])
  have hmod : ∀ k, b.modes k = a.modes k := fun k => by simp [TT.modes, hr]
  have hpos := ha.pos
  set Q := resBatch a.batch b.batch with hQ
  let P : ℕ → Tensor K → Prop := fun k T => T.shape = Q.toList ++ [a.rank k, b.rank k] ∧
    ∀ o x y, T.get (lsel Q o ++ [x, y]) = msum a.modes k (fun g =>
      lprod a.rank (a.slice (lsel a.batch o) g) k x * lprod b.rank (b.slice (lsel b.batch o) g) k y)
  have rec2 : ∀ k o x y, msum a.modes (k + 1) (fun g =>
      lprod a.rank (a.slice (lsel a.batch o) g) (k + 1) x * lprod b.rank (b.slice (lsel b.batch o) g) (k + 1) y)
      = ∑ x' ∈ Finset.range (a.rank k), ∑ y' ∈ Finset.range (b.rank k),
        msum a.modes k (fun g =>
          lprod a.rank (a.slice (lsel a.batch o) g) k x' * lprod b.rank (b.slice (lsel b.batch o) g) k y') *
          ∑ n ∈ Finset.range (a.modes k).prod,
            (a.core k).get (lsel a.batch o ++ x' :: (unravel (a.modes k) n ++ [x])) *
            (b.core k).get (lsel b.batch o ++ y' :: (unravel (a.modes k) n ++ [y])) := by
    intro k o x y
    exact msum_lprod2 a.rank b.rank
      (fun j v x y => (a.core j).get (lsel a.batch o ++ x :: (v ++ [y])))
      (fun j v x y => (b.core j).get (lsel b.batch o ++ x :: (v ++ [y]))) a.modes k x y
  obtain ⟨E, eE, sE, vE⟩ := innerEin_first c hc' a.batch b.batch hc (a.core 0) (b.core 0) (a.modes 0) ax
    (by rw [hax]; exact modeLabels_spec ha 0) _ _ _ _ (ha.core_shape 0 hpos)
    (by rw [← hmod]; exact hb.core_shape 0 (by omega))
  obtain ⟨T, eT, sT, vT⟩ := forRange_inv P (fun k res => do
    let ac ← pyGet a.cores k
    let bc ← pyGet b.cores k
    einsum (innerSpec false ax (bLabel c a.batch) (bLabel c b.batch) (bLabel c Q)) [res, ac, bc])
    1 (a.ndims - 1) E ⟨sE, fun o x y => by
      rw [vE, rec2 0, ha.rank_first, hb.rank_first]
      simp [msum, lprod]⟩ (by
      intro k T hk hk' ⟨sT, vT⟩
      obtain ⟨E', eE', sE', vE'⟩ := innerEin_step c hc' a.batch b.batch hc T (a.core k) (b.core k)
        (a.modes k) ax (by rw [hax]; exact modeLabels_spec ha k) _ _ _ _ sT (ha.core_shape k (by omega))
        (by rw [← hmod]; exact hb.core_shape k (by omega))
      refine ⟨E', ?_, sE', fun o x y => ?_⟩
      · simp only [ha.pyCore (show k < a.ndims by omega), hb.pyCore (show k < b.ndims by omega), R.ok_bind]
        exact eE'
      · rw [vE', rec2]
        refine Finset.sum_congr rfl fun x' _ => Finset.sum_congr rfl fun y' _ => ?_
        rw [vT])
  rw [show 1 + (a.ndims - 1) = a.ndims by omega] at sT vT
  refine ⟨T, ?_, ?_, fun o => ?_⟩
  · unfold innerLoop
    simp only [ha.pyCore hpos, hb.pyCore (show 0 < b.ndims by omega), R.ok_bind]
    rw [← hQ] at eE
    rw [eE, R.ok_bind]
    exact eT
  · rw [sT, ha.rank_last, hn, hb.rank_last]
  · rw [vT]
    have := msum_rest ha (fun g => a.entry (lsel a.batch o) g * b.entry (lsel b.batch o) g) (by
      intro g g' hg
      change _ * _ = _ * _
      exact congrArg₂ (· * ·) (entry_depends a _ g g' hg) (entry_depends b _ g g' (by rw [← hn]; exact hg)))
    rw [← this]
    simp only [TT.entry, ← hn]

/-- Two TT objects of the same shape have equally many cores. -/
theorem ndims_eq_of_rawShape {a b : TT K} (ha : a.WF) (hb : b.WF) (hr : a.rawShape = b.rawShape) :
    a.ndims = b.ndims := by
  rcases rows_cases ha with ⟨row, h1, h2⟩ | ⟨row, _, h1, h2, -⟩
  · rw [← h2]; exact hb.rows_len row (by simp [← hr, h1])
  · rw [← h2]; exact hb.rows_len row (by simp [← hr, h1])

/-- What `flat_inner` guarantees on entries. -/
theorem flatInner_spec {a b : TT K} (ha : a.WF) (hb : b.WF) (hr : a.rawShape = b.rawShape)
    (hc : BCompat a.batch b.batch) :
    ∃ T, flatInner a b = Except.ok T ∧ T.shape = (squeezed (bcast a.batch b.batch)).toList ∧
      ∀ o, o < (bcast a.batch b.batch).getD 1 → T.get (bsel (squeezed (bcast a.batch b.batch)) o) =
        ∑ n ∈ Finset.range (restShape a.rawShape).prod,
          a.entry (bsel a.batch o) (restModes a.rawShape (unravel (restShape a.rawShape) n)) *
          b.entry (bsel b.batch o) (restModes a.rawShape (unravel (restShape a.rawShape) n)) := by
  have hn := ndims_eq_of_rawShape ha hb hr
  obtain ⟨A, eA, wA, rA, kA, nA, bA, vA⟩ := squeeze_bsel ha
  obtain ⟨B, eB, wB, rB, kB, nB, bB, vB⟩ := squeeze_bsel hb
  have hcases : A.batch = none ∨ B.batch = none ∨ A.batch = B.batch := by
    rw [bA, bB]; exact squeezed_cases hc
  have hres : resBatch A.batch B.batch = squeezed (bcast a.batch b.batch) := by
    rw [bA, bB]; exact resBatch_squeezed hc
  obtain ⟨T, eT, sT, vT⟩ := innerLoop_spec 'o' (Or.inl rfl) wA wB (by rw [rA, rB, hr]) hcases
    (modeLabels a) (modeLabels_congr rA)
  obtain ⟨s1, v1⟩ := squeezeAll_batch T _ 2 sT
  have hsq : squeezed (resBatch A.batch B.batch) = squeezed (bcast a.batch b.batch) := by
    rw [hres, squeezed_eq, if_neg (squeezed_ne_one _)]
  refine ⟨squeezeAll T, ?_, by rw [s1, hsq], fun o ho => ?_⟩
  · unfold flatInner
    simp only [require_pos (show a.isMatrix ↔ b.isMatrix by simp [TT.isMatrix, hr]),
      require_pos ((isBroadcast_iff a b).2 hc), require_pos hn.symm, R.ok_bind, eA, eB]
    rw [← nA, eT, R.ok_bind]; rfl
  · rw [← hsq, v1 o (by rw [hres, squeezed_getD]; exact ho)]
    rw [show List.replicate 2 0 = [0, 0] from rfl, vT, rA]
    obtain ⟨vo1, vo2⟩ := bcast_valid hc ho
    refine Finset.sum_congr rfl fun n hn' => ?_
    have hv := unravel_valid (show n < (restShape a.rawShape).prod by simpa using hn')
    rw [vA o _ vo1 (by rw [← rA]; exact validModes_rest wA (by rw [rA]; exact hv)),
      vB o _ vo2 (by rw [hr, ← rB]; exact validModes_rest wB (by rw [rB, ← hr]; exact hv))]

/-! ## Mode sizes that differ -/

omit [CommRing K] in
theorem forRange_error {σ : Type} (P : ℕ → σ → Prop) (f : ℕ → σ → R σ) (a n k : ℕ) (e : Err) (s : σ)
    (h0 : P a s) (hk : a ≤ k) (hk' : k < a + n)
    (hs : ∀ i s, a ≤ i → i < k → P i s → ∃ s', f i s = Except.ok s' ∧ P (i + 1) s')
    (he : ∀ s, P k s → f k s = Except.error e) : forRange f a n s = Except.error e := by
  induction n generalizing a s with
  | zero => omega
  | succ n ih =>
    rcases Nat.eq_or_lt_of_le hk with rfl | hlt
    · simp [forRange, he s h0]
    · obtain ⟨s1, e1, h1⟩ := hs a s le_rfl hlt h0
      rw [forRange, e1, R.ok_bind]
      exact ih (a + 1) s1 h1 hlt (by omega) fun i s hi hi' h => hs i s (by omega) hi' h

theorem innerEin_error (first : Bool) (ba bb : Option ℕ)
    (Q A B : Tensor K) (M M' : List ℕ) (ax : List Char)
    (hM : (M.length = 1 ∧ M'.length = 1 ∧ ax = chars! "i") ∨
      (M.length = 2 ∧ M'.length = 2 ∧ ax = chars! "ij")) (hne : M ≠ M') (ra rb ra' rb' : ℕ)
    (hQ : Q.shape = (resBatch ba bb).toList ++ [ra, rb])
    (hA : A.shape = ba.toList ++ ra :: (M ++ [ra'])) (hB : B.shape = bb.toList ++ rb :: (M' ++ [rb'])) :
    einsum (innerSpec first ax (bLabel 'o' ba) (bLabel 'o' bb) (bLabel 'o' (resBatch ba bb)))
      ((if first then [] else [Q]) ++ [A, B]) = Except.error Err.tf := by
  refine if_neg ?_
  rintro ⟨-, h, -⟩
  rcases hM with ⟨h1, h2, rfl⟩ | ⟨h1, h2, rfl⟩
  · obtain ⟨i, rfl⟩ := List.length_eq_one_iff.1 h1
    obtain ⟨i', rfl⟩ := List.length_eq_one_iff.1 h2
    have := h ('i', i')
    rcases first <;> rcases ba with _ | s <;> rcases bb with _ | t <;>
      simp [innerSpec, bLabel, resBatch, einDims, hQ, hA, hB, List.lookup] at this <;> simp [this] at hne
  · obtain ⟨i, j, rfl⟩ := List.length_eq_two.1 h1
    obtain ⟨i', j', rfl⟩ := List.length_eq_two.1 h2
    have h3 := h ('i', i')
    have h4 := h ('j', j')
    rcases first <;> rcases ba with _ | s <;> rcases bb with _ | t <;>
      simp [innerSpec, bLabel, resBatch, einDims, hQ, hA, hB, List.lookup] at h3 h4 <;> simp [h3, h4] at hne

theorem flatInner_shape_error {a b : TT K} (ha : a.WF) (hb : b.WF) (hm : a.isMatrix ↔ b.isMatrix)
    (hn : a.ndims = b.ndims) (hr : a.rawShape ≠ b.rawShape)
    (hc : BCompat a.batch b.batch) : flatInner a b = Except.error Err.tf := by
  obtain ⟨A, eA, wA, rA, kA, nA, bA, -⟩ := squeeze_bsel ha
  obtain ⟨B, eB, wB, rB, kB, nB, bB, -⟩ := squeeze_bsel hb
  have hcases : A.batch = none ∨ B.batch = none ∨ A.batch = B.batch := by
    rw [bA, bB]; exact squeezed_cases hc
  have hlen : A.rawShape.length = B.rawShape.length := by
    rw [rA, rB]
    simp only [TT.isMatrix] at hm
    rcases ha.rows with h1 | h1 <;> rcases hb.rows with h2 | h2 <;> omega
  have hnAB : A.ndims = B.ndims := by omega
  have hex : ∃ k, k < A.ndims ∧ A.modes k ≠ B.modes k := by
    by_contra hcon
    push Not at hcon
    apply hr
    rw [← rA, ← rB, wA.rows_eq, wB.rows_eq, ← hlen, ← hnAB, rowsOf, rowsOf]
    refine List.map_congr_left fun r _ => List.map_congr_left fun k hk => ?_
    rw [hcon k (by simpa using hk)]
  have hML : ∀ k, ((A.modes k).length = 1 ∧ (B.modes k).length = 1 ∧ modeLabels A = chars! "i") ∨
      ((A.modes k).length = 2 ∧ (B.modes k).length = 2 ∧ modeLabels A = chars! "ij") := by
    intro k
    have : (B.modes k).length = (A.modes k).length := by simp [TT.modes, hlen]
    rw [this]
    rcases modeLabels_spec wA k with ⟨h1, h2⟩ | ⟨h1, h2⟩
    · exact Or.inl ⟨h1, h1, h2⟩
    · exact Or.inr ⟨h1, h1, h2⟩
  have hpos := wA.pos
  have herr : innerLoop A B A.ndims (modeLabels A) (bLabel 'o' A.batch) (bLabel 'o' B.batch)
      (bLabel 'o' (resBatch A.batch B.batch)) = Except.error Err.tf := by
    classical
    obtain ⟨hk, hne⟩ := Nat.find_spec hex
    have hmin : ∀ j < Nat.find hex, A.modes j = B.modes j := by
      intro j hj
      have := Nat.find_min hex hj
      push Not at this
      exact this (by omega)
    set k := Nat.find hex with hk_def
    unfold innerLoop
    simp only [wA.pyCore hpos, wB.pyCore (show 0 < B.ndims by omega), R.ok_bind]
    by_cases hk0 : k = 0
    · rw [hk0] at hne
      have := innerEin_error true A.batch B.batch
        (zeros ((resBatch A.batch B.batch).toList ++ [A.rank 0, B.rank 0])) (A.core 0) (B.core 0) _ _
        (modeLabels A) (hML 0) hne _ _ _ _ rfl (wA.core_shape 0 hpos) (wB.core_shape 0 (by omega))
      simp only [if_true, List.nil_append] at this
      rw [this, R.error_bind]
    · obtain ⟨E, eE, sE, -⟩ := innerEin_first 'o' (Or.inl rfl) A.batch B.batch hcases (A.core 0) (B.core 0)
        (A.modes 0) (modeLabels A) (modeLabels_spec wA 0) _ _ _ _ (wA.core_shape 0 hpos)
        (by rw [hmin 0 (by omega)]; exact wB.core_shape 0 (by omega))
      rw [eE, R.ok_bind]
      refine forRange_error (fun j T => T.shape = (resBatch A.batch B.batch).toList ++ [A.rank j, B.rank j])
        _ 1 (A.ndims - 1) k _ E sE (by omega) (by omega) ?_ ?_
      · intro j T hj hj' sT
        obtain ⟨E', eE', sE', -⟩ := innerEin_step 'o' (Or.inl rfl) A.batch B.batch hcases T (A.core j)
          (B.core j) (A.modes j) (modeLabels A) (modeLabels_spec wA j) _ _ _ _ sT
          (wA.core_shape j (by omega)) (by rw [hmin j (by omega)]; exact wB.core_shape j (by omega))
        refine ⟨E', ?_, sE'⟩
        simp only [wA.pyCore (show j < A.ndims by omega), wB.pyCore (show j < B.ndims by omega), R.ok_bind]
        exact eE'
      · intro T sT
        simp only [wA.pyCore (show k < A.ndims by omega), wB.pyCore (show k < B.ndims by omega), R.ok_bind]
        exact innerEin_error false A.batch B.batch T (A.core k) (B.core k) _ _
          (modeLabels A) (hML k) hne _ _ _ _ sT (wA.core_shape k (by omega)) (wB.core_shape k (by omega))
  unfold flatInner
  simp only [require_pos hm, require_pos ((isBroadcast_iff a b).2 hc), require_pos hn.symm, R.ok_bind, eA, eB]
  rw [← nA, modeLabels_congr rA, herr, R.error_bind]

/-! ## The squared norm -/

theorem frobeniusDiff_spec {t : TT K} (h : t.WF) :
    ∃ T, frobeniusNormSquaredDiff t = Except.ok T ∧ T.shape = t.bpre ∧
      ∀ p, Valid t.bpre p → T.get p = ∑ n ∈ Finset.range (restShape t.rawShape).prod,
        t.entry p (restModes t.rawShape (unravel (restShape t.rawShape) n)) *
        t.entry p (restModes t.rawShape (unravel (restShape t.rawShape) n)) := by
  have hres : resBatch t.batch t.batch = t.batch := by
    rcases hb : t.batch with _ | s <;> simp [resBatch]
  obtain ⟨T, eT, sT, vT⟩ := innerLoop_spec 'n' (Or.inr rfl) h h rfl (Or.inr (Or.inr rfl)) _ rfl
  rw [hres] at eT sT vT
  have s1 : T.shape[T.shape.length - 1]? = some 1 := by
    rw [sT]; rcases hb : t.batch with _ | s <;> simp
  have s2 : (T.shape.eraseIdx (T.shape.length - 1))[(T.shape.eraseIdx (T.shape.length - 1)).length - 1]? = some 1 := by
    rw [sT]; rcases hb : t.batch with _ | s <;> simp
  have e1 : squeezeAxis T (T.shape.length - 1) = Except.ok ⟨T.shape.eraseIdx (T.shape.length - 1),
      fun idx => T.get (idx.insertIdx (T.shape.length - 1) 0)⟩ := if_pos s1
  have e2 : squeezeAxis (⟨T.shape.eraseIdx (T.shape.length - 1),
      fun idx => T.get (idx.insertIdx (T.shape.length - 1) 0)⟩ : Tensor K)
      ((T.shape.eraseIdx (T.shape.length - 1)).length - 1) = Except.ok
      ⟨(T.shape.eraseIdx (T.shape.length - 1)).eraseIdx ((T.shape.eraseIdx (T.shape.length - 1)).length - 1),
        fun idx => T.get ((idx.insertIdx ((T.shape.eraseIdx (T.shape.length - 1)).length - 1) 0).insertIdx
          (T.shape.length - 1) 0)⟩ := if_pos s2
  have e3 : frobeniusNormSquaredDiff t = squeezeAxis (⟨T.shape.eraseIdx (T.shape.length - 1),
      fun idx => T.get (idx.insertIdx (T.shape.length - 1) 0)⟩ : Tensor K)
      ((T.shape.eraseIdx (T.shape.length - 1)).length - 1) := by
    unfold frobeniusNormSquaredDiff
    simp only [eT, R.ok_bind, e1]
  refine ⟨_, e3.trans e2, ?_, fun p hp => ?_⟩
  · simp only [sT, TT.bpre]; rcases hb : t.batch with _ | s <;> simp
  · obtain ⟨o, ho, rfl⟩ := valid_lsel hp
    rw [← vT o]
    simp only [sT]
    congr 1
    rcases hb : t.batch with _ | s <;> simp [lsel]

end T3f
