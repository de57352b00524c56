import Verif.Proofs.ChainEntry
import Verif.Model.Multiply
import Verif.Spec.Batches

/-!
# Elementwise product
-/

namespace T3f

variable {K : Type} [CommRing K]

omit [CommRing K] in
theorem isBroadcast_iff (a b : TT K) : isBatchBroadcastingPossible a b = true ↔ BCompat a.batch b.batch := by
  unfold isBatchBroadcastingPossible BCompat
  rcases a.batch with _ | m <;> rcases b.batch with _ | n <;> simp [or_assoc]

theorem mulOutBatch_bshape (ba bb : Option ℕ) (h : BCompat ba bb) (hb : bb ≠ some 0) (ha : ba ≠ some 0) :
    bshape ba.toList bb.toList = some (mulOutBatch ba bb).toList := by
  rcases ba with _ | m <;> rcases bb with _ | n <;> simp [mulOutBatch, bshape, BCompat] at *
  split_ifs <;> simp_all; omega

omit [CommRing K] in
/-- Merging the two left rank axes and the two right rank axes of a core (and all batch axes). -/
theorem reshape_core (E : Tensor K) (P M : List ℕ) (ra rb ra' rb' : ℕ)
    (hE : E.shape = P ++ ra :: rb :: (M ++ [ra', rb'])) (Q : List ℕ) (target : List (Option ℕ))
    (ht : resolveShape E.shape.prod target = Except.ok (Q ++ (ra * rb) :: (M ++ [ra' * rb']))) :
    ∃ T, reshape E target = Except.ok T ∧ T.shape = Q ++ (ra * rb) :: (M ++ [ra' * rb']) ∧
      ∀ q p x y m x' y', q.length = Q.length → Valid P p → ravel Q q = ravel P p → x < ra → y < rb →
        Valid M m → x' < ra' → y' < rb' →
        T.get (q ++ (x * rb + y) :: (m ++ [x' * rb' + y'])) = E.get (p ++ x :: y :: (m ++ [x', y'])) := by
  obtain ⟨T, eT, sT, vT⟩ := reshape_spec E target _ ht
  refine ⟨T, eT, sT, fun q p x y m x' y' hq hp hqp hx hy hm hx' hy' => vT _ _ ?_ ?_⟩
  · rw [hE]
    exact valid_append hp ⟨hx, hy, valid_append hm ⟨hx', hy', trivial⟩⟩
  · rw [hE, ravel_append _ _ hq, ravel_append _ _ hp.length_eq, hqp]
    simp only [ravel_cons]
    rw [ravel_append _ _ hm.length_eq, ravel_append _ _ hm.length_eq]
    simp only [ravel_cons, List.prod_cons, List.prod_append, List.prod_nil, ravel_nil]
    ring

/-- The einsum call of `multiply`, for all combinations of batch sizes. -/
theorem mulEin (ba bb : Option ℕ) (hc : BCompat ba bb) (ha0 : ba ≠ some 0) (A B : Tensor K) (M : List ℕ)
    (ra rb ra' rb' : ℕ) (hM : M.length = 1 ∨ M.length = 2)
    (hA : A.shape = ba.toList ++ ra :: (M ++ [ra'])) (hB : B.shape = bb.toList ++ rb :: (M ++ [rb'])) :
    ∃ E P, einsum ([(mulLabels ba bb).1 ++ (if M.length = 2 then chars! "aijb" else chars! "aib"),
        (mulLabels ba bb).2.1 ++ (if M.length = 2 then chars! "cijd" else chars! "cid")],
        (mulLabels ba bb).2.2 ++ (if M.length = 2 then chars! "acijbd" else chars! "acibd")) [A, B] =
          Except.ok E ∧ E.shape = P ++ ra :: rb :: (M ++ [ra', rb']) ∧
      P.prod = (mulOutBatch ba bb).getD 1 ∧
      ∀ q, Valid (mulOutBatch ba bb).toList q → ∃ p, Valid P p ∧
        ravel P p = ravel (mulOutBatch ba bb).toList q ∧ ∀ x y m x' y', m.length = M.length →
        E.get (p ++ x :: y :: (m ++ [x', y'])) =
          A.get (bproj ba.toList q ++ x :: (m ++ [x'])) * B.get (bproj bb.toList q ++ y :: (m ++ [y'])) := by
  have hcases : ∃ i j, M = [i] ∨ M = [i, j] := by
    rcases hM with h | h
    · obtain ⟨n, rfl⟩ := List.length_eq_one_iff.1 h; exact ⟨n, 0, Or.inl rfl⟩
    · obtain ⟨n, m, rfl⟩ := List.length_eq_two.1 h; exact ⟨n, m, Or.inr rfl⟩
  have m1 : ∀ m : List ℕ, m.length = 1 → ∃ u, m = [u] := fun m hm => List.length_eq_one_iff.1 hm
  have m2 : ∀ m : List ℕ, m.length = 2 → ∃ u v, m = [u, v] := fun m hm => List.length_eq_two.1 hm
  obtain ⟨i, j, rfl | rfl⟩ := hcases
  · rcases ba with _ | s <;> rcases bb with _ | t
    · refine ⟨_, [], if_pos (by simp [mulLabels, einDims, hA, hB, List.lookup]), by
        simp [mulLabels, einDims, hA, hB, List.lookup, lookupLabel], rfl, fun q hq => ⟨[], trivial, ?_, ?_⟩⟩
      · simp [mulOutBatch]
      · intro x y m x' y' hm
        obtain ⟨u, rfl⟩ := m1 m hm
        simp [mulLabels, einDims, hA, hB, List.lookup, lookupLabel, sumOver, List.eraseDupsBy,
          List.eraseDupsBy.loop, bproj]
    · refine ⟨_, [t], if_pos (by simp [mulLabels, einDims, hA, hB, List.lookup]), by
        simp [mulLabels, einDims, hA, hB, List.lookup, lookupLabel], by simp [mulOutBatch],
        fun q hq => ⟨q, hq, rfl, ?_⟩⟩
      intro x y m x' y' hm
      obtain ⟨o, rfl, ho⟩ := valid_toList_some hq
      obtain ⟨u, rfl⟩ := m1 m hm
      rw [show bproj (some t).toList [o] = [o] from bproj_valid hq]
      simp [mulLabels, einDims, hA, hB, List.lookup, lookupLabel, sumOver, List.eraseDupsBy,
          List.eraseDupsBy.loop, bproj]
    · refine ⟨_, [s], if_pos (by simp [mulLabels, einDims, hA, hB, List.lookup]), by
        simp [mulLabels, einDims, hA, hB, List.lookup, lookupLabel], by simp [mulOutBatch],
        fun q hq => ⟨q, hq, rfl, ?_⟩⟩
      intro x y m x' y' hm
      obtain ⟨o, rfl, ho⟩ := valid_toList_some hq
      obtain ⟨u, rfl⟩ := m1 m hm
      rw [show bproj (some s).toList [o] = [o] from bproj_valid hq]
      simp [mulLabels, einDims, hA, hB, List.lookup, lookupLabel, sumOver, List.eraseDupsBy,
          List.eraseDupsBy.loop, bproj]
    · by_cases hst : s = t
      · subst hst
        refine ⟨_, [s], if_pos (by simp [mulLabels, einDims, hA, hB, List.lookup]), by
          simp [mulLabels, einDims, hA, hB, List.lookup, lookupLabel], by simp [mulOutBatch],
          fun q hq => ⟨q, by simpa [mulOutBatch] using hq, by simp [mulOutBatch], ?_⟩⟩
        simp only [mulOutBatch, if_true] at hq
        intro x y m x' y' hm
        obtain ⟨o, rfl, ho⟩ := valid_toList_some hq
        obtain ⟨u, rfl⟩ := m1 m hm
        rw [show bproj (some s).toList [o] = [o] from bproj_valid hq]
        simp [mulLabels, einDims, hA, hB, List.lookup, lookupLabel, sumOver, List.eraseDupsBy,
            List.eraseDupsBy.loop]
      · have h1 : s = 1 ∨ t = 1 := by simpa [BCompat, hst] using hc
        have hout : mulOutBatch (some s) (some t) = some (s * t) := by
          simp only [mulOutBatch, if_neg hst]
          rcases h1 with h | h <;> simp [h]
          rcases s with _ | _ | s <;> simp_all
        refine ⟨_, [s, t], if_pos (by simp [mulLabels, hst, einDims, hA, hB, List.lookup]), by
          simp [mulLabels, hst, einDims, hA, hB, List.lookup, lookupLabel], by simp [hout], fun q hq => ?_⟩
        rw [hout] at hq
        obtain ⟨o, rfl, ho⟩ := valid_toList_some hq
        refine ⟨[if s = 1 then 0 else o, if t = 1 then 0 else o], ?_, ?_, ?_⟩
        · rcases h1 with h | h <;> subst h <;> simp at ho ⊢ <;> split_ifs <;> omega
        · rw [hout]
          rcases h1 with h | h <;> subst h <;> simp at ho ⊢ <;> omega
        · intro x y m x' y' hm
          obtain ⟨u, rfl⟩ := m1 m hm
          simp [mulLabels, hst, einDims, hA, hB, List.lookup, lookupLabel, sumOver, List.eraseDupsBy,
            List.eraseDupsBy.loop, bproj]
  · rcases ba with _ | s <;> rcases bb with _ | t
    · refine ⟨_, [], if_pos (by simp [mulLabels, einDims, hA, hB, List.lookup]), by
        simp [mulLabels, einDims, hA, hB, List.lookup, lookupLabel], rfl, fun q hq => ⟨[], trivial, ?_, ?_⟩⟩
      · simp [mulOutBatch]
      · intro x y m x' y' hm
        obtain ⟨u, v, rfl⟩ := m2 m hm
        simp [mulLabels, einDims, hA, hB, List.lookup, lookupLabel, sumOver, List.eraseDupsBy,
          List.eraseDupsBy.loop, bproj]
    · refine ⟨_, [t], if_pos (by simp [mulLabels, einDims, hA, hB, List.lookup]), by
        simp [mulLabels, einDims, hA, hB, List.lookup, lookupLabel], by simp [mulOutBatch],
        fun q hq => ⟨q, hq, rfl, ?_⟩⟩
      intro x y m x' y' hm
      obtain ⟨o, rfl, ho⟩ := valid_toList_some hq
      obtain ⟨u, v, rfl⟩ := m2 m hm
      rw [show bproj (some t).toList [o] = [o] from bproj_valid hq]
      simp [mulLabels, einDims, hA, hB, List.lookup, lookupLabel, sumOver, List.eraseDupsBy,
          List.eraseDupsBy.loop, bproj]
    · refine ⟨_, [s], if_pos (by simp [mulLabels, einDims, hA, hB, List.lookup]), by
        simp [mulLabels, einDims, hA, hB, List.lookup, lookupLabel], by simp [mulOutBatch],
        fun q hq => ⟨q, hq, rfl, ?_⟩⟩
      intro x y m x' y' hm
      obtain ⟨o, rfl, ho⟩ := valid_toList_some hq
      obtain ⟨u, v, rfl⟩ := m2 m hm
      rw [show bproj (some s).toList [o] = [o] from bproj_valid hq]
      simp [mulLabels, einDims, hA, hB, List.lookup, lookupLabel, sumOver, List.eraseDupsBy,
          List.eraseDupsBy.loop, bproj]
    · by_cases hst : s = t
      · subst hst
        refine ⟨_, [s], if_pos (by simp [mulLabels, einDims, hA, hB, List.lookup]), by
          simp [mulLabels, einDims, hA, hB, List.lookup, lookupLabel], by simp [mulOutBatch],
          fun q hq => ⟨q, by simpa [mulOutBatch] using hq, by simp [mulOutBatch], ?_⟩⟩
        simp only [mulOutBatch, if_true] at hq
        intro x y m x' y' hm
        obtain ⟨o, rfl, ho⟩ := valid_toList_some hq
        obtain ⟨u, v, rfl⟩ := m2 m hm
        rw [show bproj (some s).toList [o] = [o] from bproj_valid hq]
        simp [mulLabels, einDims, hA, hB, List.lookup, lookupLabel, sumOver, List.eraseDupsBy,
            List.eraseDupsBy.loop]
      · have h1 : s = 1 ∨ t = 1 := by simpa [BCompat, hst] using hc
        have hout : mulOutBatch (some s) (some t) = some (s * t) := by
          simp only [mulOutBatch, if_neg hst]
          rcases h1 with h | h <;> simp [h]
          rcases s with _ | _ | s <;> simp_all
        refine ⟨_, [s, t], if_pos (by simp [mulLabels, hst, einDims, hA, hB, List.lookup]), by
          simp [mulLabels, hst, einDims, hA, hB, List.lookup, lookupLabel], by simp [hout], fun q hq => ?_⟩
        rw [hout] at hq
        obtain ⟨o, rfl, ho⟩ := valid_toList_some hq
        refine ⟨[if s = 1 then 0 else o, if t = 1 then 0 else o], ?_, ?_, ?_⟩
        · rcases h1 with h | h <;> subst h <;> simp at ho ⊢ <;> split_ifs <;> omega
        · rw [hout]
          rcases h1 with h | h <;> subst h <;> simp at ho ⊢ <;> omega
        · intro x y m x' y' hm
          obtain ⟨u, v, rfl⟩ := m2 m hm
          simp [mulLabels, hst, einDims, hA, hB, List.lookup, lookupLabel, sumOver, List.eraseDupsBy,
            List.eraseDupsBy.loop, bproj]

/-- What the einsum call of `multiply` with the letters `L` of the batch axes has to give. -/
def MulEin (L : List Char × List Char × List Char) (ba bb : Option ℕ) (A B : Tensor K) (M : List ℕ) (ra rb ra' rb' : ℕ) : Prop :=
    ∃ E P, einsum ([L.1 ++ (if M.length = 2 then chars! "aijb" else chars! "aib"),
        L.2.1 ++ (if M.length = 2 then chars! "cijd" else chars! "cid")],
        L.2.2 ++ (if M.length = 2 then chars! "acijbd" else chars! "acibd")) [A, B] =
          Except.ok E ∧ E.shape = P ++ ra :: rb :: (M ++ [ra', rb']) ∧
      P.prod = (mulOutBatch ba bb).getD 1 ∧
      ∀ q, Valid (mulOutBatch ba bb).toList q → ∃ p, Valid P p ∧
        ravel P p = ravel (mulOutBatch ba bb).toList q ∧ ∀ x y m x' y', m.length = M.length →
        E.get (p ++ x :: y :: (m ++ [x', y'])) =
          A.get (bproj ba.toList q ++ x :: (m ++ [x'])) * B.get (bproj bb.toList q ++ y :: (m ++ [y']))

/-- One core of the elementwise product, for given letters of the batch axes. -/
theorem mulCoreWith_spec (L : List Char × List Char × List Char) {a b : TT K} (ha : a.WF) (hb : b.WF) (hr : a.rawShape = b.rawShape)
    {k : ℕ} (hk : k < a.ndims) (hpos : 0 < (a.modes k).prod)
    (hL : MulEin L a.batch b.batch (a.core k) (b.core k) (a.modes k) (a.rank k) (b.rank k) (a.rank (k + 1)) (b.rank (k + 1))) :
    ∃ C, mulCoreWith L a b k = Except.ok C ∧
      C.shape = (mulOutBatch a.batch b.batch).toList ++
        (a.rank k * b.rank k) :: (a.modes k ++ [a.rank (k + 1) * b.rank (k + 1)]) ∧
      ∀ q x y m x' y', Valid (mulOutBatch a.batch b.batch).toList q → x < a.rank k → y < b.rank k →
        Valid (a.modes k) m → x' < a.rank (k + 1) → y' < b.rank (k + 1) →
        C.get (q ++ (x * b.rank k + y) :: (m ++ [x' * b.rank (k + 1) + y'])) =
          (a.core k).get (bproj a.bpre q ++ x :: (m ++ [x'])) *
          (b.core k).get (bproj b.bpre q ++ y :: (m ++ [y'])) := by
  have hn := ndims_of_rows ha hb hr
  have hML : (a.modes k).length = a.rawShape.length := by simp [TT.modes]
  have hML' : (a.modes k).length = 2 ↔ a.isMatrix := by rw [hML]; rfl
  obtain ⟨E, P, eE, sE, pE, vE⟩ := hL
  have r1 := ha.rank_pos k hk.le
  have r2 := hb.rank_pos k (by omega)
  have r3 := ha.rank_pos (k + 1) (by omega)
  have r4 := hb.rank_pos (k + 1) (by omega)
  set o := mulOutBatch a.batch b.batch with ho
  -- the reshape
  have hres : ∀ target : List (Option ℕ), target = none :: ((a.rank k * b.rank k) ::
      (a.modes k ++ [a.rank (k + 1) * b.rank (k + 1)])).map some →
      resolveShape E.shape.prod target = Except.ok ([o.getD 1] ++
        (a.rank k * b.rank k) :: (a.modes k ++ [a.rank (k + 1) * b.rank (k + 1)])) := by
    intro target ht
    have hkp : ∀ l : List ℕ, knownProd (l.map some) = l.prod := by
      intro l; induction l with
      | nil => rfl
      | cons x l ih => simp [knownProd, ih]
    rw [resolveShape_infer target (o.getD 1)]
    · rw [ht]; simp
    · rw [ht, List.count_cons]; simp [List.count_eq_zero]
    · rw [ht]
      change 0 < knownProd (List.map some _)
      rw [hkp]
      simp only [List.prod_cons, List.prod_append, List.prod_nil]
      positivity
    · rw [ht]
      change _ = knownProd (List.map some _) * _
      rw [hkp, sE, List.prod_append, pE]
      simp only [List.prod_cons, List.prod_append, List.prod_nil]
      ring
  have fin : ∃ T, reshape E (none :: ((a.rank k * b.rank k) ::
      (a.modes k ++ [a.rank (k + 1) * b.rank (k + 1)])).map some) = Except.ok T ∧
      ∃ C, (if a.isBatch || b.isBatch then pure T else squeezeAxis T 0) = Except.ok C ∧
      C.shape = o.toList ++ (a.rank k * b.rank k) :: (a.modes k ++ [a.rank (k + 1) * b.rank (k + 1)]) ∧
      ∀ q x y m x' y', Valid o.toList q → x < a.rank k → y < b.rank k →
        Valid (a.modes k) m → x' < a.rank (k + 1) → y' < b.rank (k + 1) →
        C.get (q ++ (x * b.rank k + y) :: (m ++ [x' * b.rank (k + 1) + y'])) =
          (a.core k).get (bproj a.bpre q ++ x :: (m ++ [x'])) *
          (b.core k).get (bproj b.bpre q ++ y :: (m ++ [y'])) := by
    obtain ⟨T, eT, sT, vT⟩ := reshape_core E P _ _ _ _ _ sE [o.getD 1] _ (hres _ rfl)
    refine ⟨T, eT, ?_⟩
    cases hoo : o with
    | none =>
      have h1 : a.batch = none ∧ b.batch = none := by
        rw [ho] at hoo
        revert hoo
        cases a.batch <;> cases b.batch <;> simp [mulOutBatch]
        split_ifs <;> simp
      have hnb : ¬ (a.isBatch || b.isBatch) = true := by simp [TT.isBatch, h1.1, h1.2]
      rw [hoo] at sT
      rw [if_neg hnb]
      refine ⟨_, if_pos (by rw [sT]; rfl), by rw [sT]; rfl, ?_⟩
      intro q x y m x' y' hq hx hy hm hx' hy'
      have hq' : q = [] := by simpa [valid_nil_iff] using hq
      subst hq'
      obtain ⟨p, hp, hpr, hv⟩ := vE [] (by rw [hoo]; trivial)
      have := vT [0] p x y m x' y' rfl hp (by rw [hpr, hoo]; simp) hx hy hm hx' hy'
      rw [hv _ _ _ _ _ hm.length_eq] at this
      exact this
    | some n =>
      have hnb : (a.isBatch || b.isBatch) = true := by
        rw [ho] at hoo
        revert hoo
        simp only [TT.isBatch]
        cases a.batch <;> cases b.batch <;> simp [mulOutBatch]
      rw [hoo] at sT
      rw [if_pos hnb]
      refine ⟨T, rfl, sT, ?_⟩
      intro q x y m x' y' hq hx hy hm hx' hy'
      obtain ⟨p, hp, hpr, hv⟩ := vE q (by rw [hoo]; exact hq)
      have := vT q p x y m x' y' hq.length_eq hp (by rw [hpr, hoo]; rfl) hx hy hm hx' hy'
      rw [hv _ _ _ _ _ hm.length_eq] at this
      exact this
  obtain ⟨T, eT, C, eC, sC, vC⟩ := fin
  refine ⟨C, ?_, sC, vC⟩
  unfold mulCoreWith
  simp only [ha.pyCore hk, hb.pyCore (show k < b.ndims by omega), ha.pyRank hk.le,
    ha.pyRank (show k + 1 ≤ a.ndims by omega), hb.pyRank (show k ≤ b.ndims by omega),
    hb.pyRank (show k + 1 ≤ b.ndims by omega), R.ok_bind]
  by_cases hmx : a.isMatrix
  · obtain ⟨row0, row1, hrow, hl0, hl1⟩ := ha.rawShape_matrix hmx
    have p0 : pyGet a.rawShape 0 = Except.ok row0 := by rw [hrow]; rfl
    have p1 : pyGet a.rawShape 1 = Except.ok row1 := by rw [hrow]; rfl
    have e0 : pyGet row0 k = Except.ok (row0.getD k 0) := pyGet_of_lt _ _ _ (by omega)
    have e1 : pyGet row1 k = Except.ok (row1.getD k 0) := pyGet_of_lt _ _ _ (by omega)
    have hmd : a.modes k = [row0.getD k 0, row1.getD k 0] := by simp [TT.modes, hrow]
    simp only [if_pos (hML'.2 hmx)] at eE
    rw [hmd] at eT
    simp only [if_pos hmx, eE, R.ok_bind, p0, p1, e0, e1]
    exact (congrArg (· >>= _) eT).trans eC
  · obtain ⟨row0, hrow, hl0⟩ := ha.rawShape_tensor hmx
    have p0 : pyGet a.rawShape 0 = Except.ok row0 := by rw [hrow]; rfl
    have e0 : pyGet row0 k = Except.ok (row0.getD k 0) := pyGet_of_lt _ _ _ (by omega)
    have hmd : a.modes k = [row0.getD k 0] := by simp [TT.modes, hrow]
    simp only [if_neg (fun h => hmx (hML'.1 h))] at eE
    rw [hmd] at eT
    simp only [if_neg hmx, eE, R.ok_bind, p0, e0]
    exact (congrArg (· >>= _) eT).trans eC

/-- One core of the elementwise product. -/
theorem mulCore_spec {a b : TT K} (ha : a.WF) (hb : b.WF) (hr : a.rawShape = b.rawShape)
    (hc : BCompat a.batch b.batch) {k : ℕ} (hk : k < a.ndims) (hpos : 0 < (a.modes k).prod) :
    ∃ C, mulCore a b k = Except.ok C ∧
      C.shape = (mulOutBatch a.batch b.batch).toList ++
        (a.rank k * b.rank k) :: (a.modes k ++ [a.rank (k + 1) * b.rank (k + 1)]) ∧
      ∀ q x y m x' y', Valid (mulOutBatch a.batch b.batch).toList q → x < a.rank k → y < b.rank k →
        Valid (a.modes k) m → x' < a.rank (k + 1) → y' < b.rank (k + 1) →
        C.get (q ++ (x * b.rank k + y) :: (m ++ [x' * b.rank (k + 1) + y'])) =
          (a.core k).get (bproj a.bpre q ++ x :: (m ++ [x'])) *
          (b.core k).get (bproj b.bpre q ++ y :: (m ++ [y'])) := by
  have hn := ndims_of_rows ha hb hr
  have hML : (a.modes k).length = a.rawShape.length := by simp [TT.modes]
  exact mulCoreWith_spec _ ha hb hr hk hpos (mulEin a.batch b.batch hc ha.batch_pos (a.core k) (b.core k) (a.modes k)
    (a.rank k) (b.rank k) (a.rank (k + 1)) (b.rank (k + 1)) (by rw [hML]; exact ha.rows)
    (ha.core_shape k hk) (by rw [modes_of_rows hr]; exact hb.core_shape k (by omega)))

omit [CommRing K] in
theorem zipWith_ranks [Zero K] {a b : TT K} (ha : a.WF) (hb : b.WF) (hn : a.ndims = b.ndims) :
    List.zipWith (· * ·) a.ttRanks b.ttRanks = ranksOf (fun k => a.rank k * b.rank k) a.ndims := by
  rw [ha.ranks_eq, hb.ranks_eq, ← hn]
  simp [ranksOf, List.zipWith_map]

/-- The loop of `multiply`, for given letters of the batch axes. -/
theorem mul_chain (L : List Char × List Char × List Char) {a b : TT K} (ha : a.WF) (hb : b.WF)
    (hr : a.rawShape = b.rawShape) (hc : BCompat a.batch b.batch) (hpos : ∀ k < a.ndims, 0 < (a.modes k).prod)
    (hL : ∀ k < a.ndims, MulEin L a.batch b.batch (a.core k) (b.core k) (a.modes k) (a.rank k) (b.rank k)
      (a.rank (k + 1)) (b.rank (k + 1))) :
    ∃ cores, mapRange a.ndims (mulCoreWith L a b) = Except.ok cores ∧ cores.length = a.ndims ∧
      Chain (mulOutBatch a.batch b.batch) cores (fun k => a.rank k * b.rank k) a.modes a.rawShape.length ∧
      List.zipWith (· * ·) a.ttRanks b.ttRanks = ranksOf (fun k => a.rank k * b.rank k) cores.length ∧
      ∀ p m, Valid (mulOutBatch a.batch b.batch).toList p → (∀ k < a.ndims, Valid (a.modes k) (m k)) →
        (chainTT (mulOutBatch a.batch b.batch) cores (fun k => a.rank k * b.rank k) a.modes
          a.rawShape.length).entry p m = a.entry (bproj a.bpre p) m * b.entry (bproj b.bpre p) m := by
  have hn := ndims_of_rows ha hb hr
  have ho0 : mulOutBatch a.batch b.batch ≠ some 0 := by
    have h1 := ha.batch_pos
    have h2 := hb.batch_pos
    revert h1 h2 hc
    cases a.batch <;> cases b.batch <;> simp [mulOutBatch, BCompat]
    split_ifs <;> simp <;> omega
  obtain ⟨cores, ec, lc, hch, hv⟩ := Chain.build (mulCoreWith L a b) a.ndims (mulOutBatch a.batch b.batch)
    (fun k => a.rank k * b.rank k) a.modes a.rawShape.length _ ha.pos
    (by simp [ha.rank_first, hb.rank_first]) (by simp [ha.rank_last]; rw [hn]; exact hb.rank_last)
    (fun k hk => Nat.mul_pos (ha.rank_pos k hk) (hb.rank_pos k (by omega))) ha.rows
    (fun k _ => by simp [TT.modes]) ho0
    (fun k hk => mulCoreWith_spec L ha hb hr hk (hpos k hk) (hL k hk))
  refine ⟨cores, ec, lc, hch, by rw [lc]; exact zipWith_ranks ha hb hn, ?_⟩
  intro p m hp hmv
  rw [hch.entry_eq, lc, TT.entry, TT.entry, ← hn]
  have hrd := ha.rank_last
  have hrd' : b.rank a.ndims = 1 := hn ▸ hb.rank_last
  have := lprod_kron a.rank b.rank (fun k => a.rank k * b.rank k) (a.slice (bproj a.bpre p) m)
    (b.slice (bproj b.bpre p) m) (fun k x y => (cores.getD k default).get (p ++ x :: (m k ++ [y])))
    a.ndims ha.rank_first hb.rank_first (fun _ _ => rfl)
    (fun j hj x y x' y' hx hy hx' hy' => hv j hj p x y (m j) x' y' hp hx hy (hmv j hj) hx' hy') 0 0
    (by omega) (by omega)
  simpa using this

/-- The letters chosen by `multiply` for known batch sizes. -/
theorem mulEin_eager {a b : TT K} (ha : a.WF) (hb : b.WF) (hr : a.rawShape = b.rawShape)
    (hc : BCompat a.batch b.batch) : ∀ k < a.ndims, MulEin (mulLabels a.batch b.batch) a.batch b.batch (a.core k)
      (b.core k) (a.modes k) (a.rank k) (b.rank k) (a.rank (k + 1)) (b.rank (k + 1)) := by
  intro k hk
  have hML : (a.modes k).length = a.rawShape.length := by simp [TT.modes]
  have hn := ndims_of_rows ha hb hr
  exact mulEin a.batch b.batch hc ha.batch_pos (a.core k) (b.core k) (a.modes k)
    (a.rank k) (b.rank k) (a.rank (k + 1)) (b.rank (k + 1)) (by rw [hML]; exact ha.rows)
    (ha.core_shape k hk) (by rw [modes_of_rows hr]; exact hb.core_shape k (by omega))

/-- The letters of the broadcasting case for two batches of size one. -/
theorem mulEin_ones (A B : Tensor K) (M : List ℕ) (ra rb ra' rb' : ℕ) (hM : M.length = 1 ∨ M.length = 2)
    (hA : A.shape = 1 :: ra :: (M ++ [ra'])) (hB : B.shape = 1 :: rb :: (M ++ [rb'])) :
    MulEin (['n'], ['m'], ['n', 'm']) (some 1) (some 1) A B M ra rb ra' rb' := by
  rcases hM with h | h
  · obtain ⟨i, rfl⟩ := List.length_eq_one_iff.1 h
    refine ⟨_, [1, 1], if_pos (by simp [einDims, hA, hB, List.lookup]), by
      simp [einDims, hA, hB, List.lookup, lookupLabel], by simp [mulOutBatch], fun q hq => ?_⟩
    obtain ⟨o, rfl, ho⟩ := valid_toList_some (n := 1) (by simpa [mulOutBatch] using hq)
    obtain rfl : o = 0 := by omega
    refine ⟨[0, 0], by simp, by simp [mulOutBatch], fun x y m x' y' hm => ?_⟩
    obtain ⟨u, rfl⟩ := List.length_eq_one_iff.1 hm
    simp [einDims, hA, hB, List.lookup, lookupLabel, sumOver, List.eraseDupsBy,
      List.eraseDupsBy.loop, bproj]
  · obtain ⟨i, j, rfl⟩ := List.length_eq_two.1 h
    refine ⟨_, [1, 1], if_pos (by simp [einDims, hA, hB, List.lookup]), by
      simp [einDims, hA, hB, List.lookup, lookupLabel], by simp [mulOutBatch], fun q hq => ?_⟩
    obtain ⟨o, rfl, ho⟩ := valid_toList_some (n := 1) (by simpa [mulOutBatch] using hq)
    obtain rfl : o = 0 := by omega
    refine ⟨[0, 0], by simp, by simp [mulOutBatch], fun x y m x' y' hm => ?_⟩
    obtain ⟨u, v, rfl⟩ := List.length_eq_two.1 hm
    simp [einDims, hA, hB, List.lookup, lookupLabel, sumOver, List.eraseDupsBy,
      List.eraseDupsBy.loop, bproj]

/-- What `multiply` guarantees on entries. -/
theorem multiply_spec {a b : TT K} (ha : a.WF) (hb : b.WF) (hr : a.rawShape = b.rawShape)
    (hc : BCompat a.batch b.batch) (hpos : ∀ k < a.ndims, 0 < (a.modes k).prod) :
    ∃ c, multiply a b = Except.ok c ∧ c.WF ∧ c.rawShape = a.rawShape ∧
      c.batch = mulOutBatch a.batch b.batch ∧ bshape a.bpre b.bpre = some c.bpre ∧
      c.ndims = a.ndims ∧ (∀ k ≤ a.ndims, c.rank k = a.rank k * b.rank k) ∧
      ∀ p m, Valid c.bpre p → c.ValidModes m c.ndims →
        c.entry p m = a.entry (bproj a.bpre p) m * b.entry (bproj b.bpre p) m := by
  have hm : (a.isMatrix ↔ b.isMatrix) := by unfold TT.isMatrix; rw [hr]
  have hbs := mulOutBatch_bshape a.batch b.batch hc hb.batch_pos ha.batch_pos
  obtain ⟨cores, ec, lc, hch, hrk, hv⟩ := mul_chain (mulLabels a.batch b.batch) ha hb hr hc hpos
    (mulEin_eager ha hb hr hc)
  refine ⟨_, ?_, hch.wf, ?_, rfl, hbs, lc, fun k hk => chainTT_rank k (by omega), ?_⟩
  · simp only [multiply, require_pos hm, require_pos hr, require_pos ((isBroadcast_iff a b).2 hc), R.ok_bind]
    rw [show mapRange a.ndims (mulCore a b) = Except.ok cores from ec]
    exact mkLike_ok hch a.rawShape (by rw [lc]; exact ha.rows_eq) _ hrk
  · change rowsOf _ _ _ = _
    rw [lc]; exact ha.rows_eq.symm
  · intro p m hp hvm
    exact hv p m hp fun k hk => hch.validModes hvm (by omega)

end T3f
