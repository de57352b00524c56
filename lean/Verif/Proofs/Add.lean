import Verif.Proofs.Concat
import Verif.Proofs.ChainEntry
import Verif.Model.Add
import Verif.Spec.Batches

/-!
# Addition
-/

namespace T3f

variable {K : Type} [CommRing K]

/-- Ranks of a sum. -/
def addRk (ra rb : ℕ → ℕ) (d k : ℕ) : ℕ := if k = 0 ∨ k = d then 1 else ra k + rb k

/-- Matrices selected from a family of cores. -/
def sl (c : ℕ → Tensor K) (p : List ℕ) (m : ℕ → List ℕ) (k a b : ℕ) : K :=
  (c k).get (p ++ a :: (m k ++ [b]))

theorem add_chain (bs : Option ℕ) (hbs : bs ≠ some 0) (d nm : ℕ) (hd : 2 ≤ d) (ra rb : ℕ → ℕ)
    (M : ℕ → List ℕ) (hnm : nm = 1 ∨ nm = 2) (hM : ∀ k < d, (M k).length = nm)
    (ac bc : ℕ → Tensor K) (us ls : ℕ → R (List ℕ))
    (hac : ∀ k < d, (ac k).shape = bs.toList ++ ra k :: (M k ++ [ra (k + 1)]))
    (hbc : ∀ k < d, (bc k).shape = bs.toList ++ rb k :: (M k ++ [rb (k + 1)]))
    (ha0 : ra 0 = 1) (hb0 : rb 0 = 1) (had : ra d = 1) (hbd : rb d = 1)
    (hapos : ∀ k ≤ d, 0 < ra k)
    (hus : ∀ k < d, us k = Except.ok (bs.toList ++ ra k :: (M k ++ [rb (k + 1)])))
    (hls : ∀ k < d, ls k = Except.ok (bs.toList ++ rb k :: (M k ++ [ra (k + 1)])))
    (axL axR : ℕ) (hL : axL = bs.toList.length) (hR : axR = bs.toList.length + nm + 1) :
    ∃ cores, mapRange d (fun i => addCore axL axR d i (us i) (ls i) (ac i) (bc i)) = Except.ok cores ∧
      cores.length = d ∧ Chain bs cores (addRk ra rb d) M nm ∧
      ∀ p m, p.length = bs.toList.length → (∀ k < d, (m k).length = nm) →
        lprod (addRk ra rb d) (sl (fun k => cores.getD k default) p m) d 0 =
          lprod ra (sl ac p m) d 0 + lprod rb (sl bc p m) d 0 := by
  have hassoc : ∀ (P : List ℕ) (r : ℕ) (M : List ℕ) (r' : ℕ), P ++ r :: (M ++ [r']) = (P ++ r :: M) ++ r' :: [] := by
    intros; simp
  have hlenR : ∀ k < d, ∀ r : ℕ, axR = (bs.toList ++ r :: M k).length := by
    intro k hk r; rw [hR]; simp [hM k hk]; omega
  obtain ⟨cores, ec, lc, pc⟩ := mapRange_ok d
    (fun i => addCore axL axR d i (us i) (ls i) (ac i) (bc i))
    (fun k T => T.shape = bs.toList ++ addRk ra rb d k :: (M k ++ [addRk ra rb d (k + 1)]) ∧
      ∀ p m x y, p.length = bs.toList.length → m.length = nm → T.get (p ++ x :: (m ++ [y])) =
        if k = 0 then
          if y < ra 1 then (ac 0).get (p ++ x :: (m ++ [y])) else (bc 0).get (p ++ x :: (m ++ [y - ra 1]))
        else if k = d - 1 then
          if x < ra k then (ac k).get (p ++ x :: (m ++ [y])) else (bc k).get (p ++ (x - ra k) :: (m ++ [y]))
        else if x < ra k then (if y < ra (k + 1) then (ac k).get (p ++ x :: (m ++ [y])) else 0)
        else (if y < ra (k + 1) then 0 else (bc k).get (p ++ (x - ra k) :: (m ++ [y - ra (k + 1)])))) (by
    intro k hk
    have sA := hac k hk
    have sB := hbc k hk
    by_cases h0 : k = 0
    · subst h0
      obtain ⟨C, eC, sC, vC⟩ := concat_ok (ac 0) (bc 0) (bs.toList ++ ra 0 :: M 0) [] (ra 1) (rb 1)
        (by rw [sA, hassoc]) (by rw [sB, hassoc, ha0, hb0]) axR (hlenR 0 hk _)
      refine ⟨C, by simp only [addCore, if_true]; exact eC, ?_, ?_⟩
      · rw [sC, ← hassoc]
        simp [addRk, ha0, show ¬ (1 = d) by omega]
      · intro p m x y hp hm
        rw [if_pos rfl]
        simp only [hassoc]
        rw [vC _ _ _ (by simp [hp, hm, hM 0 hk])]
    · by_cases h1 : k = d - 1
      · obtain ⟨C, eC, sC, vC⟩ := concat_ok (ac k) (bc k) bs.toList (M k ++ [ra (k + 1)]) (ra k) (rb k)
          sA (by rw [sB, show k + 1 = d by omega, had, hbd]) axL hL
        refine ⟨C, by rw [addCore, if_neg h0, if_pos h1]; exact eC, ?_, ?_⟩
        · rw [sC]
          simp [addRk, h0, show k + 1 = d by omega, had, show ¬ (k = d) by omega]
        · intro p m x y hp hm
          rw [if_neg h0, if_pos h1, vC _ _ _ hp]
      · obtain ⟨U, eU, sU, vU⟩ := concat_ok (ac k) (zeros (bs.toList ++ ra k :: (M k ++ [rb (k + 1)])))
          (bs.toList ++ ra k :: M k) [] (ra (k + 1)) (rb (k + 1))
          (by rw [sA, hassoc]) (by rw [zeros, hassoc]) axR (hlenR k hk _)
        obtain ⟨L, eL, sL, vL⟩ := concat_ok (zeros (bs.toList ++ rb k :: (M k ++ [ra (k + 1)]))) (bc k)
          (bs.toList ++ rb k :: M k) [] (ra (k + 1)) (rb (k + 1))
          (by rw [zeros, hassoc]) (by rw [sB, hassoc]) axR (hlenR k hk _)
        obtain ⟨C, eC, sC, vC⟩ := concat_ok U L bs.toList (M k ++ [ra (k + 1) + rb (k + 1)]) (ra k) (rb k)
          (by rw [sU]; simp) (by rw [sL]; simp) axL hL
        refine ⟨C, by rw [addCore, if_neg h0, if_neg h1, hus k hk, hls k hk]; simp only [R.ok_bind, eU, eL, eC], ?_, ?_⟩
        · rw [sC]
          simp [addRk, h0, show ¬ (k + 1 = d) by omega, show ¬ (k = d) by omega]
        · intro p m x y hp hm
          rw [if_neg h0, if_neg h1, vC _ _ _ hp]
          simp only [hassoc]
          rw [vU _ _ _ (by simp [hp, hm, hM k hk]), vL _ _ _ (by simp [hp, hm, hM k hk])]
          rfl)
  refine ⟨cores, ec, lc, ?_, ?_⟩
  · refine ⟨by omega, by simp [addRk], by simp [addRk, lc], ?_, hnm, by rw [lc]; exact hM, ?_, hbs⟩
    · rw [lc]; intro k hk; unfold addRk; split
      · omega
      · have := hapos k hk; omega
    · rw [lc]; intro k hk; exact (pc k hk).1
  · intro p m hp hm
    apply lprod_block ra rb (addRk ra rb d) _ _ _ d hd ha0 hb0 (by simp [addRk]) had hbd
    · intro k hk hkd; simp [addRk]; omega
    · intro y
      simp only [sl]
      rw [(pc 0 (by omega)).2 p (m 0) 0 y hp (hm 0 (by omega)), if_pos rfl]
    · intro x hx
      simp only [sl]
      rw [(pc (d - 1) (by omega)).2 p (m (d - 1)) x 0 hp (hm _ (by omega)), if_neg (by omega), if_pos rfl]
    · intro k hk hkd x y hx hy
      simp only [sl]
      rw [(pc k (by omega)).2 p (m k) x y hp (hm k (by omega)), if_neg (by omega), if_neg (by omega)]

theorem addRanks_eq {a b : TT K} (ha : a.WF) (hb : b.WF) (hn : a.ndims = b.ndims) (hd : 2 ≤ a.ndims) :
    addRanks a b = Except.ok (ranksOf (addRk a.rank b.rank a.ndims) a.ndims) := by
  have h := mapRange_eq (a.ndims - 1) (fun i => do
    pure ((← pyGet a.ttRanks (i + 1)) + (← pyGet b.ttRanks (i + 1))))
    (fun i => a.rank (i + 1) + b.rank (i + 1)) (by
      intro k hk
      rw [ha.pyRank (by omega), hb.pyRank (by omega)]; rfl)
  rw [addRanks, h, R.ok_bind, R.pure_eq]
  congr 1
  obtain ⟨e, he⟩ : ∃ e, a.ndims = e + 1 := ⟨a.ndims - 1, by omega⟩
  rw [ranksOf, he, List.range_succ, List.range_succ_eq_map, List.map_append, List.map_cons,
    List.map_map]
  simp only [addRk, Nat.add_sub_cancel, true_or, if_true, List.map_cons, List.map_nil, or_true]
  congr 2
  apply List.map_congr_left
  intro k hk
  have : k < e := by simpa using hk
  simp [addRk, show ¬ (k = e) by omega]

/-- Operand of a batch addition after `expand_batch_dim` and `tf.tile`; `fl` tells if it is tiled. -/
theorem expandTile {t : TT K} (h : t.WF) (n : ℕ) (fl : Bool)
    (hn : (fl = true ∧ (t.batch = none ∨ t.batch = some 1)) ∨ (fl = false ∧ t.batch = some n)) (mult : List ℕ)
    (hm : mult = n :: List.replicate (t.rawShape.length + 2) 1) :
    ∃ (T : TT K) (ec : ℕ → Tensor K), expandBatchDim t = Except.ok T ∧ T.batch = some (t.batch.getD 1) ∧
      (∀ k < t.ndims, ∃ c, pyGet T.cores k = Except.ok c ∧
        (if fl = true then tile c mult else pure c) = Except.ok (ec k)) ∧
      (∀ k < t.ndims, (ec k).shape = (some n).toList ++ t.rank k :: (t.modes k ++ [t.rank (k + 1)])) ∧
      ∀ k < t.ndims, ∀ o < n, ∀ idx, Valid (t.rank k :: (t.modes k ++ [t.rank (k + 1)])) idx →
        (ec k).get (o :: idx) = (t.core k).get (bproj t.bpre [o] ++ idx) := by
  obtain ⟨T, eT, wT, bT, rT, kT, nT, vT⟩ : ∃ T, expandBatchDim t = Except.ok T ∧ T.WF ∧
      T.batch = some (t.batch.getD 1) ∧ T.rawShape = t.rawShape ∧ T.ttRanks = t.ttRanks ∧
      T.ndims = t.ndims ∧
      ∀ k < t.ndims, ∀ o idx, (T.core k).get (bproj T.bpre [o] ++ idx) =
        (t.core k).get (bproj t.bpre [o] ++ idx) := by
    rcases hb : t.batch with _ | m
    · obtain ⟨T, eT, wT, bT, rT, kT, nT, vT⟩ := expandBatchDim_ok h hb
      refine ⟨T, eT, wT, bT, rT, kT, nT, fun k hk o idx => ?_⟩
      rw [show t.bpre = [] by simp [TT.bpre, hb], show T.bpre = [1] by simp [TT.bpre, bT]]
      exact vT k hk _ _
    · exact ⟨t, by simp [expandBatchDim, hb], h, by simp [hb], rfl, rfl, rfl, fun _ _ _ _ => rfl⟩
  have hrk : T.rank = t.rank := by funext k; unfold TT.rank; rw [kT]
  have hmd : T.modes = t.modes := modes_of_rows rT
  have : ∀ k < t.ndims, ∃ e, (if fl = true then tile (T.core k) mult else pure (T.core k)) = Except.ok e ∧
      e.shape = (some n).toList ++ t.rank k :: (t.modes k ++ [t.rank (k + 1)]) ∧
      ∀ o < n, ∀ idx, Valid (t.rank k :: (t.modes k ++ [t.rank (k + 1)])) idx →
        e.get (o :: idx) = (t.core k).get (bproj t.bpre [o] ++ idx) := by
    intro k hk
    have hs := wT.core_shape k (by omega)
    rw [hrk, hmd] at hs
    rcases hn with ⟨h1, h2⟩ | ⟨h1, h2⟩
    · have hp : T.bpre = [1] := by rw [TT.bpre, bT]; rcases h2 with h2 | h2 <;> rw [h2] <;> rfl
      rw [hp] at hs
      obtain ⟨e, ee, se, ve⟩ := tile_ok (T.core k) n (t.rank k :: (t.modes k ++ [t.rank (k + 1)])) hs mult (by
        rw [hm]; simp [TT.modes])
      refine ⟨e, by rw [if_pos h1]; exact ee, se, fun o ho idx hidx => ?_⟩
      rw [ve o idx hidx, ← vT k hk o idx, hp]; rfl
    · have hp : T.bpre = [n] := by rw [TT.bpre, bT, h2]; rfl
      refine ⟨T.core k, by rw [if_neg (by simp [h1])]; rfl, by rw [hs, hp]; rfl, fun o ho idx hidx => ?_⟩
      rw [← vT k hk o idx, hp]
      by_cases h3 : n = 1
      · obtain rfl : o = 0 := by omega
        simp [bproj]
      · simp [bproj, h3]
  choose! ec h1 h2 h3 using this
  exact ⟨T, ec, eT, bT, fun k hk => ⟨T.core k, wT.pyCore (by omega), h1 k hk⟩, h2, h3⟩

theorem addMatrixCores_eq {a b : TT K} (ha : a.WF) (hb : b.WF) (hn : a.ndims = b.ndims)
    (hm : a.isMatrix) :
    addMatrixCores a b = mapRange a.ndims (fun i => addCore 0 3 a.ndims i
      (Except.ok (a.rank i :: (a.modes i ++ [b.rank (i + 1)])))
      (Except.ok (b.rank i :: (a.modes i ++ [a.rank (i + 1)]))) (a.core i) (b.core i)) := by
  obtain ⟨row0, row1, hrow, hl0, hl1⟩ := ha.rawShape_matrix hm
  have p0 : pyGet a.rawShape 0 = Except.ok row0 := by rw [hrow]; rfl
  have p1 : pyGet a.rawShape 1 = Except.ok row1 := by rw [hrow]; rfl
  rw [addMatrixCores, p0, R.ok_bind, p1, R.ok_bind]
  apply mapRange_congr
  intro k hk
  have e0 : pyGet row0 k = Except.ok (row0.getD k 0) := pyGet_of_lt _ _ _ (by omega)
  have e1 : pyGet row1 k = Except.ok (row1.getD k 0) := pyGet_of_lt _ _ _ (by omega)
  have hmod : a.modes k = [row0.getD k 0, row1.getD k 0] := by simp [TT.modes, hrow]
  simp only [ha.pyCore hk, hb.pyCore (show k < b.ndims by omega), ha.pyRank hk.le,
    ha.pyRank (show k + 1 ≤ a.ndims by omega), hb.pyRank (show k ≤ b.ndims by omega),
    hb.pyRank (show k + 1 ≤ b.ndims by omega), e0, e1, R.ok_bind, R.pure_eq, hmod]
  rfl

theorem addTensorCores_eq {a b : TT K} (ha : a.WF) (hb : b.WF) (hn : a.ndims = b.ndims)
    (hm : ¬ a.isMatrix) :
    addTensorCores a b = mapRange a.ndims (fun i => addCore 0 2 a.ndims i
      (Except.ok (a.rank i :: (a.modes i ++ [b.rank (i + 1)])))
      (Except.ok (b.rank i :: (a.modes i ++ [a.rank (i + 1)]))) (a.core i) (b.core i)) := by
  obtain ⟨row0, hrow, hl0⟩ := ha.rawShape_tensor hm
  have p0 : pyGet a.rawShape 0 = Except.ok row0 := by rw [hrow]; rfl
  rw [addTensorCores, p0, R.ok_bind]
  apply mapRange_congr
  intro k hk
  have e0 : pyGet row0 k = Except.ok (row0.getD k 0) := pyGet_of_lt _ _ _ (by omega)
  have hmod : a.modes k = [row0.getD k 0] := by simp [TT.modes, hrow]
  simp only [ha.pyCore hk, hb.pyCore (show k < b.ndims by omega), ha.pyRank hk.le,
    ha.pyRank (show k + 1 ≤ a.ndims by omega), hb.pyRank (show k ≤ b.ndims by omega),
    hb.pyRank (show k + 1 ≤ b.ndims by omega), e0, R.ok_bind, R.pure_eq, hmod]
  rfl

theorem addBatchMatrixBody_eq {a b : TT K} (ha : a.WF) (hb : b.WF) (hn : a.ndims = b.ndims)
    (hm : a.isMatrix) (n : ℕ) (ta tb : Bool) (A B : TT K) (ac bc : ℕ → Tensor K)
    (hA : ∀ k < a.ndims, ∃ c, pyGet A.cores k = Except.ok c ∧
        (if ta = true then tile c [n, 1, 1, 1, 1] else pure c) = Except.ok (ac k))
    (hB : ∀ k < b.ndims, ∃ c, pyGet B.cores k = Except.ok c ∧
        (if tb = true then tile c [n, 1, 1, 1, 1] else pure c) = Except.ok (bc k)) :
    addBatchMatrixBody n ta tb a b A B =
      mapRange a.ndims (fun i => addCore 1 4 a.ndims i
        (Except.ok (n :: a.rank i :: (a.modes i ++ [b.rank (i + 1)])))
        (Except.ok (n :: b.rank i :: (a.modes i ++ [a.rank (i + 1)]))) (ac i) (bc i)) := by
  obtain ⟨row0, row1, hrow, hl0, hl1⟩ := ha.rawShape_matrix hm
  have p0 : pyGet a.rawShape 0 = Except.ok row0 := by rw [hrow]; rfl
  have p1 : pyGet a.rawShape 1 = Except.ok row1 := by rw [hrow]; rfl
  rw [addBatchMatrixBody, p0, R.ok_bind, p1, R.ok_bind]
  apply mapRange_congr
  intro k hk
  have e0 : pyGet row0 k = Except.ok (row0.getD k 0) := pyGet_of_lt _ _ _ (by omega)
  have e1 : pyGet row1 k = Except.ok (row1.getD k 0) := pyGet_of_lt _ _ _ (by omega)
  have hmod : a.modes k = [row0.getD k 0, row1.getD k 0] := by simp [TT.modes, hrow]
  obtain ⟨c, h1, h2⟩ := hA k hk
  obtain ⟨c', h3, h4⟩ := hB k (by omega)
  rw [h1, R.ok_bind]
  rw [show (∀ f : Tensor K → R (Tensor K), (if ta = true then (tile c _ >>= f) else (pure c >>= f)) =
    f (ac k)) from fun f => by split_ifs at h2 ⊢ <;> rw [h2] <;> rfl]
  beta_reduce
  rw [h3, R.ok_bind]
  rw [show (∀ f : Tensor K → R (Tensor K), (if tb = true then (tile c' _ >>= f) else (pure c' >>= f)) =
    f (bc k)) from fun f => by split_ifs at h4 ⊢ <;> rw [h4] <;> rfl]
  simp only [ha.pyRank hk.le,
    ha.pyRank (show k + 1 ≤ a.ndims by omega), hb.pyRank (show k ≤ b.ndims by omega),
    hb.pyRank (show k + 1 ≤ b.ndims by omega), e0, e1, R.ok_bind, R.pure_eq, hmod]
  rfl

theorem addBatchTensorBody_eq {a b : TT K} (ha : a.WF) (hb : b.WF) (hn : a.ndims = b.ndims)
    (hm : ¬ a.isMatrix) (n : ℕ) (ta tb : Bool) (A B : TT K) (ac bc : ℕ → Tensor K)
    (hA : ∀ k < a.ndims, ∃ c, pyGet A.cores k = Except.ok c ∧
        (if ta = true then tile c [n, 1, 1, 1] else pure c) = Except.ok (ac k))
    (hB : ∀ k < b.ndims, ∃ c, pyGet B.cores k = Except.ok c ∧
        (if tb = true then tile c [n, 1, 1, 1] else pure c) = Except.ok (bc k)) :
    addBatchTensorBody n ta tb a b A B =
      mapRange a.ndims (fun i => addCore 1 3 a.ndims i
        (Except.ok (n :: a.rank i :: (a.modes i ++ [b.rank (i + 1)])))
        (Except.ok (n :: b.rank i :: (a.modes i ++ [a.rank (i + 1)]))) (ac i) (bc i)) := by
  obtain ⟨row0, hrow, hl0⟩ := ha.rawShape_tensor hm
  have p0 : pyGet a.rawShape 0 = Except.ok row0 := by rw [hrow]; rfl
  rw [addBatchTensorBody, p0, R.ok_bind]
  apply mapRange_congr
  intro k hk
  have e0 : pyGet row0 k = Except.ok (row0.getD k 0) := pyGet_of_lt _ _ _ (by omega)
  have hmod : a.modes k = [row0.getD k 0] := by simp [TT.modes, hrow]
  obtain ⟨c, h1, h2⟩ := hA k hk
  obtain ⟨c', h3, h4⟩ := hB k (by omega)
  rw [h1, R.ok_bind]
  rw [show (∀ f : Tensor K → R (Tensor K), (if ta = true then (tile c _ >>= f) else (pure c >>= f)) =
    f (ac k)) from fun f => by split_ifs at h2 ⊢ <;> rw [h2] <;> rfl]
  beta_reduce
  rw [h3, R.ok_bind]
  rw [show (∀ f : Tensor K → R (Tensor K), (if tb = true then (tile c' _ >>= f) else (pure c' >>= f)) =
    f (bc k)) from fun f => by split_ifs at h4 ⊢ <;> rw [h4] <;> rfl]
  simp only [ha.pyRank hk.le,
    ha.pyRank (show k + 1 ≤ a.ndims by omega), hb.pyRank (show k ≤ b.ndims by omega),
    hb.pyRank (show k + 1 ≤ b.ndims by omega), e0, R.ok_bind, R.pure_eq, hmod]
  rfl

/-- What `add` guarantees on entries, for two `TensorTrain`s. -/
theorem addTT_spec {a b : TT K} (ha : a.WF) (hb : b.WF) (hd : 2 ≤ a.ndims)
    (hr : a.rawShape = b.rawShape) (hba : a.batch = none) (hbb : b.batch = none) :
    ∃ c, add a b = Except.ok c ∧ c.WF ∧ c.rawShape = a.rawShape ∧ c.batch = none ∧
      c.ndims = a.ndims ∧ (∀ k ≤ a.ndims, c.rank k = addRk a.rank b.rank a.ndims k) ∧
      ∀ p m, Valid c.bpre p → c.ValidModes m c.ndims →
        c.entry p m = a.entry p m + b.entry p m := by
  have hn := ndims_of_rows ha hb hr
  have hmod := modes_of_rows hr
  have hapre : a.bpre = [] := by simp [TT.bpre, hba]
  have hbpre : b.bpre = [] := by simp [TT.bpre, hbb]
  have hm : (a.isMatrix ↔ b.isMatrix) := by unfold TT.isMatrix; rw [hr]
  have hbc : isBatchBroadcastingPossible a b = true := by simp [isBatchBroadcastingPossible, hba]
  have hsA : ∀ k < a.ndims, (a.core k).shape = (none : Option ℕ).toList ++ a.rank k :: (a.modes k ++ [a.rank (k + 1)]) := by
    intro k hk; rw [ha.core_shape k hk, hapre]; rfl
  have hsB : ∀ k < a.ndims, (b.core k).shape = (none : Option ℕ).toList ++ b.rank k :: (a.modes k ++ [b.rank (k + 1)]) := by
    intro k hk; rw [hb.core_shape k (by omega), hbpre, hmod]; rfl
  have hM : ∀ k < a.ndims, (a.modes k).length = a.rawShape.length := fun k _ => by simp [TT.modes]
  obtain ⟨cores, ec, lc, hch, hv⟩ := add_chain (K := K) none (by simp) a.ndims a.rawShape.length hd
    a.rank b.rank a.modes ha.rows hM a.core b.core _ _ hsA hsB ha.rank_first hb.rank_first ha.rank_last
    (by rw [hn]; exact hb.rank_last) ha.rank_pos (fun _ _ => rfl) (fun _ _ => rfl) 0
    (a.rawShape.length + 1) rfl (by simp)
  have hcores : (if a.isMatrix then addMatrixCores a b else addTensorCores a b) = Except.ok cores := by
    by_cases hmx : a.isMatrix
    · rw [if_pos hmx, addMatrixCores_eq ha hb hn hmx, ← ec, show a.rawShape.length = 2 from hmx]; rfl
    · rw [if_neg hmx, addTensorCores_eq ha hb hn hmx, ← ec, ha.rows.resolve_right hmx]; rfl
  have hmk := mkTT_ok hch (.shapes a.rawShape) (Or.inr (hch.clean (by rw [lc]; exact ha.rows_eq)))
    (some _) (Or.inr rfl)
  refine ⟨_, ?_, hch.wf, ?_, rfl, lc, ?_, ?_⟩
  · simp only [add, require_pos hm, require_pos hr, require_pos hbc, R.ok_bind, TT.isBatch, hba, hbb,
      Option.isSome_none, Bool.or_self, Bool.false_eq_true, if_false, addRanks_eq ha hb hn hd]
    rw [lc] at hmk
    split_ifs at hcores ⊢ <;> rw [hcores, R.ok_bind] <;> exact hmk
  · change rowsOf _ _ _ = _
    rw [lc]; exact ha.rows_eq.symm
  · intro k hk
    exact chainTT_rank k (by omega)
  · intro p m hp hvm
    have hp' : p = [] := by simpa [chainTT, TT.bpre, valid_nil_iff] using hp
    subst hp'
    have hml : ∀ k < a.ndims, (m k).length = a.rawShape.length := by
      intro k hk
      rw [(hvm k (by change k < cores.length; omega)).length_eq, hch.modes_eq k (by omega)]
      simp [TT.modes]
    have := hv [] m rfl hml
    refine (hch.entry_eq [] m).trans ?_
    rw [lc]
    exact this.trans (by rw [TT.entry, TT.entry, ← hn]; rfl)

/-- What the batch branch of `add` computes once the batch size and the tiling are decided. -/
theorem addBatchBody_spec {a b : TT K} (ha : a.WF) (hb : b.WF) (hd : 2 ≤ a.ndims)
    (hr : a.rawShape = b.rawShape) (n : ℕ) (hn0 : n ≠ 0) (ta tb : Bool)
    (hA : (ta = true ∧ (a.batch = none ∨ a.batch = some 1)) ∨ (ta = false ∧ a.batch = some n))
    (hB : (tb = true ∧ (b.batch = none ∨ b.batch = some 1)) ∨ (tb = false ∧ b.batch = some n)) :
    ∃ A B cores ranks c, expandBatchDim a = Except.ok A ∧ A.batch = some (a.batch.getD 1) ∧
      expandBatchDim b = Except.ok B ∧ B.batch = some (b.batch.getD 1) ∧
      (if a.isMatrix then addBatchMatrixBody n ta tb a b A B else addBatchTensorBody n ta tb a b A B) =
        Except.ok cores ∧ addRanks a b = Except.ok ranks ∧
      (∀ bs, bs = none ∨ bs = some n →
        mkBatch cores (.shapes a.rawShape) (some ranks) bs = Except.ok c) ∧
      c.WF ∧ c.rawShape = a.rawShape ∧ c.batch = some n ∧
      c.ndims = a.ndims ∧ (∀ k ≤ a.ndims, c.rank k = addRk a.rank b.rank a.ndims k) ∧
      ∀ p m, Valid c.bpre p → c.ValidModes m c.ndims →
        c.entry p m = a.entry (bproj a.bpre p) m + b.entry (bproj b.bpre p) m := by
  have hn := ndims_of_rows ha hb hr
  have hmod := modes_of_rows hr
  obtain ⟨A, ac, eA, bA, tA, sA, vA⟩ := expandTile ha n ta hA _ rfl
  obtain ⟨B, bc, eB, bB, tB, sB, vB⟩ := expandTile hb n tb hB _ rfl
  have hM : ∀ k < a.ndims, (a.modes k).length = a.rawShape.length := fun k _ => by simp [TT.modes]
  obtain ⟨cores, ec, lc, hch, hv⟩ := add_chain (K := K) (some n) (by simpa using hn0) a.ndims a.rawShape.length hd
    a.rank b.rank a.modes ha.rows hM ac bc _ _ sA (fun k hk => by rw [hmod]; exact sB k (by omega))
    ha.rank_first hb.rank_first ha.rank_last
    (by rw [hn]; exact hb.rank_last) ha.rank_pos (fun _ _ => rfl) (fun _ _ => rfl) 1
    (a.rawShape.length + 2) rfl (by simp; omega)
  have hcores : (if a.isMatrix then addBatchMatrixBody n ta tb a b A B else addBatchTensorBody n ta tb a b A B) =
      Except.ok cores := by
    rw [← hr] at tB
    by_cases hmx : a.isMatrix
    · have h2 : a.rawShape.length = 2 := hmx
      rw [h2] at tA tB ec
      rw [if_pos hmx, addBatchMatrixBody_eq ha hb hn hmx n ta tb A B ac bc tA tB]
      exact ec
    · have h2 : a.rawShape.length = 1 := ha.rows.resolve_right hmx
      rw [h2] at tA tB ec
      rw [if_neg hmx, addBatchTensorBody_eq ha hb hn hmx n ta tb A B ac bc tA tB]
      exact ec
  refine ⟨A, B, cores, _, _, eA, bA, eB, bB, hcores, addRanks_eq ha hb hn hd, fun bs hbs => ?_, hch.wf, ?_, rfl,
    lc, ?_, ?_⟩
  · have := mkBatch_ok hch (.shapes a.rawShape) (Or.inr (hch.clean (by rw [lc]; exact ha.rows_eq)))
      (some _) (Or.inr rfl) bs hbs
    rw [lc] at this
    exact this
  · change rowsOf _ _ _ = _
    rw [lc]; exact ha.rows_eq.symm
  · intro k hk
    exact chainTT_rank k (by omega)
  · intro p m hp hvm
    obtain ⟨o, rfl, ho⟩ : ∃ o, p = [o] ∧ o < n := by
      exact valid_toList_some hp
    have hmv : ∀ k < a.ndims, Valid (a.modes k) (m k) := by
      intro k hk
      have := hvm k (by change k < cores.length; omega)
      rwa [hch.modes_eq k (by omega)] at this
    have hml : ∀ k < a.ndims, (m k).length = a.rawShape.length := by
      intro k hk
      rw [(hmv k hk).length_eq]; simp [TT.modes]
    have := hv [o] m rfl hml
    refine (hch.entry_eq [o] m).trans ?_
    rw [lc]
    refine this.trans ?_
    have hval : ∀ (r : ℕ → ℕ) k, k < a.ndims → ∀ x y, x < r k → y < r (k + 1) →
        Valid (r k :: (a.modes k ++ [r (k + 1)])) (x :: (m k ++ [y])) := by
      intro r k hk x y hx hy
      exact valid_core hx (hmv k hk) hy
    rw [TT.entry, TT.entry, ← hn]
    congr 1
    · refine lprod_congr (fun _ _ => rfl) (fun j hj x y hx hy => ?_) (by rw [ha.rank_last]; omega)
      exact vA j hj o ho _ (hval a.rank j hj x y hx hy)
    · refine lprod_congr (fun _ _ => rfl) (fun j hj x y hx hy => ?_) (by rw [hn, hb.rank_last]; omega)
      exact vB j (by omega) o ho _ (by rw [← hmod]; exact hval b.rank j hj x y hx hy)

omit [CommRing K] in
/-- The flag of an operand of the batch branch of `add`. -/
theorem tileFlag {t : TT K} {n : ℕ} (h : t.batch = none ∨ t.batch = some 1 ∨ t.batch = some n) :
    (decide (some (t.batch.getD 1) = some 1) = true ∧ (t.batch = none ∨ t.batch = some 1)) ∨
      (decide (some (t.batch.getD 1) = some 1) = false ∧ t.batch = some n) := by
  rcases h with h | h | h
  · simp [h]
  · simp [h]
  · by_cases h1 : n = 1
    · simp [h, h1]
    · simp [h, h1]

/-- What `add` guarantees on entries when a batch is involved. -/
theorem addBatch_spec {a b : TT K} (ha : a.WF) (hb : b.WF) (hd : 2 ≤ a.ndims)
    (hr : a.rawShape = b.rawShape) (n : ℕ) (hn0 : n ≠ 0)
    (hA : a.batch = none ∨ a.batch = some 1 ∨ a.batch = some n)
    (hB : b.batch = none ∨ b.batch = some 1 ∨ b.batch = some n)
    (hsome : a.isBatch || b.isBatch) (hbs : addBatchSize a b = Except.ok n) :
    ∃ c, add a b = Except.ok c ∧ c.WF ∧ c.rawShape = a.rawShape ∧ c.batch = some n ∧
      c.ndims = a.ndims ∧ (∀ k ≤ a.ndims, c.rank k = addRk a.rank b.rank a.ndims k) ∧
      ∀ p m, Valid c.bpre p → c.ValidModes m c.ndims →
        c.entry p m = a.entry (bproj a.bpre p) m + b.entry (bproj b.bpre p) m := by
  have hm : (a.isMatrix ↔ b.isMatrix) := by unfold TT.isMatrix; rw [hr]
  have hbc : isBatchBroadcastingPossible a b = true := by
    rcases hA with h1 | h1 | h1 <;> rcases hB with h2 | h2 | h2 <;>
      simp [isBatchBroadcastingPossible, h1, h2]
  obtain ⟨A, B, cores, ranks, c, eA, bA, eB, bB, hcores, hrk, hmk, hc⟩ :=
    addBatchBody_spec ha hb hd hr n hn0 _ _ (tileFlag hA) (tileFlag hB)
  refine ⟨c, ?_, hc⟩
  simp only [add, require_pos hm, require_pos hr, require_pos hbc, R.ok_bind, hsome, if_true]
  split_ifs at hcores ⊢ <;>
    simp only [addBatchMatrixCores, addBatchTensorCores, hbs, R.ok_bind, eA, eB, bA, bB, hcores, hrk] <;>
    exact hmk _ (Or.inr rfl)

/-- What `add` guarantees on entries. -/
theorem add_spec {a b : TT K} (ha : a.WF) (hb : b.WF) (hd : 2 ≤ a.ndims)
    (hr : a.rawShape = b.rawShape) (hbatch : AddBatches a.batch b.batch) :
    ∃ c, add a b = Except.ok c ∧ c.WF ∧ c.rawShape = a.rawShape ∧
      bshape a.bpre b.bpre = some c.bpre ∧ c.ndims = a.ndims ∧
      (∀ k ≤ a.ndims, c.rank k = addRk a.rank b.rank a.ndims k) ∧
      ∀ p m, Valid c.bpre p → c.ValidModes m c.ndims →
        c.entry p m = a.entry (bproj a.bpre p) m + b.entry (bproj b.bpre p) m := by
  rcases hbatch with ⟨h1, h2⟩ | ⟨n, h1, h2⟩ | ⟨n, h1, h2⟩ | ⟨n, h1, h2⟩ | ⟨n, hn, h1, h2⟩
  · obtain ⟨c, e, w, r, bt, nd, rk, en⟩ := addTT_spec ha hb hd hr h1 h2
    refine ⟨c, e, w, r, by simp [TT.bpre, h1, h2, bt, bshape], nd, rk, fun p m hp hm => ?_⟩
    have hp' : p = [] := by simpa [TT.bpre, bt, valid_nil_iff] using hp
    subst hp'
    rw [en _ _ hp hm]; simp [TT.bpre, h1, h2, bproj]
  all_goals
    have hn0 : n ≠ 0 := by
      rintro rfl
      first | exact ha.batch_pos h1 | exact hb.batch_pos h2
    obtain ⟨c, e, w, r, bt, nd, rk, en⟩ := addBatch_spec ha hb hd hr n hn0
      (by simp [h1]) (by simp [h2]) (by simp [TT.isBatch, h1])
      (by simp only [addBatchSize, TT.lazyBatchSize, h1, h2]; split_ifs <;> simp_all)
    refine ⟨c, e, w, r, ?_, nd, rk, en⟩
    simp only [TT.bpre, h1, h2, bt, bshape, Option.toList_some, Option.toList_none]
    try (split_ifs <;> simp_all)

omit [CommRing K] in
/-- The constructor rejects the single core produced by adding one-dimensional objects. -/
theorem mkLike_bad_single (bs : Option ℕ) (c : Tensor K) (M : List ℕ) (hM : M.length = 1 ∨ M.length = 2)
    (hs : c.shape = bs.toList ++ 1 :: (M ++ [2])) (rows : List (List ℕ)) (hr : rows = M.map fun x => [x]) :
    mkLike bs [c] rows [1, 1] = Except.error Err.value := by
  have : ∃ n m, M = [n] ∨ M = [n, m] := by
    rcases hM with h | h
    · obtain ⟨n, rfl⟩ := List.length_eq_one_iff.1 h; exact ⟨n, 0, Or.inl rfl⟩
    · obtain ⟨n, m, rfl⟩ := List.length_eq_two.1 h; exact ⟨n, m, Or.inr rfl⟩
  subst hr
  obtain ⟨n, m, rfl | rfl⟩ := this <;> cases bs <;>
    simp [mkLike, mkTT, mkBatch, cleanRawShape, coresValid, allRange, coreCheck, hs, andR, eqR, pyGet, pyLast]

/-- One-dimensional operands cannot be added. -/
theorem add_one_dim {a b : TT K} (ha : a.WF) (hb : b.WF) (hd : a.ndims = 1)
    (hr : a.rawShape = b.rawShape) : add a b = Except.error Err.value := by
  have hn := ndims_of_rows ha hb hr
  have hmod := modes_of_rows hr
  have hm : (a.isMatrix ↔ b.isMatrix) := by unfold TT.isMatrix; rw [hr]
  have hML : (a.modes 0).length = a.rawShape.length := by simp [TT.modes]
  have hrows : a.rawShape = (a.modes 0).map fun x => [x] := by
    rw [ha.rows_eq, hd]
    simp only [rowsOf, List.range_one, List.map_cons, List.map_nil]
    conv_rhs => rw [list_eq_range_map (a.modes 0) 0, hML, List.map_map]
    rfl
  have hranks : addRanks a b = Except.ok [1, 1] := by simp [addRanks, hd, mapRange]
  have ra0 := ha.rank_first
  have rb0 := hb.rank_first
  have ra1 : a.rank 1 = 1 := hd ▸ ha.rank_last
  have rb1 : b.rank 1 = 1 := by have := hb.rank_last; rwa [← hn, hd] at this
  by_cases hbc : isBatchBroadcastingPossible a b = true
  · by_cases hbb : (a.isBatch || b.isBatch) = true
    · cases hbs : addBatchSize a b with
      | error e =>
        have : e = Err.value := by
          unfold addBatchSize TT.lazyBatchSize at hbs
          split_ifs at hbs <;> split at hbs <;> simp_all
        subst this
        simp only [add, require_pos hm, require_pos hr, require_pos hbc, R.ok_bind, hbb, if_true,
          addBatchMatrixCores, addBatchTensorCores, hbs, R.error_bind, ite_self]
      | ok n =>
        have hA : a.batch = none ∨ a.batch = some 1 ∨ a.batch = some n := by
          unfold addBatchSize TT.lazyBatchSize at hbs
          split_ifs at hbs <;> split at hbs <;> simp_all
        have hB : b.batch = none ∨ b.batch = some 1 ∨ b.batch = some n := by
          unfold addBatchSize TT.lazyBatchSize at hbs
          unfold isBatchBroadcastingPossible at hbc
          rcases h1 : a.batch with _ | x <;> rcases h2 : b.batch with _ | y <;> simp_all
          split_ifs at hbs <;> simp_all
          tauto
        obtain ⟨A, ac, eA, bA, tA, sA, vA⟩ := expandTile ha n _ (tileFlag hA) _ rfl
        obtain ⟨B, bc, eB, bB, tB, sB, vB⟩ := expandTile hb n _ (tileFlag hB) _ rfl
        rw [← hr] at tB
        have h1 := sA 0 (by omega)
        have h2 := sB 0 (by omega)
        rw [ra0, ra1] at h1
        rw [rb0, rb1, ← hmod] at h2
        obtain ⟨c, ec, sc, -⟩ := concat_ok (ac 0) (bc 0) ((some n).toList ++ 1 :: a.modes 0) [] 1 1
          (by rw [h1]; simp) (by rw [h2]; simp) (a.rawShape.length + 2) (by simp [hML])
        have hbad := mkLike_bad_single (some n) c (a.modes 0) (by rw [hML]; exact ha.rows)
          (by rw [sc]; simp) a.rawShape hrows
        by_cases hmx : a.isMatrix
        · have hl : a.rawShape.length = 2 := hmx
          rw [hl] at tA tB ec
          have h3 := addBatchMatrixBody_eq ha hb hn hmx n _ _ A B ac bc tA tB
          have h4 : addBatchMatrixCores a b = Except.ok ([c], n) := by
            rw [addBatchMatrixCores, hbs, R.ok_bind, eA, R.ok_bind, eB, R.ok_bind, bA, bB, h3, hd]
            simp [mapRange, addCore, ec]
          simp only [add, require_pos hm, require_pos hr, require_pos hbc, R.ok_bind, hbb, if_true,
            if_pos hmx, h4, hranks]
          exact hbad
        · have hl : a.rawShape.length = 1 := ha.rows.resolve_right hmx
          rw [hl] at tA tB ec
          have h3 := addBatchTensorBody_eq ha hb hn hmx n _ _ A B ac bc tA tB
          have h4 : addBatchTensorCores a b = Except.ok ([c], n) := by
            rw [addBatchTensorCores, hbs, R.ok_bind, eA, R.ok_bind, eB, R.ok_bind, bA, bB, h3, hd]
            simp [mapRange, addCore, ec]
          simp only [add, require_pos hm, require_pos hr, require_pos hbc, R.ok_bind, hbb, if_true,
            if_neg hmx, h4, hranks]
          exact hbad
    · have h1 : a.batch = none := by
        cases h : a.batch <;> simp_all [TT.isBatch]
      have h2 : b.batch = none := by
        cases h : b.batch <;> simp_all [TT.isBatch]
      have s1 := ha.core_shape 0 (by omega)
      have s2 := hb.core_shape 0 (by omega)
      rw [ra0, ra1, TT.bpre, h1] at s1
      rw [rb0, rb1, ← hmod, TT.bpre, h2] at s2
      obtain ⟨c, ec, sc, -⟩ := concat_ok (a.core 0) (b.core 0) ((none : Option ℕ).toList ++ 1 :: a.modes 0) [] 1 1
          (by rw [s1]; simp) (by rw [s2]; simp) (a.rawShape.length + 1) (by simp [hML])
      have hbad := mkLike_bad_single none c (a.modes 0) (by rw [hML]; exact ha.rows)
          (by rw [sc]; simp) a.rawShape hrows
      by_cases hmx : a.isMatrix
      · have hl : a.rawShape.length = 2 := hmx
        rw [hl] at ec
        have h3 := addMatrixCores_eq ha hb hn hmx
        rw [hd] at h3
        simp [mapRange, addCore, ec] at h3
        simp only [add, require_pos hm, require_pos hr, require_pos hbc, R.ok_bind, if_neg hbb,
            if_pos hmx, h3, hranks]
        exact hbad
      · have hl : a.rawShape.length = 1 := ha.rows.resolve_right hmx
        rw [hl] at ec
        have h3 := addTensorCores_eq ha hb hn hmx
        rw [hd] at h3
        simp [mapRange, addCore, ec] at h3
        simp only [add, require_pos hm, require_pos hr, require_pos hbc, R.ok_bind, if_neg hbb,
            if_neg hmx, h3, hranks]
        exact hbad
  · simp only [add, require_pos hm, require_pos hr, require_neg hbc, R.ok_bind, R.error_bind]

end T3f
