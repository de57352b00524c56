import Verif.Model.BatchOps
import Verif.Proofs.ChainEntry
import Verif.Proofs.Concat
import Verif.Proofs.FullGet
import Verif.Proofs.Renorm
import Verif.Proofs.Inner

/-! # Operations along the batch axis -/

namespace T3f

variable {K : Type}

/-- Offset of the `i`-th block. -/
def blockOff (ns : List ℕ) (i : ℕ) : ℕ := (ns.take i).sum

theorem blockOff_cover (ns : List ℕ) (x : ℕ) (hx : x < ns.sum) :
    ∃ i < ns.length, ∃ o < ns.getD i 0, x = blockOff ns i + o := by
  induction ns generalizing x with
  | nil => simp at hx
  | cons n ns ih =>
    rcases lt_or_ge x n with h | h
    · exact ⟨0, by simp, x, by simpa using h, by simp [blockOff]⟩
    · obtain ⟨i, hi, o, ho, e⟩ := ih (x - n) (by simp at hx; omega)
      refine ⟨i + 1, by simpa using hi, o, by simpa using ho, ?_⟩
      simp only [blockOff, List.take_succ_cons, List.sum_cons] at e ⊢
      omega

/-- Concatenation of any number of tensors along the first axis. -/
theorem concat_list [Zero K] (Ts : List (Tensor K)) (hne : Ts ≠ []) (ns : List ℕ) (S : List ℕ)
    (hl : ns.length = Ts.length) (hs : ∀ i < Ts.length, (Ts.getD i default).shape = ns.getD i 0 :: S) :
    ∃ C, concat 0 Ts = Except.ok C ∧ C.shape = ns.sum :: S ∧
      ∀ i < Ts.length, ∀ o < ns.getD i 0, ∀ s, C.get ((blockOff ns i + o) :: s) = (Ts.getD i default).get (o :: s) := by
  induction Ts generalizing ns with
  | nil => exact absurd rfl hne
  | cons T Ts ih =>
    obtain ⟨n, ns, rfl⟩ : ∃ n ns', ns = n :: ns' := by
      cases ns with
      | nil => simp at hl
      | cons n ns => exact ⟨n, ns, rfl⟩
    have hT : T.shape = n :: S := by simpa using hs 0 (by simp)
    cases Ts with
    | nil =>
      have : ns = [] := by simpa using hl
      subst this
      refine ⟨T, by simp [concat, hT], by simp [hT], fun i hi o ho s => ?_⟩
      have : i = 0 := by simpa using hi
      subst this
      simp [blockOff]
    | cons T' Ts =>
      obtain ⟨C, eC, sC, vC⟩ := ih (by simp) ns (by simpa using hl)
        (fun i hi => by simpa using hs (i + 1) (by simpa using hi))
      have hc2 : concat 0 (T :: T' :: Ts) = concat2 0 T C := by
        rw [concat, eC, R.ok_bind]
        simp
      have hcond : T.shape.length = C.shape.length ∧ 0 < T.shape.length ∧
          T.shape.eraseIdx 0 = C.shape.eraseIdx 0 := by simp [hT, sC]
      refine ⟨_, by rw [hc2, concat2, if_pos hcond], by simp [hT, sC], fun i hi o ho s => ?_⟩
      cases i with
      | zero =>
        have ho' : o < n := by simpa using ho
        simp [hT, blockOff, ho']
      | succ i =>
        have := vC i (by simpa using hi) o (by simpa using ho) s
        simp only [List.getD_cons_succ]
        rw [← this]
        have e : blockOff (n :: ns) (i + 1) = n + blockOff ns i := by simp [blockOff]
        simp [hT, e, show ¬ n + blockOff ns i + o < n by omega]
        congr 2
        omega

theorem mapRange_getD_list {α β : Type} (l : List α) (d : α) (f : α → R β) (g : α → β)
    (h : ∀ a ∈ l, f a = Except.ok (g a)) :
    mapRange l.length (fun i => do
      let t ← pyGet l i
      f t) = Except.ok (l.map g) := by
  rw [mapRange_eq _ _ (fun i => g (l.getD i d)) (fun k hk => by
    rw [pyGet_of_lt _ _ d hk, R.ok_bind]
    apply h
    rw [List.getD_eq_getElem _ _ hk]
    exact List.getElem_mem _)]
  congr 1
  conv_rhs => rw [list_eq_range_map l d, List.map_map]
  rfl

theorem mapRange_first_error {α : Type} (n k : ℕ) (f : ℕ → R α) (e : Err) (hk : k < n)
    (hs : ∀ i < k, ∃ a, f i = Except.ok a) (he : f k = Except.error e) : mapRange n f = Except.error e := by
  unfold mapRange
  have key : ∀ (l1 : List ℕ) (l2 : List ℕ), (∀ i ∈ l1, ∃ a, f i = Except.ok a) →
      (l1 ++ k :: l2).mapM f = Except.error e := by
    intro l1 l2 h
    induction l1 with
    | nil => rw [List.nil_append, List.mapM_cons, he]; rfl
    | cons a l1 ih =>
      obtain ⟨b, hb⟩ := h a (by simp)
      rw [List.cons_append, List.mapM_cons, hb, R.ok_bind, ih (fun i hi => h i (by simp [hi]))]; rfl
  have : List.range n = List.range k ++ k :: (List.range (n - k - 1)).map (fun x => k + (x + 1)) := by
    conv_lhs => rw [show n = k + ((n - k - 1) + 1) by omega, List.range_add]
    rw [List.range_succ_eq_map]
    simp [Function.comp_def]
  rw [this]
  exact key _ _ fun i hi => hs i (by simpa using hi)

/-- The first index violating a decidable predicate. -/
theorem exists_first {n : ℕ} (P : ℕ → Prop) (h : ∃ i < n, ¬ P i) :
    ∃ k < n, ¬ P k ∧ ∀ i < k, P i := by
  classical
  obtain ⟨h1, h2⟩ := Nat.find_spec h
  refine ⟨Nat.find h, h1, h2, fun i hi => ?_⟩
  by_contra hc
  exact Nat.find_min h hi ⟨by omega, hc⟩

/-- What `concat_along_batch_dim` guarantees. -/
theorem concatAlongBatchDim_spec [CommRing K] (t0 : TT K) (ts : List (TT K)) (hne : ts ≠ [])
    (hwf : ∀ t ∈ ts, t.WF) (hb : ∀ t ∈ ts, t.isBatch = true) (hr : ∀ t ∈ ts, t.rawShape = t0.rawShape)
    (hk : ∀ t ∈ ts, t.ttRanks = t0.ttRanks) :
    ∃ c, concatAlongBatchDim ts = Except.ok c ∧ c.WF ∧ c.rawShape = t0.rawShape ∧ c.ttRanks = t0.ttRanks ∧
      c.batch = some (ts.map fun t => t.batch.getD 0).sum ∧
      ∀ i < ts.length, ∀ o < (ts.getD i t0).batch.getD 0, ∀ m,
        c.entry [blockOff (ts.map fun t => t.batch.getD 0) i + o] m = (ts.getD i t0).entry [o] m := by
  have hpos : 0 < ts.length := List.length_pos_iff.2 hne
  have hmem : ∀ i < ts.length, ts.getD i t0 ∈ ts := fun i hi => by
    rw [List.getD_eq_getElem _ _ hi]; exact List.getElem_mem _
  set f := ts.getD 0 t0 with hf
  have hfm : f ∈ ts := hmem 0 hpos
  have wf := hwf f hfm
  set ns := ts.map fun t => t.batch.getD 0 with hns
  have hbatch : ∀ t ∈ ts, t.batch = some (t.batch.getD 0) := fun t ht => by
    have := hb t ht
    unfold TT.isBatch at this
    cases h : t.batch with
    | none => simp [h] at this
    | some n => rfl
  have hnd : ∀ t ∈ ts, t.ndims = f.ndims := fun t ht =>
    ndims_of_rows (hwf t ht) wf ((hr t ht).trans (hr f hfm).symm)
  have hnsum : ns.sum ≠ 0 := by
    intro h0
    have hm : f.batch.getD 0 ∈ ns := List.mem_map.2 ⟨f, hfm, rfl⟩
    have : f.batch.getD 0 = 0 := by
      have := List.single_le_sum (l := ns) (by simp) _ hm
      omega
    exact wf.batch_pos (by rw [hbatch f hfm, this])
  have hnsget : ∀ i < ts.length, ns.getD i 0 = (ts.getD i t0).batch.getD 0 := fun i hi => by
    rw [hns, List.getD_eq_getElem _ _ (by simpa using hi), List.getElem_map, List.getD_eq_getElem _ _ hi]
  obtain ⟨cores, eC, lC, hch, hP⟩ := Chain.build (K := K) (fun k => do
      let cs ← mapRange ts.length fun i => do
        let t ← pyGet ts i
        pyGet t.cores k
      concat 0 cs) f.ndims (some ns.sum) f.rank f.modes f.rawShape.length
    (fun k C => ∀ i < ts.length, ∀ o < (ts.getD i t0).batch.getD 0, ∀ s,
      C.get ((blockOff ns i + o) :: s) = ((ts.getD i t0).core k).get (o :: s))
    wf.pos wf.rank_first wf.rank_last wf.rank_pos wf.rows (fun k _ => by simp [TT.modes])
    (by simpa using hnsum) (by
      intro k hk'
      have e1 := mapRange_getD_list ts t0 (fun t => pyGet t.cores k) (fun t => t.core k)
        (fun t ht => (hwf t ht).pyCore (by rw [hnd t ht]; exact hk'))
      rw [e1, R.ok_bind]
      have hget : ∀ i < ts.length, (ts.map fun t => t.core k).getD i default = (ts.getD i t0).core k := by
        intro i hi
        rw [List.getD_eq_getElem _ _ (by simpa using hi), List.getElem_map, List.getD_eq_getElem _ _ hi]
      obtain ⟨C, e, s, v⟩ := concat_list (ts.map fun t => t.core k) (by simpa using hne) ns
        (f.rank k :: (f.modes k ++ [f.rank (k + 1)])) (by simp [hns]) (by
          intro i hi
          have hi' : i < ts.length := by simpa using hi
          have hm := hmem i hi'
          rw [hget i hi', (hwf _ hm).core_shape k (by rw [hnd _ hm]; exact hk'), bpre_some (hbatch _ hm), hnsget i hi',
            modes_of_rows ((hr _ hm).trans (hr f hfm).symm)]
          simp only [TT.rank, hk _ hm, hk f hfm]
          rfl)
      refine ⟨C, e, s, fun i hi o ho l => ?_⟩
      rw [v i (by simpa using hi) o (by rw [hnsget i hi]; exact ho), hget i hi])
  have hmk := mkBatch_ok hch (.shapes f.rawShape) (Or.inr (hch.clean (by rw [lC]; exact wf.rows_eq)))
    (some f.ttRanks) (Or.inr (by rw [lC]; exact congrArg _ wf.ranks_eq)) (some ns.sum) (Or.inr rfl)
  refine ⟨_, ?_, hch.wf, ?_, ?_, rfl, ?_⟩
  · have p1 := mapRange_getD_list ts t0 (fun t => require (t.isBatch = true) Err.value) (fun _ => ())
      (fun t ht => require_pos (hb t ht) _)
    obtain ⟨u, p2, -⟩ := forRange_inv (fun _ _ => True) (fun i (_ : Unit) => do
        let t ← pyGet ts i
        require (t.rawShape = f.rawShape) Err.value
        require (t.ttRanks = f.ttRanks) Err.value) 1 (ts.length - 1) () trivial (by
      intro i s h1 h2 _
      refine ⟨(), ?_, trivial⟩
      have hm := hmem i (by omega)
      rw [pyGet_of_lt ts i t0 (by omega), R.ok_bind, require_pos ((hr _ hm).trans (hr f hfm).symm), R.ok_bind,
        require_pos ((hk _ hm).trans (hk f hfm).symm)])
    unfold concatAlongBatchDim
    rw [pyGet_of_lt ts 0 t0 hpos, R.ok_bind, p1, R.ok_bind, ← hf, p2, R.ok_bind, eC, R.ok_bind]
    exact hmk
  · change rowsOf _ _ _ = _
    rw [lC, ← hr f hfm]; exact wf.rows_eq.symm
  · change ranksOf _ _ = _
    rw [lC, ← hk f hfm]; exact wf.ranks_eq.symm
  · intro i hi o ho m
    have hm := hmem i hi
    rw [hch.entry_eq, lC, TT.entry, hnd _ hm]
    have hrk : (ts.getD i t0).rank = f.rank := by
      funext k; simp only [TT.rank, hk _ hm, hk f hfm]
    rw [hrk]
    refine lprod_congr' fun j hj => ?_
    funext a b
    exact hP j hj i hi o ho _

theorem concatAlongBatchDim_not_batch (ts : List (TT K)) (h : ∃ t ∈ ts, t.isBatch = false) :
    concatAlongBatchDim ts = Except.error Err.value := by
  obtain ⟨t1, ht1, hb1⟩ := h
  obtain ⟨j, hj, rfl⟩ := List.getElem_of_mem ht1
  obtain ⟨k, hk, hkb, hpre⟩ := exists_first (n := ts.length) (fun i => (ts.getD i ts[j]).isBatch = true)
    ⟨j, hj, by rw [List.getD_eq_getElem _ _ hj, hb1]; simp⟩
  unfold concatAlongBatchDim
  rw [pyGet_of_lt ts 0 ts[j] (by omega), R.ok_bind, mapRange_first_error ts.length k _ Err.value hk]
  · rfl
  · intro i hi
    rw [pyGet_of_lt ts i ts[j] (by omega), R.ok_bind, require_pos (hpre i hi)]
    exact ⟨_, rfl⟩
  · rw [pyGet_of_lt ts k ts[j] (by omega), R.ok_bind, require_neg hkb]

theorem concatAlongBatchDim_mismatch (t0 : TT K) (ts : List (TT K))
    (hb : ∀ t ∈ t0 :: ts, t.isBatch = true) (h : ∃ t ∈ ts, t.rawShape ≠ t0.rawShape ∨ t.ttRanks ≠ t0.ttRanks) :
    concatAlongBatchDim (t0 :: ts) = Except.error Err.value := by
  obtain ⟨t1, ht1, hb1⟩ := h
  obtain ⟨j, hj, rfl⟩ := List.getElem_of_mem ht1
  obtain ⟨k, hk, hkb, hpre⟩ := exists_first (n := ts.length)
    (fun i => (ts.getD i t0).rawShape = t0.rawShape ∧ (ts.getD i t0).ttRanks = t0.ttRanks)
    ⟨j, hj, by rw [List.getD_eq_getElem _ _ hj]; tauto⟩
  unfold concatAlongBatchDim
  rw [pyGet_of_lt (t0 :: ts) 0 t0 (by simp), R.ok_bind, List.getD_cons_zero,
    mapRange_getD_list (t0 :: ts) t0 (fun t => require (t.isBatch = true) Err.value) (fun _ => ())
      (fun t ht => require_pos (hb t ht) _), R.ok_bind,
    forRange_error (fun _ _ => True) _ 1 _ (k + 1) Err.value () trivial (by omega) (by simp; omega)]
  · rfl
  · intro i s h1 h2 _
    obtain ⟨i, rfl⟩ : ∃ i', i = i' + 1 := ⟨i - 1, by omega⟩
    obtain ⟨q1, q2⟩ := hpre i (by omega)
    refine ⟨(), ?_, trivial⟩
    rw [pyGet_of_lt (t0 :: ts) (i + 1) t0 (by simp; omega), R.ok_bind, List.getD_cons_succ, require_pos q1, R.ok_bind,
      require_pos q2]
  · intro s _
    rw [pyGet_of_lt (t0 :: ts) (k + 1) t0 (by simp; omega), R.ok_bind, List.getD_cons_succ]
    by_cases q1 : (ts.getD k t0).rawShape = t0.rawShape
    · rw [require_pos q1, R.ok_bind, require_neg (fun q2 => hkb ⟨q1, q2⟩)]
    · rw [require_neg q1]; rfl

/-- What `multiply_along_batch_dim` guarantees. -/
theorem multiplyAlongBatchDim_spec [CommRing K] {t : TT K} (h : t.WF) {n : ℕ} (hb : t.batch = some n) (w : Tensor K)
    (hw : w.shape = [n] ∨ w.shape = [1]) :
    ∃ c, multiplyAlongBatchDim t w = Except.ok c ∧ c.WF ∧ c.rawShape = t.rawShape ∧ c.ttRanks = t.ttRanks ∧
      c.batch = t.batch ∧
      ∀ o < n, ∀ m, t.ValidModes m t.ndims → c.entry [o] m = w.get [if w.shape = [n] then o else 0] * t.entry [o] m := by
  obtain ⟨u, hu⟩ : ∃ u, w.shape = [u] := by rcases hw with e | e <;> exact ⟨_, e⟩
  have hun : u = n ∨ u = 1 := by rcases hw with e | e <;> rw [e] at hu <;> cases hu <;> simp
  set s := t.rank 0 :: (t.modes 0 ++ [t.rank 1]) with hs
  have hlen : s.length = t.rawShape.length + 2 := by simp [hs, TT.modes]
  have hext : (if t.isMatrix then 4 else 3) = s.length := by
    rw [hlen]
    by_cases hm : t.isMatrix
    · rw [if_pos hm, show t.rawShape.length = 2 from hm]
    · rw [if_neg hm, h.rows.resolve_right hm]
  have hc0 : (t.core 0).shape = n :: s := by rw [h.core_shape 0 h.pos, bpre_some hb]; rfl
  have hbs : ∀ (s : List ℕ) (u : ℕ), u = n ∨ u = 1 →
      bshape (List.replicate s.length 1 ++ [u]) (s ++ [n]) = some (s ++ [n]) := by
    intro s u hu
    induction s with
    | nil => rcases hu with rfl | rfl <;> simp [bshape]
    | cons x s ih =>
      simp only [List.cons_append, List.length_cons, List.replicate_succ, bshape, ih]
      split_ifs <;> simp_all
  set w' : Tensor K := ⟨u :: List.replicate s.length 1, fun i => w.get (i.headD 0 :: i.drop (s.length + 1))⟩ with hw'
  have hexp : expandWeights s.length w = Except.ok w' := by
    unfold expandWeights
    rw [hu]
    simp only [List.append_nil, R.pure_eq, hw']
  obtain ⟨C, eC, sC, vC⟩ := binop_ok (· * ·) w' (t.core 0) (n :: s) (by
    rw [hc0, hw', List.reverse_cons, List.reverse_cons, List.reverse_replicate, ← List.length_reverse]
    exact hbs _ _ hun)
  have hval : ∀ o < n, ∀ i, Valid s i → C.get (o :: i) = w.get [if u = n then o else 0] * (t.core 0).get (o :: i) := by
    intro o ho i hi
    rw [vC, hc0, bproj_valid (show Valid (n :: s) (o :: i) from ⟨ho, hi⟩)]
    congr 1
    simp only [hw', bproj, List.length_cons, List.length_replicate, hi.length_eq, Nat.sub_self, List.drop_zero,
      List.zipWith_cons_cons, List.headD_cons]
    congr 1
    rw [List.drop_of_length_le (by simp [hi.length_eq])]
    congr 1
    split_ifs <;> omega
  have hpos := h.pos
  have hch : Chain t.batch (t.cores.set 0 C) t.rank t.modes t.rawShape.length := by
    have hc := h.chain
    refine ⟨by rw [List.length_set]; exact hc.pos, hc.r0, by rw [List.length_set]; exact hc.rd,
      by rw [List.length_set]; exact hc.rpos, hc.nm12, fun k _ => by simp [TT.modes], fun k hk => ?_, hc.bpos⟩
    rw [List.length_set] at hk
    by_cases hk0 : k = 0
    · subst hk0
      rw [List.getD_eq_getElem _ _ (by simpa using hk), List.getElem_set_self, sC, hb]; rfl
    · rw [List.getD_eq_getElem _ _ (by simpa using hk), List.getElem_set_ne (by omega)]
      have := hc.shape k hk
      rwa [List.getD_eq_getElem _ _ hk] at this
  have hl : (t.cores.set 0 C).length = t.ndims := by simp [TT.ndims]
  have hmk := mkLike_ok hch t.rawShape (by rw [hl]; exact h.rows_eq) t.ttRanks (by rw [hl]; exact h.ranks_eq)
  rw [hb] at hmk
  refine ⟨_, ?_, hch.wf, ?_, ?_, rfl, ?_⟩
  · unfold multiplyAlongBatchDim
    rw [hext, hexp, R.ok_bind, h.pyCore h.pos, R.ok_bind, eC, R.ok_bind, hb]
    exact hmk
  · change rowsOf _ _ _ = _
    rw [hl]; exact h.rows_eq.symm
  · change ranksOf _ _ = _
    rw [hl]; exact h.ranks_eq.symm
  · intro o ho m hm
    rw [hch.entry_eq, hl, TT.entry]
    have hiff : (w.shape = [n]) = (u = n) := by rw [hu]; simp
    have hsc := lprod_scale t.rank (fun k => if k = 0 then w.get [if u = n then o else 0] else 1) (t.slice [o] m)
      t.ndims 0
    have hprod : (∏ j ∈ Finset.range t.ndims, if j = 0 then w.get [if u = n then o else 0] else 1) =
        w.get [if u = n then o else 0] := by
      rw [Finset.prod_ite_eq' (Finset.range t.ndims) 0]
      simp [h.pos]
    rw [hprod] at hsc
    simp only [hiff]
    rw [← hsc]
    refine lprod_congr (fun _ _ => rfl) (fun j hj a b ha hb' => ?_) (by rw [h.rank_last]; omega)
    by_cases hj0 : j = 0
    · subst hj0
      rw [List.getD_eq_getElem _ _ (by simpa [TT.ndims] using hj), List.getElem_set_self]
      rw [if_pos rfl]
      have hv : Valid s (a :: (m 0 ++ [b])) := ⟨ha, valid_append (hm 0 hj) ⟨hb', trivial⟩⟩
      exact hval o ho _ hv
    · rw [List.getD_eq_getElem _ _ (by simpa [TT.ndims] using hj), List.getElem_set_ne (by omega), if_neg hj0, one_mul]
      have hj' : j < t.cores.length := hj
      simp only [TT.slice, TT.core, List.getD_eq_getElem _ _ hj']

end T3f
