import Verif.Model.Gather
import Verif.Proofs.Inner
import Verif.Proofs.DenseMatmul
import Verif.Proofs.GetItem

/-!
# Reading elements of a tensor train
-/

namespace T3f

variable {K : Type}

theorem column_spec (t : Tensor K) {c d k : ℕ} (h : t.shape = [c, d]) (hk : k < d) :
    ∃ C, column t k = Except.ok C ∧ C.shape = [c] ∧ ∀ o < c, C.get [o] = t.get [o, k] := by
  have h2 : resolveIx t.shape [.all, .int (k : ℤ)] =
      Except.ok [Sel.many (List.range c), Sel.one k] := by
    simp [h, resolveIx, intPosition, hk]
  refine ⟨_, by simp [column, getItem, h2]; rfl, by simp [selShape], fun o ho => ?_⟩
  simp [selIdx, ho]

theorem gather_spec (t : Tensor K) (idx : Tensor ℕ) {n c : ℕ} {s : List ℕ} (ht : t.shape = n :: s)
    (hi : idx.shape = [c]) (hv : ∀ o < c, idx.get [o] < n) :
    ∃ C, gather t idx = Except.ok C ∧ C.shape = c :: s ∧
      ∀ o l, C.get (o :: l) = t.get (idx.get [o] :: l) := by
  refine ⟨⟨c :: s, fun j => t.get (idx.get [j.headD 0] :: j.tail)⟩, ?_, rfl, fun _ _ => rfl⟩
  unfold gather
  simp only [ht, hi]
  exact if_pos hv

theorem gather_error (t : Tensor K) (idx : Tensor ℕ) {n c : ℕ} {s : List ℕ} (ht : t.shape = n :: s)
    (hi : idx.shape = [c]) {o : ℕ} (ho : o < c) (hv : n ≤ idx.get [o]) :
    gather t idx = Except.error Err.tf := by
  unfold gather
  simp only [ht, hi]
  exact if_neg fun h => absurd (h o ho) (by omega)

theorem gatherNd2_spec (t : Tensor K) (idx : Tensor ℕ) {m n c : ℕ} {s : List ℕ}
    (ht : t.shape = m :: n :: s)
    (hi : idx.shape = [c, 2]) (hv : ∀ o < c, idx.get [o, 0] < m ∧ idx.get [o, 1] < n) :
    ∃ C, gatherNd2 t idx = Except.ok C ∧ C.shape = c :: s ∧
      ∀ o l, C.get (o :: l) = t.get (idx.get [o, 0] :: idx.get [o, 1] :: l) := by
  refine ⟨⟨c :: s, fun j => t.get (idx.get [j.headD 0, 0] :: idx.get [j.headD 0, 1] :: j.tail)⟩, ?_, rfl,
    fun _ _ => rfl⟩
  unfold gatherNd2
  simp only [ht, hi]
  exact if_pos hv

theorem gatherNd2_error (t : Tensor K) (idx : Tensor ℕ) {m n c : ℕ} {s : List ℕ}
    (ht : t.shape = m :: n :: s)
    (hi : idx.shape = [c, 2]) {o : ℕ} (ho : o < c) (hv : ¬ (idx.get [o, 0] < m ∧ idx.get [o, 1] < n)) :
    gatherNd2 t idx = Except.error Err.tf := by
  unfold gatherNd2
  simp only [ht, hi]
  exact if_neg fun h => hv (h o ho)

theorem stack1_spec (a b : Tensor K) {c : ℕ} (ha : a.shape = [c]) (hb : b.shape = [c]) :
    ∃ C, stack1 a b = Except.ok C ∧ C.shape = [c, 2] ∧ ∀ o, C.get [o, 0] = a.get [o] ∧ C.get [o, 1] = b.get [o] := by
  refine ⟨⟨[c, 2], fun j => if j.getD 1 0 = 0 then a.get [j.getD 0 0] else b.get [j.getD 0 0]⟩, ?_, rfl,
    fun _ => ⟨rfl, rfl⟩⟩
  unfold stack1
  simp only [ha, hb, if_true]

theorem transpose102 {C : Tensor K} {r n r' : ℕ} (h : C.shape = [r, n, r']) :
    ∃ T, transpose C [1, 0, 2] = Except.ok T ∧ T.shape = [n, r, r'] ∧
      ∀ x i y, T.get [i, x, y] = C.get [x, i, y] := by
  refine ⟨_, if_pos (by simp only [h, List.length_cons, List.length_nil]; decide), by simp [h], fun x i y => ?_⟩
  simp [h, List.range_succ, List.idxOf_cons]

theorem transpose1203 {C : Tensor K} {r n m r' : ℕ} (h : C.shape = [r, n, m, r']) :
    ∃ T, transpose C [1, 2, 0, 3] = Except.ok T ∧ T.shape = [n, m, r, r'] ∧
      ∀ x i j y, T.get [i, j, x, y] = C.get [x, i, j, y] := by
  refine ⟨_, if_pos (by simp only [h, List.length_cons, List.length_nil]; decide), by simp [h], fun x i j y => ?_⟩
  simp [h, List.range_succ, List.idxOf_cons]

variable [CommRing K]

/-- Batch index and mode indices read off the row `o` of an index array. -/
def rowBatch (t : TT K) (idx : Tensor ℕ) (o : ℕ) : List ℕ := if t.isBatch then [idx.get [o, 0]] else []

/-- Mode indices read off the row `o` of an index array. -/
def rowModes (t : TT K) (idx : Tensor ℕ) (o : ℕ) : ℕ → List ℕ := fun k => [idx.get [o, t.bpre.length + k]]

/-- Loop invariant: row `o` holds the partial product of the slices selected by row `o`. -/
def GatherInv (t : TT K) (c : ℕ) (p : ℕ → List ℕ) (m : ℕ → ℕ → List ℕ) (k : ℕ) (el : Tensor K) : Prop :=
  el.shape = [c, 1, t.rank k] ∧
    ∀ o < c, ∀ b < t.rank k, el.get [o, 0, b] = lprod t.rank (t.slice (p o) (m o)) k b

omit [CommRing K] in
theorem getD_zip_shape {row : List ℕ} {k : ℕ} (_hk : k < row.length) : [row].map (·.getD k 0) = [row.getD k 0] := rfl

theorem gatherInv_step {t : TT K} {c : ℕ} {p : ℕ → List ℕ} {m : ℕ → ℕ → List ℕ} {k : ℕ} {el S : Tensor K}
    (h : GatherInv t c p m k el) (hS : S.shape = [c, t.rank k, t.rank (k + 1)])
    (hv : ∀ o < c, ∀ a < t.rank k, ∀ b < t.rank (k + 1), S.get [o, a, b] = t.slice (p o) (m o) k a b) :
    ∃ el', matmul el S = Except.ok el' ∧ GatherInv t c p m (k + 1) el' := by
  obtain ⟨C, e, s, v⟩ := matmul3 el S c 1 (t.rank k) (t.rank (k + 1)) h.1 hS
  refine ⟨C, e, s, fun o ho b hb => ?_⟩
  rw [v, lprod]
  exact Finset.sum_congr rfl fun a ha => by
    rw [h.2 o ho a (Finset.mem_range.1 ha), hv o ho a (Finset.mem_range.1 ha) b hb]

theorem gatherStep_spec {t : TT K} (h : t.WF) {row : List ℕ} (hr : t.rawShape = [row]) {idx : Tensor ℕ} {c : ℕ}
    (hs : idx.shape = [c, t.bpre.length + t.ndims]) {k : ℕ} (hk : k < t.ndims) {el : Tensor K}
    (hp : ∀ o < c, Valid t.bpre (rowBatch t idx o))
    (hm : ∀ o < c, idx.get [o, t.bpre.length + k] < row.getD k 0)
    (hI : GatherInv t c (rowBatch t idx) (rowModes t idx) k el) :
    ∃ el', gatherStep t idx k el = Except.ok el' ∧ GatherInv t c (rowBatch t idx) (rowModes t idx) (k + 1) el' := by
  have hcore := h.core_shape k hk
  have hmod : t.modes k = [row.getD k 0] := by simp [TT.modes, hr]
  rw [hmod] at hcore
  rcases hb : t.batch with _ | n
  · have hbp := bpre_none hb
    simp only [hbp, List.nil_append, List.cons_append, List.length_nil, zero_add] at hcore hs hm
    have hbb : t.isBatch = false := by simp [TT.isBatch, hb]
    obtain ⟨T, eT, sT, vT⟩ := transpose102 hcore
    obtain ⟨C, eC, sC, vC⟩ := column_spec idx hs hk
    obtain ⟨G, eG, sG, vG⟩ := gather_spec T C sT sC (fun o ho => by rw [vC o ho]; exact hm o ho)
    obtain ⟨E, eE, hE⟩ := gatherInv_step (S := G) hI sG (fun o ho a ha b hb' => by
      rw [vG, vT, vC o ho, TT.slice]; simp [rowBatch, hbb, rowModes, hbp])
    exact ⟨E, by simp [gatherStep, h.pyCore hk, hbb, eT, eC, eG, eE], hE⟩
  · have hbp := bpre_some hb
    have hbb : t.isBatch = true := by simp [TT.isBatch, hb]
    simp only [hbp, List.nil_append, List.cons_append, List.length_nil, zero_add, List.length_cons] at hcore hs hm hp
    obtain ⟨T, eT, sT, vT⟩ := transpose4 hcore
    obtain ⟨C0, eC0, sC0, vC0⟩ := column_spec idx (k := 0) hs (by omega)
    obtain ⟨C, eC, sC, vC⟩ := column_spec idx (k := k + 1) hs (by omega)
    obtain ⟨Z, eZ, sZ, vZ⟩ := stack1_spec C0 C sC0 sC
    obtain ⟨G, eG, sG, vG⟩ := gatherNd2_spec T Z sT sZ (fun o ho => by
      rw [(vZ o).1, (vZ o).2, vC o ho, vC0 o ho]
      refine ⟨?_, by rw [add_comm]; exact hm o ho⟩
      have := hp o ho
      simp [rowBatch, hbb] at this
      exact this)
    obtain ⟨E, eE, hE⟩ := gatherInv_step (S := G) hI sG (fun o ho a ha b hb' => by
      rw [vG, vT, (vZ o).1, (vZ o).2, vC o ho, vC0 o ho, TT.slice]; simp [rowBatch, hbb, rowModes, hbp, add_comm])
    exact ⟨E, by simp [gatherStep, h.pyCore hk, hbb, eT, eC, eC0, eZ, eG, eE], hE⟩

theorem gatherStep_error {t : TT K} (h : t.WF) {row : List ℕ} (hr : t.rawShape = [row]) {idx : Tensor ℕ} {c : ℕ}
    (hs : idx.shape = [c, t.bpre.length + t.ndims]) {k : ℕ} (hk : k < t.ndims) {el : Tensor K}
    {o : ℕ} (ho : o < c)
    (hbad : ¬ (Valid t.bpre (rowBatch t idx o) ∧ idx.get [o, t.bpre.length + k] < row.getD k 0)) :
    gatherStep t idx k el = Except.error Err.tf := by
  have hcore := h.core_shape k hk
  have hmod : t.modes k = [row.getD k 0] := by simp [TT.modes, hr]
  rw [hmod] at hcore
  rcases hb : t.batch with _ | n
  · have hbp := bpre_none hb
    have hbb : t.isBatch = false := by simp [TT.isBatch, hb]
    simp only [hbp, List.nil_append, List.cons_append, List.length_nil, zero_add, rowBatch, hbb,
      Bool.false_eq_true, if_false, valid_nil_nil, true_and, not_lt] at hcore hs hbad
    obtain ⟨T, eT, sT, vT⟩ := transpose102 hcore
    obtain ⟨C, eC, sC, vC⟩ := column_spec idx hs hk
    have eG := gather_error T C sT sC ho (by rw [vC o ho]; exact hbad)
    simp [gatherStep, h.pyCore hk, hbb, eT, eC, eG]
  · have hbp := bpre_some hb
    have hbb : t.isBatch = true := by simp [TT.isBatch, hb]
    simp only [hbp, List.nil_append, List.cons_append, List.length_nil, zero_add, List.length_cons,
      rowBatch, hbb, if_true, valid_cons, valid_nil_nil, and_true] at hcore hs hbad
    obtain ⟨T, eT, sT, vT⟩ := transpose4 hcore
    obtain ⟨C0, eC0, sC0, vC0⟩ := column_spec idx (k := 0) hs (by omega)
    obtain ⟨C, eC, sC, vC⟩ := column_spec idx (k := k + 1) hs (by omega)
    obtain ⟨Z, eZ, sZ, vZ⟩ := stack1_spec C0 C sC0 sC
    have eG := gatherNd2_error T Z sT sZ ho (by
      rw [(vZ o).1, (vZ o).2, vC o ho, vC0 o ho, add_comm k]; exact hbad)
    simp [gatherStep, h.pyCore hk, hbb, eT, eC, eC0, eZ, eG]

theorem gatherInv_ones {t : TT K} (h : t.WF) {c : ℕ} {p : ℕ → List ℕ} {m : ℕ → ℕ → List ℕ} {E : Tensor K}
    (hs : E.shape = [c, 1, 1]) (hv : ∀ o < c, E.get [o, 0, 0] = 1) : GatherInv t c p m 0 E := by
  refine ⟨by rw [hs, h.rank_first], fun o ho b hb => ?_⟩
  rw [h.rank_first] at hb
  obtain rfl : b = 0 := by omega
  simp [lprod, hv o ho]

theorem gatherPrep {t : TT K} (h : t.WF) {row : List ℕ} (hr : t.rawShape = [row]) {idx : Tensor ℕ} {c : ℕ}
    (hs : idx.shape = [c, t.bpre.length + t.ndims]) :
    ∃ E : Tensor K, ttGatherNd t idx = (forRange (gatherStep t idx) 0 t.ndims E >>= fun el => reshape el [some c]) ∧
      GatherInv t c (rowBatch t idx) (rowModes t idx) 0 E := by
  have hm : ¬ t.isMatrix := by simp [TT.isMatrix, hr]
  obtain ⟨E, eE, sE, vE⟩ := reshape_spec (ones [c] : Tensor K) [none, some 1, some 1] [c, 1, 1]
    (resolveShape_infer [none, some 1, some 1] c _ rfl (by simp [knownProd]) (by simp [ones, knownProd]))
  refine ⟨E, ?_, gatherInv_ones h sE fun o ho => ?_⟩
  · have hl : t.bpre.length + t.ndims = if t.isBatch then t.ndims + 1 else t.ndims := by
      cases hb : t.batch <;> simp [TT.bpre, TT.isBatch, hb, add_comm]
    unfold ttGatherNd
    rw [require_pos hm, hs]
    simp only [pyLast, R.ok_bind, List.getLast?_cons_cons, List.getLast?_singleton, List.dropLast_cons_cons,
      List.dropLast_singleton, eE, List.map_cons, List.map_nil]
    rw [require_pos hl]
    rfl
  · rw [vE [o, 0, 0] [o] (by simpa [ones] using ho) (by simp [ones])]; rfl

theorem ttGatherNd_spec {t : TT K} (h : t.WF) {row : List ℕ} (hr : t.rawShape = [row]) {idx : Tensor ℕ} {c : ℕ}
    (hs : idx.shape = [c, t.bpre.length + t.ndims])
    (hp : ∀ o < c, Valid t.bpre (rowBatch t idx o))
    (hm : ∀ o < c, ∀ k < t.ndims, idx.get [o, t.bpre.length + k] < row.getD k 0) :
    ∃ G, ttGatherNd t idx = Except.ok G ∧ G.shape = [c] ∧
      ∀ o < c, G.get [o] = t.entry (rowBatch t idx o) (rowModes t idx o) := by
  obtain ⟨E, eE, hE⟩ := gatherPrep h hr hs
  obtain ⟨F, eF, hF⟩ := forRange_inv (GatherInv t c (rowBatch t idx) (rowModes t idx)) (gatherStep t idx)
    0 t.ndims E hE (fun k el _ hk hI => gatherStep_spec h hr hs (by omega) hp (fun o ho => hm o ho k (by omega)) hI)
  rw [zero_add] at hF
  have hFs : F.shape = [c, 1, 1] := by rw [hF.1, h.rank_last]
  obtain ⟨G, eG, sG, vG⟩ := reshape_spec F [some c] [c] (resolveShape_some [c] _ (by simp [hFs]))
  refine ⟨G, by rw [eE, eF, R.ok_bind, eG], sG, fun o ho => ?_⟩
  rw [vG [o] [o, 0, 0] (by simp [hFs, ho]) (by simp [hFs]), hF.2 o ho 0 (by rw [h.rank_last]; omega)]
  rfl

theorem ttGatherNd_error {t : TT K} (h : t.WF) {row : List ℕ} (hr : t.rawShape = [row]) {idx : Tensor ℕ} {c : ℕ}
    (hs : idx.shape = [c, t.bpre.length + t.ndims])
    (hbad : ¬ ∀ o < c, Valid t.bpre (rowBatch t idx o) ∧
      ∀ k < t.ndims, idx.get [o, t.bpre.length + k] < row.getD k 0) :
    ttGatherNd t idx = Except.error Err.tf := by
  classical
  obtain ⟨E, eE, hE⟩ := gatherPrep h hr hs
  have hpos := h.pos
  have hex : ∃ k, k < t.ndims ∧ ∃ o, o < c ∧
      ¬ (Valid t.bpre (rowBatch t idx o) ∧ idx.get [o, t.bpre.length + k] < row.getD k 0) := by
    by_contra hcon
    push Not at hcon
    exact hbad fun o ho => ⟨(hcon 0 hpos o ho).1, fun k hk => (hcon k hk o ho).2⟩
  obtain ⟨hk, o, ho, hb⟩ := Nat.find_spec hex
  rw [eE, forRange_error (GatherInv t c (rowBatch t idx) (rowModes t idx)) (gatherStep t idx) 0 t.ndims
    (Nat.find hex) Err.tf E hE (by omega) (by omega) (fun k el _ hk' hI => ?_)
    (fun el _ => gatherStep_error h hr hs hk ho hb)]
  · rfl
  · have := Nat.find_min hex hk'
    push Not at this
    have := this (by omega)
    exact gatherStep_spec h hr hs (by omega) (fun o ho => (this o ho).1) (fun o ho => (this o ho).2) hI

end T3f
