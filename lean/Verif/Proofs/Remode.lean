import Verif.Proofs.ToTT
import Mathlib.Data.List.FinRange
import Mathlib.Data.List.Flatten

/-! # Splitting and merging the modes of a tensor train -/

namespace T3f

/-- The same tensor train with other mode shapes. -/
def remode (t : TT ℝ) (M : ℕ → List ℕ) (nm : ℕ) : TT ℝ :=
  chainTT none ((List.range t.ndims).map fun k => ⟨t.rank k :: (M k ++ [t.rank (k + 1)]),
    fun i => t.fl [] k (ravel (M k) (i.drop 1).dropLast) (i.getD 0 0) (i.getLastD 0)⟩) t.rank M nm

section
variable {t : TT ℝ} (h : t.WF) {M : ℕ → List ℕ} {nm : ℕ} (hnm : nm = 1 ∨ nm = 2) (hM : ∀ k < t.ndims, (M k).length = nm)
include h hnm hM

theorem remode_chain : Chain none ((List.range t.ndims).map fun k => (⟨t.rank k :: (M k ++ [t.rank (k + 1)]),
    fun i => t.fl [] k (ravel (M k) (i.drop 1).dropLast) (i.getD 0 0) (i.getLastD 0)⟩ : Tensor ℝ)) t.rank M nm := by
  have hl : ((List.range t.ndims).map fun k => (⟨t.rank k :: (M k ++ [t.rank (k + 1)]),
    fun i => t.fl [] k (ravel (M k) (i.drop 1).dropLast) (i.getD 0 0) (i.getLastD 0)⟩ : Tensor ℝ)).length = t.ndims := by simp
  refine ⟨by rw [hl]; exact h.pos, h.rank_first, by rw [hl]; exact h.rank_last, fun k hk => h.rank_pos k (by omega), hnm,
    fun k hk => hM k (by omega), fun k hk => ?_, by simp⟩
  rw [getD_range_map _ _ _ _ (by omega)]
  rfl

theorem remode_wf : (remode t M nm).WF := (remode_chain h hnm hM).wf

omit h hnm hM in
theorem remode_ndims : (remode t M nm).ndims = t.ndims := by simp [remode, chainTT, TT.ndims]

omit h hnm hM in
theorem remode_rank {k : ℕ} (hk : k ≤ t.ndims) : (remode t M nm).rank k = t.rank k :=
  chainTT_rank k (by simpa using hk)

omit h hnm hM in
theorem remode_rawShape : (remode t M nm).rawShape = rowsOf M t.ndims nm := by simp [remode, chainTT]

omit h hnm hM in
theorem remode_core {k : ℕ} (hk : k < t.ndims) (v : List ℕ) (a b : ℕ) :
    ((remode t M nm).core k).get (a :: (v ++ [b])) = t.fl [] k (ravel (M k) v) a b := by
  rw [TT.core, remode, chainTT]
  simp only
  rw [getD_range_map _ _ _ _ hk]
  have e : (a :: (v ++ [b])).getLastD 0 = b := by rw [← List.cons_append, List.getLastD_concat]
  simp only [e]
  simp

theorem remode_fl {k n : ℕ} (hk : k < t.ndims) (hn : n < (M k).prod) (a b : ℕ) : (remode t M nm).fl [] k n a b = t.fl [] k n a b := by
  have hm : (remode t M nm).modes k = M k := (remode_chain h hnm hM).modes_eq k (by simpa using hk)
  rw [TT.fl, hm, List.nil_append, remode_core hk, ravel_unravel hn]

omit hnm hM in
theorem remode_entry {g g' : ℕ → List ℕ} (hg : ∀ k < t.ndims, Valid (t.modes k) (g k))
    (hgg : ∀ k < t.ndims, ravel (M k) (g' k) = ravel (t.modes k) (g k)) : (remode t M nm).entry [] g' = t.entry [] g := by
  rw [TT.entry, TT.entry, remode_ndims]
  refine lprod_congr (k := t.ndims) (fun j hj => remode_rank hj.le) (fun j hj a _ b _ => ?_) ?_
  · rw [TT.slice, TT.slice, List.nil_append, List.nil_append, remode_core hj, hgg j hj, TT.fl, unravel_ravel (hg j hj), List.nil_append]
  · rw [remode_rank le_rfl, h.rank_last]; omega

end

/-- Distances and norms depend on the cores with flat mode indices only. -/
theorem entryDot_transfer {t s t' s' : TT ℝ} (h : t.WF) (hw : s.WF) (h' : t'.WF) (hs : s.rawShape = t.rawShape)
    (hs' : s'.rawShape = t'.rawShape) (hns : s.ndims = t.ndims) (hns' : s'.ndims = t'.ndims) (hn : t'.ndims = t.ndims) (hN : t'.N = t.N)
    (hrt : ∀ k ≤ t.ndims, t'.rank k = t.rank k) (hrs : ∀ k ≤ t.ndims, s'.rank k = s.rank k)
    (ht : ∀ k < t.ndims, ∀ n < t.N k, ∀ a < t.rank k, ∀ b < t.rank (k + 1), t'.fl [] k n a b = t.fl [] k n a b)
    (hf : ∀ k < t.ndims, ∀ n < t.N k, ∀ a < s.rank k, ∀ b < s.rank (k + 1), s'.fl [] k n a b = s.fl [] k n a b) :
    entryDot t' s' [] = entryDot t s [] := by
  rw [← gram_entry h hs hns, ← gram_entry h' hs' hns', hn, hN]
  exact gram_congr' hrt hrs ht hf (h.rank_pos _ le_rfl) (by rw [← hns]; exact hw.rank_pos _ le_rfl)

theorem entryDist_eq {t s : TT ℝ} (hs : s.rawShape = t.rawShape) (p : List ℕ) :
    entryDist t s p = entryDot t t p - 2 * entryDot t s p + entryDot s s p := by
  unfold entryDist entryDot
  rw [hs, Finset.mul_sum, ← Finset.sum_sub_distrib, ← Finset.sum_add_distrib]
  exact Finset.sum_congr rfl fun n _ => by ring

theorem entryDist_transfer {t s t' s' : TT ℝ} (h : t.WF) (hw : s.WF) (h' : t'.WF) (hw' : s'.WF) (hs : s.rawShape = t.rawShape)
    (hs' : s'.rawShape = t'.rawShape) (hns : s.ndims = t.ndims) (hns' : s'.ndims = t'.ndims) (hn : t'.ndims = t.ndims) (hN : t'.N = t.N)
    (hrt : ∀ k ≤ t.ndims, t'.rank k = t.rank k) (hrs : ∀ k ≤ t.ndims, s'.rank k = s.rank k)
    (ht : ∀ k < t.ndims, ∀ n < t.N k, ∀ a < t.rank k, ∀ b < t.rank (k + 1), t'.fl [] k n a b = t.fl [] k n a b)
    (hf : ∀ k < t.ndims, ∀ n < t.N k, ∀ a < s.rank k, ∀ b < s.rank (k + 1), s'.fl [] k n a b = s.fl [] k n a b) :
    entryDist t' s' [] = entryDist t s [] := by
  have hNs : s.N = t.N := by funext k; simp [TT.N, TT.modes, hs]
  have hNs' : s'.N = t'.N := by funext k; simp [TT.N, TT.modes, hs']
  rw [entryDist_eq hs, entryDist_eq hs', entryDot_transfer h h h' rfl rfl rfl rfl hn hN hrt hrt ht ht,
    entryDot_transfer h hw h' hs hs' hns hns' hn hN hrt hrs ht hf,
    entryDot_transfer hw hw hw' rfl rfl rfl rfl (by omega) (by rw [hNs', hN, hNs]) (by rw [hns]; exact hrs) (by rw [hns]; exact hrs)
      (by rw [hns, hNs]; exact hf) (by rw [hns, hNs]; exact hf)]

/-! ## The transposition of `to_tt_matrix` -/

def ilPerm (d : ℕ) : List ℕ := (List.range d).flatMap fun k => [k, d + k]

theorem ilPerm_perm (d : ℕ) : (ilPerm d).Perm (List.range (2 * d)) := by
  have h1 : ((List.range d).flatMap (fun k => [k]) ++ (List.range d).flatMap (fun k => [d + k])).Perm (ilPerm d) :=
    List.flatMap_append_perm _ _ _
  refine h1.symm.trans ?_
  rw [two_mul, List.range_add, ← List.map_eq_flatMap, ← List.map_eq_flatMap]
  simp

theorem ilPerm_length (d : ℕ) : (ilPerm d).length = 2 * d := by simpa using (ilPerm_perm d).length_eq

theorem ilPerm_nodup (d : ℕ) : (ilPerm d).Nodup := (ilPerm_perm d).nodup_iff.2 List.nodup_range

theorem ilPerm_idxOf {d k : ℕ} (hk : k < d) : (ilPerm d).idxOf k = 2 * k ∧ (ilPerm d).idxOf (d + k) = 2 * k + 1 := by
  obtain ⟨h1, h2⟩ := getD_flatMap_pair d (fun k => k) (fun k => d + k) k hk
  have l1 : 2 * k < (ilPerm d).length := by rw [ilPerm_length]; omega
  have l2 : 2 * k + 1 < (ilPerm d).length := by rw [ilPerm_length]; omega
  have e1 : (ilPerm d)[2 * k] = k := by rw [← List.getD_eq_getElem _ 0 l1]; exact h1
  have e2 : (ilPerm d)[2 * k + 1] = d + k := by rw [← List.getD_eq_getElem _ 0 l2]; exact h2
  have q1 := (ilPerm_nodup d).idxOf_getElem _ l1
  have q2 := (ilPerm_nodup d).idxOf_getElem _ l2
  rw [e1] at q1
  rw [e2] at q2
  exact ⟨q1, q2⟩

theorem transpose_il {K : Type} (t : Tensor K) {a b : List ℕ} {d : ℕ} (ha : a.length = d) (hb : b.length = d) (hs : t.shape = a ++ b) :
    ∃ T, transpose t (ilPerm d) = Except.ok T ∧ T.shape = ((List.range d).flatMap fun k => [a.getD k 0, b.getD k 0]) ∧
      ∀ i j, i.length = d → j.length = d → T.get ((List.range d).flatMap fun k => [i.getD k 0, j.getD k 0]) = t.get (i ++ j) := by
  have hlen : t.shape.length = 2 * d := by rw [hs, List.length_append]; omega
  refine ⟨_, by rw [transpose, if_pos (by rw [hlen]; exact ilPerm_perm d)], ?_, fun i j hi hj => ?_⟩
  · simp only [ilPerm, List.map_flatMap]
    rw [List.flatMap_def, List.flatMap_def]
    congr 1
    refine List.map_congr_left fun k hk => ?_
    have hk' : k < d := by simpa using hk
    simp only [List.map_cons, List.map_nil, hs]
    rw [List.getD_append _ _ _ _ (by omega), List.getD_append_right _ _ _ _ (by omega), ha, Nat.add_sub_cancel_left]
  · simp only
    congr 1
    rw [hlen, two_mul, List.range_add, List.map_append, List.map_map]
    congr 1
    · apply List.ext_getElem
      · simp [hi]
      · intro k h1 h2
        have hk : k < d := by omega
        rw [List.getElem_map, List.getElem_range, (ilPerm_idxOf hk).1, (getD_flatMap_pair d _ _ k hk).1, List.getD_eq_getElem _ _ h2]
    · apply List.ext_getElem
      · simp [hj]
      · intro k h1 h2
        have hk : k < d := by omega
        rw [List.getElem_map, List.getElem_range, Function.comp, (ilPerm_idxOf hk).2, (getD_flatMap_pair d _ _ k hk).2,
          List.getD_eq_getElem _ _ h2]

end T3f
