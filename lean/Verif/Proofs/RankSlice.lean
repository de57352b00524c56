import Verif.Proofs.Indexing
import Verif.Proofs.Svd
import Verif.Model.Tangent

/-! # Slices of the TT-ranks of a core -/

namespace T3f

theorem resolveIx_append (s t : List ℕ) (sp : List Ix) :
    resolveIx (s ++ t) (List.replicate s.length .all ++ sp) = (do let l ← resolveIx t sp; pure (allSel s ++ l)) := by
  induction s with
  | nil =>
    simp only [List.nil_append, List.length_nil, List.replicate_zero]
    cases resolveIx t sp <;> rfl
  | cons n s ih =>
    simp only [List.cons_append, List.length_cons, List.replicate_succ]
    rw [resolveIx_cons, ih]
    cases resolveIx t sp <;> rfl

theorem selIdx_allSel_append {s p : List ℕ} (h : Valid s p) (l : List Sel) (idx : List ℕ) : selIdx (allSel s ++ l) (p ++ idx) = p ++ selIdx l idx := by
  induction s generalizing p with
  | nil => rw [valid_nil_iff] at h; subst h; rfl
  | cons n s ih =>
    obtain ⟨x, j, rfl, hx, hj⟩ := (valid_cons_iff n s p).1 h
    simp only [allSel, List.map_cons, List.cons_append, selIdx, List.headD_cons, List.tail_cons]
    rw [show selIdx (List.map _ s ++ l) (j ++ idx) = j ++ selIdx l idx from ih hj, List.getD_eq_getElem _ _ (by simpa using hx)]
    simp

/-- The item selects the `n` positions from `lo` on, on an axis of size `r`. -/
def IxRange (ix : Ix) (r lo n : ℕ) : Prop := resolve1 r ix = Except.ok (Sel.many ((List.range n).map (lo + ·)))

theorem ixRange_all (r : ℕ) : IxRange .all r 0 r := by simp [IxRange, resolve1]

theorem ixRange_from {r h : ℕ} (hr : h ≤ r) : IxRange (.slice (some (h : ℕ)) none 1) r h (r - h) := by
  simp only [IxRange, resolve1, if_neg (show ¬ (1 : ℤ) = 0 by norm_num), slicePositions, if_pos (show (0 : ℤ) < 1 by norm_num), clipBound,
    if_neg (show ¬ ((h : ℤ) < 0) by omega)]
  congr 2
  rw [show ((((r : ℤ) - min (h : ℤ) r + 1 - 1) / 1).toNat) = r - h by omega]
  refine List.map_congr_left fun k hk => ?_
  have := List.mem_range.1 hk
  omega

theorem ixRange_upto {r h : ℕ} (hr : h ≤ r) : IxRange (.slice none (some (h : ℕ)) 1) r 0 h := by
  simp only [IxRange, resolve1, if_neg (show ¬ (1 : ℤ) = 0 by norm_num), slicePositions, if_pos (show (0 : ℤ) < 1 by norm_num), clipBound,
    if_neg (show ¬ ((h : ℤ) < 0) by omega)]
  congr 2
  rw [show ((((min (h : ℤ) r) - 0 + 1 - 1) / 1).toNat) = h by omega]
  refine List.map_congr_left fun k hk => ?_
  omega

theorem ixRange_prefix {r h : ℕ} (hr : h ≤ r) : IxRange (.slice (some 0) (some (h : ℕ)) 1) r 0 h := by
  simp only [IxRange, resolve1, if_neg (show ¬ (1 : ℤ) = 0 by norm_num), slicePositions_prefix hr, Nat.zero_add, List.map_id']

theorem getItem_ranks {pre M : List ℕ} {r r' lo n lo' n' : ℕ} {l l' : Ix} {c : Tensor ℝ} (hc : c.shape = pre ++ r :: (M ++ [r']))
    (hl : IxRange l r lo n) (hr : IxRange l' r' lo' n') :
    ∃ T, getItem c (List.replicate pre.length .all ++ l :: (List.replicate M.length .all ++ [l'])) = Except.ok T ∧ T.shape = pre ++ n :: (M ++ [n']) ∧
      ∀ p, Valid pre p → ∀ v, Valid M v → ∀ a < n, ∀ b < n', T.get (p ++ a :: (v ++ [b])) = c.get (p ++ (lo + a) :: (v ++ [lo' + b])) := by
  refine ⟨⟨selShape (allSel pre ++ Sel.many ((List.range n).map (lo + ·)) :: (allSel M ++ [Sel.many ((List.range n').map (lo' + ·))])), fun idx =>
    c.get (selIdx (allSel pre ++ Sel.many ((List.range n).map (lo + ·)) :: (allSel M ++ [Sel.many ((List.range n').map (lo' + ·))])) idx)⟩, ?_, ?_, ?_⟩
  · rw [getItem, hc, resolveIx_append, resolveIx_cons, hl, resolveIx_append, resolveIx_cons, hr]
    rfl
  · simp [selShape_append, selShape_allSel, selShape]
  · intro p hp v hv a ha b hb
    simp only
    rw [selIdx_allSel_append hp]
    simp only [selIdx, List.headD_cons, List.tail_cons]
    rw [selIdx_allSel_append hv]
    simp [selIdx, ha, hb]

theorem set_ranks (a b : ℕ) (l l' : Ix) :
    (((List.replicate (a + (b + 1 + 1)) Ix.all).set a l).set (a + b + 1) l') = List.replicate a Ix.all ++ l :: (List.replicate b Ix.all ++ [l']) := by
  rw [show List.replicate (a + (b + 1 + 1)) Ix.all = List.replicate a Ix.all ++ Ix.all :: (List.replicate b Ix.all ++ [Ix.all]) by
    rw [List.replicate_add, List.replicate_succ, List.replicate_succ']]
  rw [List.set_append_right _ _ (by simp)]
  simp only [List.length_replicate, Nat.sub_self, List.set_cons_zero]
  rw [List.set_append_right _ _ (by simp; omega)]
  simp only [List.length_replicate, show a + b + 1 - a = b + 1 by omega, List.set_cons_succ]
  rw [List.set_append_right _ _ (by simp)]
  simp

theorem sliceCore_ok {pre M : List ℕ} {r r' lo n lo' n' axL axR : ℕ} {l l' : Ix} {c : Tensor ℝ} (hc : c.shape = pre ++ r :: (M ++ [r']))
    (hL : axL = pre.length) (hR : axR = pre.length + M.length + 1) (hl : IxRange l r lo n) (hr : IxRange l' r' lo' n') :
    ∃ T, sliceCore axL axR l l' c = Except.ok T ∧ T.shape = pre ++ n :: (M ++ [n']) ∧
      ∀ p, Valid pre p → ∀ v, Valid M v → ∀ a < n, ∀ b < n', T.get (p ++ a :: (v ++ [b])) = c.get (p ++ (lo + a) :: (v ++ [lo' + b])) := by
  rw [sliceCore, show c.shape.length = pre.length + (M.length + 1 + 1) by rw [hc]; simp, hL, hR, set_ranks]
  exact getItem_ranks hc hl hr

theorem rankSlice_ok {N : ℕ} {M : List ℕ} {r r' lo n lo' n' : ℕ} {l l' : Ix} {c : Tensor ℝ} {isMat : Prop} [Decidable isMat]
    (hmat : if isMat then M.length = 2 else M.length = 1) (hc : c.shape = N :: r :: (M ++ [r'])) (hl : IxRange l r lo n) (hr : IxRange l' r' lo' n') :
    ∃ T, rankSlice isMat l l' c = Except.ok T ∧ T.shape = N :: n :: (M ++ [n']) ∧
      ∀ s < N, ∀ v, Valid M v → ∀ a < n, ∀ b < n', T.get (s :: a :: (v ++ [b])) = c.get (s :: (lo + a) :: (v ++ [lo' + b])) := by
  obtain ⟨T, e, s, v⟩ := getItem_ranks (pre := [N]) hc hl hr
  refine ⟨T, ?_, s, fun i hi => v [i] ⟨hi, trivial⟩⟩
  rw [← e, rankSlice]
  by_cases h : isMat
  · rw [if_pos h] at hmat ⊢; rw [hmat]; rfl
  · rw [if_neg h] at hmat ⊢; rw [hmat]; rfl

end T3f
