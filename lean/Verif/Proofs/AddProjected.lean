import Verif.Proofs.TangentGram
import Verif.Proofs.ReduceSum
import Verif.Spec.Projected

/-! # The sum of objects of one tangent space -/

namespace T3f

theorem getItem_int (t : Tensor ℝ) {n : ℕ} {s : List ℕ} (hs : t.shape = n :: s) {i : ℕ} (hi : i < n) :
    ∃ T, getItem t [.int i] = Except.ok T ∧ T.shape = s ∧ ∀ idx, Valid s idx → T.get idx = t.get (i :: idx) := by
  refine ⟨⟨selShape (.one i :: allSel s), fun idx => t.get (selIdx (.one i :: allSel s) idx)⟩, ?_, ?_, ?_⟩
  · have hp : intPosition n (i : ℤ) = Except.ok i := by
      unfold intPosition
      simp [hi]
    rw [getItem, hs, resolveIx_cons, resolve1, hp, resolveIx_nil]
    rfl
  · simp [selShape, selShape_allSel]
  · intro idx hidx
    simp only [selIdx]
    rw [selIdx_allSel hidx]

theorem addNTensors_ok {l : List (Tensor ℝ)} (hl : 0 < l.length) {s : List ℕ} (hs : ∀ i < l.length, (l.getD i default).shape = s) :
    ∃ T, addNTensors l = Except.ok T ∧ T.shape = s ∧ ∀ idx, T.get idx = ∑ i ∈ Finset.range l.length, (l.getD i default).get idx := by
  cases l with
  | nil => simp at hl
  | cons a l =>
    have ha : a.shape = s := hs 0 (by simp)
    refine ⟨⟨a.shape, fun i => (((a :: l).map fun b => b.get i)).sum⟩, ?_, ha, fun idx => ?_⟩
    · rw [addNTensors, if_pos]
      intro b hb
      obtain ⟨j, hj, rfl⟩ := List.getElem_of_mem hb
      have := hs (j + 1) (by simp [hj])
      rw [List.getD_cons_succ, List.getD_eq_getElem _ _ hj] at this
      rw [this, ha]
    · simp only
      conv_lhs => rw [list_eq_range_map (a :: l) default, List.map_map, list_sum_range]
      rfl

/-- Multiplication of a slice by the coefficients of the object `i`. -/
theorem weigh_ok {n : ℕ} {out : Option ℕ} {wt : Tensor ℝ} {c : List ℕ → ℕ → ℝ} (hc : AddCoef n out (some wt) c) {t : TT ℝ}
    {L : ℕ} (hL : ∀ c0, pyGet t.cores 0 = Except.ok c0 → c0.shape.length = out.toList.length + L) (h0 : ∃ c0, pyGet t.cores 0 = Except.ok c0) :
    ∃ w, coefTensor t wt = Except.ok w ∧ ∀ i < n, ∃ wi, getItem w [.int i] = Except.ok wi ∧
      ∀ (C : Tensor ℝ) (s : List ℕ), s.length = L → C.shape = out.toList ++ s → ∃ T, binop (· * ·) C wi = Except.ok T ∧ T.shape = out.toList ++ s ∧
        ∀ p idx, Valid out.toList p → Valid s idx → T.get (p ++ idx) = c p i * C.get (p ++ idx) := by
  obtain ⟨c0, e0⟩ := h0
  have hlen := hL c0 e0
  cases hc with
  | vector _ hs =>
    refine ⟨wt, by simp only [coefTensor, hs]; rfl, fun i hi => ?_⟩
    obtain ⟨wi, e, sw, vw⟩ := getItem_int wt hs hi
    refine ⟨wi, e, fun C s _ hC => ?_⟩
    obtain ⟨T, eT, sT, vT⟩ := binop_ok (· * ·) C wi (out.toList ++ s) (by rw [hC, sw]; cases h : (out.toList ++ s).reverse <;> rfl)
    refine ⟨T, eT, sT, fun p idx hp hidx => ?_⟩
    rw [vT, hC, sw, bproj_valid (valid_append hp hidx)]
    have : bproj ([] : List ℕ) (p ++ idx) = [] := by simp [bproj]
    rw [this, vw [] trivial, mul_comm]
  | matrix _ m ho hs =>
    subst ho
    simp only [Option.toList_some, List.length_singleton] at hlen
    obtain ⟨w, ew, sw, vw⟩ := reshape_spec wt (some n :: some m :: List.replicate (c0.shape.length - 1) (some 1)) (n :: m :: List.replicate L 1) (by
      rw [hs, show c0.shape.length - 1 = L by omega]
      rw [show (some n :: some m :: List.replicate L (some 1)) = (n :: m :: List.replicate L 1).map some by simp]
      exact resolveShape_some _ _ (by simp))
    refine ⟨w, ?_, fun i hi => ?_⟩
    · simp only [coefTensor, hs, e0, R.ok_bind]
      exact ew
    · obtain ⟨wi, e, sw', vw'⟩ := getItem_int w sw hi
      refine ⟨wi, e, fun C s hsL hC => ?_⟩
      obtain ⟨T, eT, sT, vT⟩ := binop_ok (· * ·) C wi (m :: s) (by
        rw [hC, sw']
        simp only [Option.toList_some, List.cons_append, List.nil_append, List.reverse_cons, List.reverse_replicate]
        have := bshape_keep s.reverse m
        rw [List.length_reverse, hsL] at this
        exact this)
      refine ⟨T, eT, sT, fun p idx hp hidx => ?_⟩
      obtain ⟨o, _, rfl, ho, hn⟩ := (valid_cons_iff _ _ _).1 hp
      rw [valid_nil_iff] at hn
      subst hn
      have hb := bproj_keep ho (s := s) (i := idx) hidx.length_eq
      rw [vT, hC, sw', bproj_valid (valid_append hp hidx)]
      simp only [List.cons_append, List.nil_append]
      rw [← hsL, hb, vw' (o :: List.replicate s.length 0) ⟨ho, by rw [hsL]; exact valid_replicate L⟩, mul_comm]
      congr 1
      refine vw _ _ (by rw [hs]; exact ⟨hi, ho, trivial⟩) ?_
      rw [hs, hsL]
      have hz : ∀ L : ℕ, ravel (List.replicate L 1) (List.replicate L 0) = 0 := by
        intro L
        induction L with
        | zero => rfl
        | succ L ih => simp [List.replicate_succ, ih]
      simp [ravel, hz]

theorem sumSlices_ok {n : ℕ} {out : Option ℕ} {coef : Option (Tensor ℝ)} {c : List ℕ → ℕ → ℝ} (hc : AddCoef n out coef c) {objs : List (TT ℝ)}
    (hn : objs.length = n) (h0 : 0 < n) {k r r' lo m lo' m' axL axR : ℕ} {M : List ℕ} {l l' : Ix}
    (hs : ∀ i < n, pyGet (objs.getD i default).cores k = Except.ok ((objs.getD i default).core k) ∧
      ((objs.getD i default).core k).shape = out.toList ++ r :: (M ++ [r']))
    {t : TT ℝ} (hL : ∀ c0, pyGet t.cores 0 = Except.ok c0 → c0.shape.length = out.toList.length + (M.length + 2)) (h0t : ∃ c0, pyGet t.cores 0 = Except.ok c0)
    (haL : axL = out.toList.length) (haR : axR = out.toList.length + M.length + 1) (hl : IxRange l r lo m) (hl' : IxRange l' r' lo' m') :
    ∃ w T, prepareCoef t coef = Except.ok w ∧ sumSlices axL axR l l' w objs k = Except.ok T ∧
      T.shape = out.toList ++ m :: (M ++ [m']) ∧ ∀ p, Valid out.toList p → ∀ v, Valid M v → ∀ a < m, ∀ b < m',
        T.get (p ++ a :: (v ++ [b])) = ∑ i ∈ Finset.range n, c p i * ((objs.getD i default).core k).get (p ++ (lo + a) :: (v ++ [lo' + b])) := by
  have key : ∃ w, prepareCoef t coef = Except.ok w ∧ ∀ i < n, ∃ S, (do
      let t ← pyGet objs i
      let c ← pyGet t.cores k
      let c ← sliceCore axL axR l l' c
      weighSlice w i c) = Except.ok S ∧ S.shape = out.toList ++ m :: (M ++ [m']) ∧ ∀ p, Valid out.toList p → ∀ v, Valid M v → ∀ a < m, ∀ b < m',
        S.get (p ++ a :: (v ++ [b])) = c p i * ((objs.getD i default).core k).get (p ++ (lo + a) :: (v ++ [lo' + b])) := by
    cases coef with
    | none =>
      cases hc
      refine ⟨none, rfl, fun i hi => ?_⟩
      obtain ⟨S, e, sS, vS⟩ := sliceCore_ok (hs i hi).2 haL haR hl hl'
      refine ⟨S, ?_, sS, fun p hp v hv a ha b hb => by rw [one_mul]; exact vS p hp v hv a ha b hb⟩
      rw [pyGet_of_lt objs i default (by omega), R.ok_bind, (hs i hi).1, R.ok_bind, e]
      rfl
    | some wt =>
      obtain ⟨w, ew, hw⟩ := weigh_ok hc hL h0t
      refine ⟨some w, by simp only [prepareCoef, ew]; rfl, fun i hi => ?_⟩
      obtain ⟨S, e, sS, vS⟩ := sliceCore_ok (hs i hi).2 haL haR hl hl'
      obtain ⟨wi, ei, hi'⟩ := hw i hi
      obtain ⟨T, eT, sT, vT⟩ := hi' S (m :: (M ++ [m'])) (by simp) sS
      refine ⟨T, ?_, sT, fun p hp v hv a ha b hb => ?_⟩
      · rw [pyGet_of_lt objs i default (by omega), R.ok_bind, (hs i hi).1, R.ok_bind, e]
        simp only [weighSlice, R.ok_bind, ei]
        exact eT
      · rw [vT p _ hp (valid_rmr ha hv hb), vS p hp v hv a ha b hb]
  obtain ⟨w, ew, hw⟩ := key
  obtain ⟨chunks, ec, lc, pc⟩ := mapRange_ok n _ (fun i (S : Tensor ℝ) => S.shape = out.toList ++ m :: (M ++ [m']) ∧ ∀ p, Valid out.toList p → ∀ v, Valid M v →
    ∀ a < m, ∀ b < m', S.get (p ++ a :: (v ++ [b])) = c p i * ((objs.getD i default).core k).get (p ++ (lo + a) :: (v ++ [lo' + b]))) hw
  obtain ⟨T, eT, sT, vT⟩ := addNTensors_ok (l := chunks) (by omega) (fun i hi => (pc i (by omega)).1)
  refine ⟨w, T, ew, ?_, sT, fun p hp v hv a ha b hb => ?_⟩
  · unfold sumSlices
    rw [hn, ec, R.ok_bind]
    exact eT
  · rw [vT, lc]
    exact Finset.sum_congr rfl fun i hi => (pc i (Finset.mem_range.1 hi)).2 p hp v hv a ha b hb

section
variable {x left right : TT ℝ}

theorem addProjectedCore_ok (F : TFrame x left right) (hd : 2 ≤ x.ndims) (hH : Halves x left right) {n : ℕ} {out : Option ℕ}
    {coef : Option (Tensor ℝ)} {c : List ℕ → ℕ → ℝ} (hc : AddCoef n out coef c) {objs : List (TT ℝ)} (hn : objs.length = n) (h0 : 0 < n)
    {D : ℕ → ℕ → Tensor ℝ} (hT : ∀ i < n, IsTangent left right (D i) (objs.getD i default)) (hB : ∀ i < n, (objs.getD i default).batch = out)
    {k : ℕ} (hk : k < x.ndims) {axL axR : ℕ} (haL : axL = out.toList.length) (haR : axR = out.toList.length + x.rawShape.length + 1) :
    ∃ w C D', prepareCoef (objs.getD 0 default) coef = Except.ok w ∧
      addProjectedCore axL axR x.ndims (objs.getD 0 default).ttRanks w objs (objs.getD 0 default) (objs.getD (n - 1) default) k = Except.ok C ∧
      C.shape = out.toList ++ addRk right.rank left.rank x.ndims k :: (x.modes k ++ [addRk right.rank left.rank x.ndims (k + 1)]) ∧
      TangentVals left right out.toList D' k C ∧ D'.shape = out.toList ++ left.rank k :: (x.modes k ++ [right.rank (k + 1)]) ∧
      ∀ p, Valid out.toList p → ∀ v, Valid (x.modes k) v → ∀ a < left.rank k, ∀ b < right.rank (k + 1),
        D'.get (p ++ a :: (v ++ [b])) = ∑ i ∈ Finset.range n, c p i * (D i k).get (p ++ a :: (v ++ [b])) := by
  have hml : (x.modes k).length = x.rawShape.length := by simp [TT.modes]
  have l0 := F.l0
  have frd := F.rd
  have T0 := hT 0 h0
  have Tl := hT (n - 1) (by omega)
  have hbp : ∀ i < n, (objs.getD i default).bpre = out.toList := fun i hi => by rw [TT.bpre, hB i hi]
  have hcore : ∀ i < n, ∀ k < x.ndims, pyGet (objs.getD i default).cores k = Except.ok ((objs.getD i default).core k) ∧
      ((objs.getD i default).core k).shape =
        out.toList ++ addRk right.rank left.rank x.ndims k :: (x.modes k ++ [addRk right.rank left.rank x.ndims (k + 1)]) := by
    intro i hi k hk
    have T := hT i hi
    have hk' : k < (objs.getD i default).ndims := by rw [T.nd, F.nl]; exact hk
    refine ⟨T.wf.pyCore hk', ?_⟩
    rw [T.wf.core_shape k hk', hbp i hi, modes_of_rows (T.rows.trans F.rl), T.rank k (by rw [F.nl]; omega), T.rank (k + 1) (by rw [F.nl]; omega), F.nl]
  have hrank : ∀ j ≤ x.ndims, pyGet (objs.getD 0 default).ttRanks j = Except.ok (addRk right.rank left.rank x.ndims j) := by
    intro j hj
    rw [T0.wf.pyRank (by rw [T0.nd, F.nl]; exact hj), T0.rank j (by rw [F.nl]; exact hj), F.nl]
  have hmid : ∀ j, 0 < j → j < x.ndims → addRk right.rank left.rank x.ndims j = right.rank j + left.rank j := fun j h1 h2 => by
    rw [addRk, if_neg (by omega)]
  have hL : ∀ c0, pyGet (objs.getD 0 default).cores 0 = Except.ok c0 → c0.shape.length = out.toList.length + ((x.modes k).length + 2) := by
    intro c0 e
    obtain rfl : (objs.getD 0 default).core 0 = c0 := Except.ok.inj ((hcore 0 h0 0 (by omega)).1.symm.trans e)
    rw [(hcore 0 h0 0 (by omega)).2]
    simp [TT.modes]
  have h0t : ∃ c0, pyGet (objs.getD 0 default).cores 0 = Except.ok c0 := ⟨_, (hcore 0 h0 0 (by omega)).1⟩
  have haR' : axR = out.toList.length + (x.modes k).length + 1 := by rw [haR, hml]
  have hlenR : ∀ r : ℕ, axR = (out.toList ++ r :: x.modes k).length := by
    intro r; rw [haR']; simp; omega
  have hassoc : ∀ (P : List ℕ) (r : ℕ) (M : List ℕ) (r' : ℕ), P ++ r :: (M ++ [r']) = (P ++ r :: M) ++ r' :: [] := by
    intros; simp
  have hhalf : ∀ j, 0 < j → j < x.ndims → addRk right.rank left.rank x.ndims j / 2 = right.rank j := fun j h1 h2 => by
    rw [hmid j h1 h2]; exact hH j h1 h2
  have hfrom : ∀ j, 0 < j → j < x.ndims → IxRange (.slice (some (((addRk right.rank left.rank x.ndims j / 2 : ℕ) : ℕ) : ℤ)) none 1)
      (addRk right.rank left.rank x.ndims j) (right.rank j) (left.rank j) := by
    intro j h1 h2
    have := ixRange_from (r := addRk right.rank left.rank x.ndims j) (h := right.rank j) (by rw [hmid j h1 h2]; omega)
    rw [hhalf j h1 h2]
    rw [show left.rank j = addRk right.rank left.rank x.ndims j - right.rank j by rw [hmid j h1 h2]; omega]
    exact this
  have hpref : ∀ j, 0 < j → j < x.ndims → IxRange (.slice (some 0) (some (((addRk right.rank left.rank x.ndims j / 2 : ℕ) : ℕ) : ℤ)) 1)
      (addRk right.rank left.rank x.ndims j) 0 (right.rank j) := by
    intro j h1 h2
    rw [hhalf j h1 h2]
    exact ixRange_prefix (by rw [hmid j h1 h2]; omega)
  have hmv : ∀ v, Valid (left.modes k) v → Valid (x.modes k) v := fun v hv => by rw [← F.ml]; exact hv
  have hvl : ∀ p, Valid out.toList p → p.length = out.toList.length := fun p hp => hp.length_eq
  have hV : ∀ i < n, TangentVals left right out.toList (D i k) k ((objs.getD i default).core k) := fun i hi => by
    have := (hT i hi).vals k (by rw [F.nl]; exact hk)
    rw [hbp i hi] at this
    exact this
  by_cases hk0 : k = 0
  · subst hk0
    have hr0 : addRk right.rank left.rank x.ndims 0 = 1 := by simp [addRk]
    obtain ⟨w, T, ew, eT, sT, vT⟩ := sumSlices_ok hc hn h0 (fun i hi => hcore i hi 0 (by omega)) hL h0t haL haR' (ixRange_all _)
      (hpref 1 (by omega) (by omega))
    obtain ⟨B, eB, sB, vB⟩ := sliceCore_ok (hcore 0 h0 0 (by omega)).2 haL haR' (ixRange_all _) (hfrom 1 (by omega) (by omega))
    obtain ⟨C, eC, sC, vC⟩ := concat_ok T B (out.toList ++ 1 :: x.modes 0) [] (right.rank 1) (left.rank 1)
      (by rw [sT, hr0, hassoc]) (by rw [sB, hr0, hassoc]) axR (hlenR _)
    refine ⟨w, C, T, ew, ?_, ?_, ⟨fun _ p hp v hv b hb => ?_, fun _ p hp v hv b hb => ?_, fun h => ?_, fun h => ?_, fun h => ?_, fun h => ?_⟩, ?_, ?_⟩
    · unfold addProjectedCore
      rw [(hcore 0 h0 0 (by omega)).1, (hcore (n - 1) (by omega) 0 (by omega)).1, R.ok_bind, R.ok_bind, if_pos rfl, hrank 1 (by omega), R.ok_bind]
      simp only [eT, R.ok_bind, eB]
      exact eC
    · rw [sC, ← hassoc, hr0, ← hmid 1 (by omega) (by omega)]
    · have := vC (p ++ 0 :: v) b [] (by simp [hvl p hp, (hmv v hv).length_eq])
      rw [← hassoc, if_pos hb] at this
      exact this
    · have := vC (p ++ 0 :: v) (right.rank 1 + b) [] (by simp [hvl p hp, (hmv v hv).length_eq])
      rw [← hassoc, if_neg (by omega), Nat.add_sub_cancel_left, ← hassoc] at this
      rw [this, vB p hp v (hmv v hv) 0 (by omega) b hb]
      exact (hV 0 h0).first' rfl p hp v hv b hb
    · omega
    · omega
    · omega
    · omega
    · rw [sT, hr0, l0]
    · intro p hp v hv a ha b hb
      rw [l0] at ha
      obtain rfl : a = 0 := by omega
      rw [vT p hp v hv 0 (by omega) b hb]
      refine Finset.sum_congr rfl fun i hi => ?_
      rw [Nat.zero_add, Nat.zero_add, (hV i (Finset.mem_range.1 hi)).first rfl p hp v (by rw [F.ml]; exact hv) b hb]
  by_cases hk1 : k = x.ndims - 1
  · have hkd : k + 1 = x.ndims := by omega
    have hrd : addRk right.rank left.rank x.ndims (k + 1) = 1 := by rw [hkd]; simp [addRk]
    have hvd : right.rank (k + 1) = 1 := by rw [hkd]; exact frd
    obtain ⟨w, T, ew, eT, sT, vT⟩ := sumSlices_ok hc hn h0 (fun i hi => hcore i hi k hk) hL h0t haL haR' (hfrom k (by omega) hk) (ixRange_all _)
    obtain ⟨B, eB, sB, vB⟩ := sliceCore_ok (hcore (n - 1) (by omega) k hk).2 haL haR' (hpref k (by omega) hk) (ixRange_all _)
    obtain ⟨C, eC, sC, vC⟩ := concat_ok B T out.toList (x.modes k ++ [1]) (right.rank k) (left.rank k)
      (by rw [sB, hrd]) (by rw [sT, hrd]) axL haL
    refine ⟨w, C, T, ew, ?_, ?_, ⟨fun h => absurd h hk0, fun h => absurd h hk0, fun _ p hp v hv a ha b hb => ?_, fun _ p hp v hv a ha b hb => ?_,
      fun _ h => ?_, fun _ h => ?_⟩, ?_, ?_⟩
    · unfold addProjectedCore
      rw [(hcore 0 h0 k hk).1, (hcore (n - 1) (by omega) k hk).1, R.ok_bind, R.ok_bind, if_neg hk0, if_pos hk1, ← hk1, hrank k (by omega), R.ok_bind]
      simp only [eT, R.ok_bind, eB]
      exact eC
    · rw [sC, hrd, hmid k (by omega) hk]
    · rw [hvd] at hb
      rw [vC p a _ (hvl p hp), if_pos ha, vB p hp v (hmv v hv) a ha b (by rw [hrd]; exact hb), Nat.zero_add, Nat.zero_add]
      exact (hV (n - 1) (by omega)).up (by omega) p hp v hv a ha b (by rw [hvd]; exact hb)
    · rw [vC p _ _ (hvl p hp), if_neg (by omega), Nat.add_sub_cancel_left]
    · rw [F.nl] at h; omega
    · rw [F.nl] at h; omega
    · rw [sT, hrd, hvd]
    · intro p hp v hv a ha b hb
      rw [hvd] at hb
      rw [vT p hp v hv a ha b (by rw [hrd]; exact hb)]
      refine Finset.sum_congr rfl fun i hi => ?_
      rw [Nat.zero_add, (hV i (Finset.mem_range.1 hi)).blk (by omega) p hp v (by rw [F.ml]; exact hv) a ha b (by rw [hvd]; exact hb)]
  · obtain ⟨w, T, ew, eT, sT, vT⟩ := sumSlices_ok hc hn h0 (fun i hi => hcore i hi k hk) hL h0t haL haR' (hfrom k (by omega) hk)
      (hpref (k + 1) (by omega) (by omega))
    obtain ⟨U, eU, sU, vU⟩ := sliceCore_ok (hcore (n - 1) (by omega) k hk).2 haL haR' (hpref k (by omega) hk) (ixRange_all _)
    obtain ⟨B, eB, sB, vB⟩ := sliceCore_ok (hcore 0 h0 k hk).2 haL haR' (hfrom k (by omega) hk) (hfrom (k + 1) (by omega) (by omega))
    obtain ⟨L, eL, sL, vL⟩ := concat_ok T B (out.toList ++ left.rank k :: x.modes k) [] (right.rank (k + 1)) (left.rank (k + 1))
      (by rw [sT, hassoc]) (by rw [sB, hassoc]) axR (hlenR _)
    have hm1 := hmid (k + 1) (by omega) (by omega)
    obtain ⟨C, eC, sC, vC⟩ := concat_ok U L out.toList (x.modes k ++ [right.rank (k + 1) + left.rank (k + 1)]) (right.rank k) (left.rank k)
      (by rw [sU, hm1]) (by rw [sL, ← hassoc]) axL haL
    refine ⟨w, C, T, ew, ?_, ?_, ⟨fun h => absurd h hk0, fun h => absurd h hk0, fun _ p hp v hv a ha b hb => ?_, fun _ p hp v hv a ha b hb => ?_,
      fun _ h p hp v hv a ha b hb => ?_, fun _ h p hp v hv a ha b hb => ?_⟩, sT, ?_⟩
    · unfold addProjectedCore
      rw [(hcore 0 h0 k hk).1, (hcore (n - 1) (by omega) k hk).1, R.ok_bind, R.ok_bind, if_neg hk0, if_neg hk1, hrank k (by omega), R.ok_bind,
        hrank (k + 1) (by omega), R.ok_bind]
      simp only [eT, R.ok_bind, eU, eB, eL]
      exact eC
    · rw [sC, hm1, hmid k (by omega) hk]
    · rw [vC p a _ (hvl p hp), if_pos ha, vU p hp v (hmv v hv) a ha b (by rw [hm1]; omega), Nat.zero_add, Nat.zero_add]
      exact (hV (n - 1) (by omega)).up (by omega) p hp v hv a ha b hb
    · have := vL (p ++ a :: v) b [] (by simp [hvl p hp, (hmv v hv).length_eq])
      rw [← hassoc, if_pos hb] at this
      rw [vC p _ _ (hvl p hp), if_neg (by omega), Nat.add_sub_cancel_left]
      exact this
    · rw [vC p a _ (hvl p hp), if_pos ha, vU p hp v (hmv v hv) a ha _ (by rw [hm1]; omega), Nat.zero_add, Nat.zero_add]
      exact (hV (n - 1) (by omega)).zero (by omega) h p hp v hv a ha b hb
    · have := vL (p ++ a :: v) (right.rank (k + 1) + b) [] (by simp [hvl p hp, (hmv v hv).length_eq])
      rw [← hassoc, if_neg (by omega), Nat.add_sub_cancel_left, ← hassoc] at this
      rw [vC p _ _ (hvl p hp), if_neg (by omega), Nat.add_sub_cancel_left, this, vB p hp v (hmv v hv) a ha b hb]
      exact (hV 0 h0).low (by omega) h p hp v hv a ha b hb
    · intro p hp v hv a ha b hb
      rw [vT p hp v hv a ha b hb]
      refine Finset.sum_congr rfl fun i hi => ?_
      rw [Nat.zero_add, (hV i (Finset.mem_range.1 hi)).blk (by omega) p hp v (by rw [F.ml]; exact hv) a ha b hb]

/-- What `add_n_projected` returns. -/
theorem addNProjected_ok (F : TFrame x left right) (h : x.WF) (hd : 2 ≤ x.ndims) (hH : Halves x left right) {ys : List (TT ℝ)} (hne : ys ≠ [])
    {out : Option ℕ} {coef : Option (Tensor ℝ)} {c : List ℕ → ℕ → ℝ} (hc : AddCoef ys.length out coef c)
    {D : ℕ → ℕ → Tensor ℝ} (hT : ∀ i < ys.length, IsTangent left right (D i) (ys.getD i default))
    (hB : ∀ i < ys.length, (ys.getD i default).batch = out) (o : ℕ) :
    ∃ y D', addNProjected (ys.map (⟨·, some o⟩)) coef = Except.ok ⟨y, some o⟩ ∧ IsTangent left right D' y ∧ y.batch = out ∧
      ∀ k < x.ndims, ∀ p, Valid out.toList p → ∀ v, Valid (x.modes k) v → ∀ a < left.rank k, ∀ b < right.rank (k + 1),
        (D' k).get (p ++ a :: (v ++ [b])) = ∑ i ∈ Finset.range ys.length, c p i * (D i k).get (p ++ a :: (v ++ [b])) := by
  have hpos : 0 < ys.length := List.length_pos_iff.2 hne
  have T0 := hT 0 hpos
  obtain ⟨axL, axR⟩ := rankDims (ys.getD 0 default) T0.wf
  rw [hB 0 hpos] at axL axR
  have hr0 : (ys.getD 0 default).rawShape = x.rawShape := T0.rows.trans F.rl
  rw [hr0] at axR
  have hn0 : (ys.getD 0 default).ndims = x.ndims := by rw [T0.nd, F.nl]
  obtain ⟨w, -, -, ew, -⟩ := addProjectedCore_ok F hd hH hc rfl hpos hT hB (k := 0) (by omega) axL axR
  have hcores : ∀ k < x.ndims, ∃ C D', addProjectedCore (ys.getD 0 default).leftRankDim (ys.getD 0 default).rightRankDim x.ndims (ys.getD 0 default).ttRanks
        w ys (ys.getD 0 default) (ys.getD (ys.length - 1) default) k = Except.ok C ∧
      C.shape = out.toList ++ addRk right.rank left.rank x.ndims k :: (x.modes k ++ [addRk right.rank left.rank x.ndims (k + 1)]) ∧
      TangentVals left right out.toList D' k C ∧ D'.shape = out.toList ++ left.rank k :: (x.modes k ++ [right.rank (k + 1)]) ∧
      ∀ p, Valid out.toList p → ∀ v, Valid (x.modes k) v → ∀ a < left.rank k, ∀ b < right.rank (k + 1),
        D'.get (p ++ a :: (v ++ [b])) = ∑ i ∈ Finset.range ys.length, c p i * (D i k).get (p ++ a :: (v ++ [b])) := by
    intro k hk
    obtain ⟨w', C, D', ew', hC⟩ := addProjectedCore_ok F hd hH hc rfl hpos hT hB hk axL axR
    obtain rfl : w = w' := Except.ok.inj (ew.symm.trans ew')
    exact ⟨C, D', hC⟩
  choose! C D' hC1 hC2 hC3 hC4 hC5 using hcores
  have hml : ∀ k < x.ndims, (x.modes k).length = x.rawShape.length := fun k _ => by simp [TT.modes]
  obtain ⟨cores, ec, lc, hch, hv⟩ := Chain.build (fun k => addProjectedCore (ys.getD 0 default).leftRankDim (ys.getD 0 default).rightRankDim x.ndims
      (ys.getD 0 default).ttRanks w ys (ys.getD 0 default) (ys.getD (ys.length - 1) default) k) x.ndims out (addRk right.rank left.rank x.ndims) x.modes
    x.rawShape.length (fun k C => TangentVals left right out.toList (D' k) k C) (by omega) (by simp [addRk]) (by simp [addRk]) (fun k hk => by
      unfold addRk
      split
      · omega
      · have := F.wl.rank_pos k (by rw [F.nl]; exact hk); omega) h.rows hml (by rw [← hB 0 hpos]; exact T0.wf.batch_pos)
    (fun k hk => ⟨C k, hC1 k hk, hC2 k hk, hC3 k hk⟩)
  have hrk : (ys.getD 0 default).ttRanks = ranksOf (addRk right.rank left.rank x.ndims) cores.length := by
    rw [T0.wf.ranks_eq, lc, hn0, ranksOf, ranksOf]
    refine List.map_congr_left fun k hk => ?_
    rw [T0.rank k (by rw [F.nl]; have := List.mem_range.1 hk; omega), F.nl]
  have hmk := mkLike_ok hch x.rawShape (by rw [lc]; exact h.rows_eq) _ hrk
  refine ⟨chainTT out cores (addRk right.rank left.rank x.ndims) x.modes x.rawShape.length, D', ?_, ⟨hch.wf, ?_, ?_, ?_, ?_, ?_⟩, rfl, hC5⟩
  · unfold addNProjected
    have hlast : pyLast (ys.map (fun y => (⟨y, some o⟩ : Projected))) = Except.ok ⟨ys.getD (ys.length - 1) default, some o⟩ := by
      rw [pyLast, List.getLast?_eq_getElem?, List.length_map, List.getElem?_eq_getElem (by simp; omega), List.getD_eq_getElem _ _ (by omega)]
      simp
    have hfirst : pyGet (ys.map (fun y => (⟨y, some o⟩ : Projected))) 0 = Except.ok ⟨ys.getD 0 default, some o⟩ := by
      rw [pyGet_of_lt _ 0 ⟨default, none⟩ (by simpa using hpos), List.getD_eq_getElem _ _ (by simpa using hpos), List.getD_eq_getElem _ _ hpos]
      simp
    have hmap : (ys.map (fun y => (⟨y, some o⟩ : Projected))).map (·.tt) = ys := by simp [Function.comp_def]
    rw [require_pos (by simp), R.ok_bind, hfirst, R.ok_bind, require_pos (by simp), R.ok_bind, ew, R.ok_bind, hlast, R.ok_bind]
    simp only [hmap, hn0, hr0, hB 0 hpos]
    rw [ec, R.ok_bind, hmk]
    rfl
  · rw [F.rl]
    change rowsOf _ _ _ = _
    rw [lc]; exact h.rows_eq.symm
  · rw [F.nl]; exact lc
  · rw [F.nl]; intro k hk; exact chainTT_rank k (by omega)
  · rw [F.nl, F.ml]; exact hC4
  · rw [F.nl]; intro k hk; exact hv k hk

end

end T3f
