import Verif.Proofs.Frames

/-! # Tangent vectors from blocks and back -/

namespace T3f

section
variable {x left right : TT ℝ}

theorem tileCore_eq {isMat : Prop} [Decidable isMat] {out : Option ℕ} {c : Tensor ℝ} {n : ℕ} (hn : n = if isMat then 4 else 3) :
    tileCore out c n = extendCore isMat out c := by
  cases out with
  | none => rfl
  | some b =>
    rw [tileCore, extendCore, hn]
    split_ifs <;> rfl

theorem deltaZeroShape_ok (F : TFrame x left right) (out : Option ℕ) {k : ℕ} (hk : k < x.ndims) :
    deltaZeroShape x left out k = Except.ok (out.toList ++ left.rank k :: (x.modes k ++ [left.rank (k + 1)])) := by
  have hd : left.ndims = x.ndims := F.nl
  have hrl := F.wl.rows_len
  rw [deltaZeroShape, F.wl.pyRank (by omega), F.wl.pyRank (by omega)]
  have hml : x.modes k = left.rawShape.map (·.getD k 0) := by rw [TT.modes, F.rl]
  simp only [R.ok_bind, TT.isMatrix, ← F.rl, hml]
  rcases F.wl.rows with h1 | h2
  · obtain ⟨r, hr⟩ := List.length_eq_one_iff.1 h1
    have := hrl r (by simp [hr])
    simp only [hr, List.length_cons, List.length_nil, pyGet_of_lt [r] 0 [] (by simp), R.ok_bind, List.getD_cons_zero]
    rw [pyGet_of_lt r k 0 (by omega)]
    rfl
  · obtain ⟨r, s, hr⟩ := List.length_eq_two.1 h2
    have hlr := hrl r (by simp [hr])
    have hls := hrl s (by simp [hr])
    simp only [hr, List.length_cons, List.length_nil, pyGet_of_lt [r, s] 0 [] (by simp), pyGet_of_lt [r, s] 1 [] (by simp), R.ok_bind,
      List.getD_cons_zero, List.getD_cons_succ]
    rw [pyGet_of_lt r k 0 (by omega), pyGet_of_lt s k 0 (by omega)]
    rfl

theorem left_shape_len (F : TFrame x left right) (h : x.WF) {k : ℕ} (hk : k < x.ndims) : (left.core k).shape.length = if x.isMatrix then 4 else 3 := by
  have hml : (x.modes k).length = x.rawShape.length := by simp [TT.modes]
  have hmat : x.isMatrix ↔ x.rawShape.length = 2 := Iff.rfl
  rw [F.wl.core_shape k (by rw [F.nl]; exact hk), F.pl, F.ml]
  simp only [List.nil_append, List.length_cons, List.length_append, List.length_nil, hml]
  rcases h.rows with h1 | h1
  · rw [if_neg (by rw [hmat]; omega), h1]
  · rw [if_pos (by rw [hmat]; exact h1), h1]

theorem left_axes (F : TFrame x left right) : left.leftRankDim = 0 ∧ left.rightRankDim = x.rawShape.length + 1 := by
  have hax := rankDims left F.wl
  rw [F.bl, F.rl] at hax
  simpa only [Option.toList_none, List.length_nil, Nat.zero_add] using hax

/-- A core of the tangent vector, if the zero block has the right shape. -/
theorem deltaTangentCore_ok (F : TFrame x left right) (h : x.WF) (hd : 2 ≤ x.ndims) {out : Option ℕ} {deltas : List (Tensor ℝ)}
    (hlen : deltas.length = x.ndims) {k : ℕ} (hk : k < x.ndims)
    (hD : (deltas.getD k default).shape = out.toList ++ left.rank k :: (x.modes k ++ [right.rank (k + 1)]))
    (hrk : 0 < k → k + 1 < x.ndims → right.rank k = left.rank k) :
    ∃ C, deltaTangentCore deltas x left right out k = Except.ok C ∧
      C.shape = out.toList ++ addRk right.rank left.rank x.ndims k :: (x.modes k ++ [addRk right.rank left.rank x.ndims (k + 1)]) ∧
      TangentVals left right out.toList (deltas.getD k default) k C := by
  have hax := left_axes F
  have hsl := left_shape_len F h hk
  have key : ∀ {zs : R (List ℕ)}, (0 < k → k + 1 < x.ndims → zs = deltaZeroShape x left out k) →
      ∀ elc erc, tangentCore (left.leftRankDim + out.toList.length) (left.rightRankDim + out.toList.length) x.ndims k zs elc erc (deltas.getD k default) =
      tangentCore (left.leftRankDim + out.toList.length) (left.rightRankDim + out.toList.length) x.ndims k (deltaZeroShape x left out k) elc erc
        (deltas.getD k default) := by
    intro zs hz elc erc
    unfold tangentCore
    split_ifs with h0 h1
    · rfl
    · rfl
    · rw [hz (by omega) (by omega)]
  obtain ⟨elc, erc, C, e1, e2, eC, sC, vC⟩ := assemble_core F hd (isMat := x.isMatrix) Iff.rfl out hk hD
    (zs := Except.ok (out.toList ++ right.rank k :: (x.modes k ++ [left.rank (k + 1)]))) rfl
    (axL := left.leftRankDim + out.toList.length) (axR := left.rightRankDim + out.toList.length) (by omega) (by omega)
  refine ⟨C, ?_, sC, vC⟩
  rw [key (fun h0 h1 => by rw [deltaZeroShape_ok F out hk, hrk h0 h1])] at eC
  rw [deltaTangentCore, F.wl.pyCore (by rw [F.nl]; exact hk), F.wr.pyCore (by rw [F.nr]; exact hk)]
  simp only [R.ok_bind]
  rw [tileCore_eq (isMat := x.isMatrix) hsl, tileCore_eq (isMat := x.isMatrix) hsl, e1, e2, pyGet_of_lt deltas k default (by omega)]
  exact eC

/-- A core of the tangent vector, if the zero block does not fit. -/
theorem deltaTangentCore_error (F : TFrame x left right) (h : x.WF) {out : Option ℕ} {deltas : List (Tensor ℝ)}
    (hlen : deltas.length = x.ndims) {k : ℕ} (h0 : 0 < k) (h1 : k + 1 < x.ndims) (hrk : right.rank k ≠ left.rank k) :
    deltaTangentCore deltas x left right out k = Except.error Err.tf := by
  have hk : k < x.ndims := by omega
  have hax := left_axes F
  have hsl := left_shape_len F h hk
  have hml : (x.modes k).length = x.rawShape.length := by simp [TT.modes]
  obtain ⟨elc, e1, s1, -⟩ := extendCore_ok F.wl F.bl (isMat := x.isMatrix) (by rw [F.rl]; rfl) out (k := k) (by rw [F.nl]; exact hk)
  obtain ⟨erc, e2, s2, -⟩ := extendCore_ok F.wr F.br (isMat := x.isMatrix) (by rw [F.rr]; rfl) out (k := k) (by rw [F.nr]; exact hk)
  rw [deltaTangentCore, F.wl.pyCore (by rw [F.nl]; exact hk), F.wr.pyCore (by rw [F.nr]; exact hk)]
  simp only [R.ok_bind]
  rw [tileCore_eq (isMat := x.isMatrix) hsl, tileCore_eq (isMat := x.isMatrix) hsl, e1, e2, pyGet_of_lt deltas k default (by omega)]
  simp only [R.ok_bind]
  rw [tangentCore, if_neg (by omega), if_neg (by omega), deltaZeroShape_ok F out hk, R.ok_bind]
  have hc : concat (left.rightRankDim + out.toList.length) [erc, zeros (out.toList ++ left.rank k :: (x.modes k ++ [left.rank (k + 1)]))] =
      Except.error Err.tf := by
    change (concat _ [_] >>= fun r => concat2 _ erc r) = _
    rw [concat, if_pos, R.ok_bind, concat2, if_neg]
    · rintro ⟨-, -, e⟩
      have hs : (zeros (K := ℝ) (out.toList ++ left.rank k :: (x.modes k ++ [left.rank (k + 1)]))).shape =
        out.toList ++ left.rank k :: (x.modes k ++ [left.rank (k + 1)]) := rfl
      rw [hs, s2, F.mr, hax.2, List.eraseIdx_append_of_length_le (by omega), List.eraseIdx_append_of_length_le (by omega),
        show x.rawShape.length + 1 + out.toList.length - out.toList.length = x.rawShape.length + 1 by omega, List.eraseIdx_cons_succ,
        List.eraseIdx_cons_succ] at e
      exact hrk (List.cons.inj (List.append_cancel_left e)).1
    · rw [hax.2]
      simp only [zeros, List.length_append, List.length_cons, List.length_nil, hml]
      omega
  rw [hc]
  rfl

theorem deltas_batch (h : x.WF) (hb : x.batch = none) {out : Option ℕ} {a b : ℕ} {deltas : List (Tensor ℝ)}
    (hD : (deltas.getD 0 default).shape = out.toList ++ a :: (x.modes 0 ++ [b])) :
    (if (x.core 0).shape.length < (deltas.getD 0 default).shape.length then (deltas.getD 0 default).shape.head? else none) = out := by
  rw [hD, h.core_shape 0 h.pos, TT.bpre, hb]
  cases out with
  | none => rw [if_neg (by simp)]
  | some n => rw [if_pos (by simp)]; rfl

theorem deltasToTangent_ok {qr : QRRoutine} (F : TFrame x left right) (h : x.WF) (hb : x.batch = none) (hd : 2 ≤ x.ndims)
    (hrk : ∀ k, 0 < k → k + 1 < x.ndims → right.rank k = left.rank k) {lo ro : Option (TT ℝ)}
    (hl : frameOr qr x true lo = Except.ok left) (hr : frameOr qr left false ro = Except.ok right) {out : Option ℕ} (hout : out ≠ some 0)
    {deltas : List (Tensor ℝ)} (hlen : deltas.length = x.ndims)
    (hD : ∀ k < x.ndims, (deltas.getD k default).shape = out.toList ++ left.rank k :: (x.modes k ++ [right.rank (k + 1)])) :
    ∃ y, deltasToTangent qr deltas x lo ro = Except.ok y ∧ IsTangent left right (fun k => deltas.getD k default) y ∧ y.batch = out := by
  obtain ⟨cores, y, e1, _, T, yb, e2⟩ := assemble_both F h hd hout hD fun k hk => deltaTangentCore_ok F h hd hlen hk (hD k hk) (hrk k)
  refine ⟨y, ?_, T, yb⟩
  rw [deltasToTangent, hl, R.ok_bind, hr, R.ok_bind, pyGet_of_lt deltas 0 default (by omega), R.ok_bind, h.pyCore (by omega), R.ok_bind]
  simp only [deltas_batch h hb (hD 0 (by omega)), e1, R.ok_bind]
  exact e2

theorem deltasToTangent_error {qr : QRRoutine} (F : TFrame x left right) (h : x.WF) (hb : x.batch = none) (hd : 2 ≤ x.ndims)
    (hrk : ∃ k, 0 < k ∧ k + 1 < x.ndims ∧ right.rank k ≠ left.rank k) {lo ro : Option (TT ℝ)}
    (hl : frameOr qr x true lo = Except.ok left) (hr : frameOr qr left false ro = Except.ok right) {out : Option ℕ}
    {deltas : List (Tensor ℝ)} (hlen : deltas.length = x.ndims)
    (hD : ∀ k < x.ndims, (deltas.getD k default).shape = out.toList ++ left.rank k :: (x.modes k ++ [right.rank (k + 1)])) :
    deltasToTangent qr deltas x lo ro = Except.error Err.tf := by
  rw [deltasToTangent, hl, R.ok_bind, hr, R.ok_bind, pyGet_of_lt deltas 0 default (by omega), R.ok_bind, h.pyCore (by omega), R.ok_bind]
  simp only [deltas_batch h hb (hD 0 (by omega))]
  rw [mapRange_error _ _ Err.tf]
  · rfl
  · obtain ⟨k, h0, h1, hk⟩ := hrk
    exact ⟨k, by omega, deltaTangentCore_error F h hlen h0 h1 hk⟩
  · intro k hk
    by_cases hc : 0 < k ∧ k + 1 < x.ndims ∧ right.rank k ≠ left.rank k
    · exact Or.inr (deltaTangentCore_error F h hlen hc.1 hc.2.1 hc.2.2)
    · obtain ⟨C, e, _⟩ := deltaTangentCore_ok F h hd hlen hk (hD k hk) (fun h0 h1 => by
        by_contra hne
        exact hc ⟨h0, h1, hne⟩)
      exact Or.inl ⟨C, e⟩

/-! ### the terms of the sum -/

theorem deltaTerm_core {deltas : List (Tensor ℝ)} {p : List ℕ} {k : ℕ} (hk : k < left.ndims) (j : ℕ) :
    (deltaTerm left right deltas p k).core j = if j < k then left.core j else if j = k then
      ⟨(deltas.getD k default).shape.drop p.length, fun i => (deltas.getD k default).get (p ++ i)⟩ else right.core j := by
  have hk' : k < left.cores.length := hk
  simp only [TT.core, deltaTerm, List.getD_eq_getElem?_getD]
  split_ifs with h1 h2
  · rw [List.getElem?_append_left (by simp; omega), List.getElem?_take, if_pos h1]
  · rw [List.getElem?_append_right (by simp; omega)]
    simp [h2, hk'.le]
  · rw [List.getElem?_append_right (by simp; omega), List.length_take, min_eq_left hk'.le, List.getElem?_cons, if_neg (by omega), List.getElem?_drop]
    congr 2
    omega

theorem deltaTerm_ndims {deltas : List (Tensor ℝ)} {p : List ℕ} {k : ℕ} (hk : k < left.ndims) (hn : right.ndims = left.ndims) :
    (deltaTerm left right deltas p k).ndims = left.ndims := by
  have hk' : k < left.cores.length := hk
  have hn' : right.cores.length = left.cores.length := hn
  simp only [TT.ndims, deltaTerm, List.length_append, List.length_take, List.length_cons, List.length_drop]
  omega

theorem deltaTerm_rank (wl : left.WF) {deltas : List (Tensor ℝ)} {p : List ℕ} {k : ℕ} (hk : k < left.ndims) (j : ℕ) :
    (deltaTerm left right deltas p k).rank j = if j ≤ k then left.rank j else right.rank j := by
  have hlen := wl.ranks_len
  simp only [TT.rank, deltaTerm, List.getD_eq_getElem?_getD]
  split_ifs with h1
  · rw [List.getElem?_append_left (by simp; omega), List.getElem?_take, if_pos (by omega)]
  · rw [List.getElem?_append_right (by simp; omega), List.length_take, List.getElem?_drop]
    congr 2
    omega

theorem deltaTerm_wf (F : TFrame x left right) {out : Option ℕ} {deltas : List (Tensor ℝ)}
    (hD : ∀ k < x.ndims, (deltas.getD k default).shape = out.toList ++ left.rank k :: (x.modes k ++ [right.rank (k + 1)])) {p : List ℕ}
    (hp : p.length = out.toList.length) {k : ℕ} (hk : k < x.ndims) : (deltaTerm left right deltas p k).WF := by
  have hkl : k < left.ndims := by rw [F.nl]; exact hk
  have hnn : right.ndims = left.ndims := by rw [F.nl, F.nr]
  have hn := deltaTerm_ndims (deltas := deltas) (p := p) hkl hnn
  have hrk := deltaTerm_rank (right := right) F.wl (deltas := deltas) (p := p) hkl
  have hmod : (deltaTerm left right deltas p k).modes = left.modes := rfl
  have hbp : (deltaTerm left right deltas p k).bpre = [] := rfl
  refine ⟨?_, ?_, ?_, ?_, ?_, F.wl.rows, ?_, ?_, ?_⟩
  · rw [hn]; exact F.wl.pos
  · rw [hn]
    have h1 := F.wl.ranks_len
    have h2 := F.wr.ranks_len
    simp only [deltaTerm, List.length_append, List.length_take, List.length_drop]
    omega
  · rw [hrk, if_pos (by omega)]; exact F.wl.rank_first
  · rw [hn, hrk, if_neg (by omega), ← hnn]; exact F.wr.rank_last
  · intro j hj
    rw [hn] at hj
    rw [hrk]
    split_ifs
    · exact F.wl.rank_pos j hj
    · exact F.wr.rank_pos j (by omega)
  · intro r hr
    rw [hn]; exact F.wl.rows_len r hr
  · intro j hj
    rw [hn] at hj
    rw [deltaTerm_core hkl, hrk, hrk, hbp, hmod]
    split_ifs with h1 h2 h3 h4 h5 h6 <;> try omega
    · have := F.wl.core_shape j hj
      rwa [F.pl] at this
    · obtain rfl : j = k := by assumption
      show (deltas.getD j default).shape.drop p.length = _
      rw [hD j hk, hp, List.drop_left, F.ml]
      rfl
    · have := F.wr.core_shape j (by omega)
      rwa [F.pr, F.mr, ← F.ml] at this
  · simp [deltaTerm]

theorem deltaTerm_entry (F : TFrame x left right) {deltas : List (Tensor ℝ)} {p : List ℕ} {k : ℕ} (hk : k < x.ndims) (m : ℕ → List ℕ) :
    (deltaTerm left right deltas p k).entry [] m = lprod (blockRank left.rank right.rank k)
      (blockMat (left.slice [] m) (right.slice [] m) (sl (fun k => deltas.getD k default) p m) k) x.ndims 0 := by
  have hkl : k < left.ndims := by rw [F.nl]; exact hk
  have hnn : right.ndims = left.ndims := by rw [F.nl, F.nr]
  rw [TT.entry, deltaTerm_ndims hkl hnn, F.nl]
  congr 1
  · funext j
    exact deltaTerm_rank F.wl hkl j
  · funext j a b
    rw [TT.slice, deltaTerm_core hkl, blockMat]
    by_cases h1 : j < k
    · rw [if_pos h1, if_pos h1]; rfl
    · by_cases h2 : j = k
      · subst h2; rw [if_neg h1, if_neg h1, if_pos rfl, if_pos rfl]; rfl
      · rw [if_neg h1, if_neg h1, if_neg h2, if_neg h2]; rfl

/-- A tangent vector is the sum of the terms of its blocks. -/
theorem IsTangent.entry_terms (F : TFrame x left right) {y : TT ℝ} {deltas : List (Tensor ℝ)}
    (T : IsTangent left right (fun k => deltas.getD k default) y) {p : List ℕ} (hp : Valid y.bpre p) {m : ℕ → List ℕ}
    (hm : ∀ k < x.ndims, Valid (x.modes k) (m k)) :
    y.entry p m = ∑ k ∈ Finset.range x.ndims, (deltaTerm left right deltas p k).entry [] m := by
  rw [T.entry F hp hm]
  exact Finset.sum_congr rfl fun k hk => (deltaTerm_entry F (Finset.mem_range.1 hk) m).symm

/-! ### the blocks of a tangent vector -/

theorem deltaCore_ok (F : TFrame x left right) (hd : 2 ≤ x.ndims) (hH : Halves x left right) {D : ℕ → Tensor ℝ} {y : TT ℝ}
    (T : IsTangent left right D y) {k : ℕ} (hk : k < x.ndims) : ∃ E, deltaCore y k = Except.ok E ∧ E ≃ₜ D k := by
  have hny : y.ndims = x.ndims := by rw [T.nd, F.nl]
  have hmod : y.modes = x.modes := modes_of_rows (T.rows.trans F.rl)
  have hry : y.rawShape = x.rawShape := T.rows.trans F.rl
  have rm : ∀ j, 0 < j → j < x.ndims → y.rank j = right.rank j + left.rank j := fun j h0 h1 => by
    rw [T.rank j (by rw [F.nl]; omega), F.nl, addRk, if_neg (by omega)]
  have half : ∀ j, 0 < j → j < x.ndims → y.rank j / 2 = right.rank j := fun j h0 h1 => by rw [rm j h0 h1]; exact hH j h0 h1
  have r0 : y.rank 0 = 1 := T.wf.rank_first
  have rd : y.rank x.ndims = 1 := by rw [← hny]; exact T.wf.rank_last
  obtain ⟨hL, hR⟩ := rankDims y T.wf
  have hs := T.wf.core_shape k (by omega)
  have hbs := T.blkShape k (by rw [F.nl]; exact hk)
  have hl0 := F.l0
  have hrd := F.rd
  have hml : (x.modes k).length = x.rawShape.length := by simp [TT.modes]
  rw [hmod] at hs
  rw [F.ml] at hbs
  have hV := T.vals k (by rw [F.nl]; exact hk)
  have fin : ∀ {l r : Ix}, IxRange l (y.rank k) (if k = 0 then 0 else right.rank k) (left.rank k) → IxRange r (y.rank (k + 1)) 0 (right.rank (k + 1)) →
      ∃ E, sliceCore y.leftRankDim y.rightRankDim l r (y.core k) = Except.ok E ∧ E ≃ₜ D k := by
    intro l r h1 h2
    obtain ⟨E, eE, sE, vE⟩ := sliceCore_ok hs (axL := y.leftRankDim) (axR := y.rightRankDim) (by rw [hL]; rfl) (by rw [hR, hry, hml]; rfl) h1 h2
    refine ⟨E, eE, sE.trans hbs.symm, fun i hi => ?_⟩
    rw [sE] at hi
    obtain ⟨p, i, rfl, hp, hi⟩ := valid_append_iff.1 hi
    obtain ⟨a, i, rfl, ha, hi⟩ := (valid_cons_iff _ _ _).1 hi
    obtain ⟨v, i, rfl, hv, hi⟩ := valid_append_iff.1 hi
    obtain ⟨b, i, rfl, hb, hi⟩ := (valid_cons_iff _ _ _).1 hi
    rw [valid_nil_iff] at hi
    subst hi
    rw [vE p hp v hv a ha b hb, Nat.zero_add]
    rw [← F.ml] at hv
    by_cases h0 : k = 0
    · subst h0
      obtain rfl : a = 0 := by omega
      rw [if_pos rfl]
      exact hV.first rfl p hp v hv b hb
    · rw [if_neg h0]
      exact hV.blk (by omega) p hp v hv a ha b hb
  have hlast : y.ttRanks.length - 2 = x.ndims - 1 := by rw [T.wf.ranks_len, hny]; omega
  have low : 0 < k → IxRange (.slice (some ((y.rank k / 2 : ℕ) : ℤ)) none 1) (y.rank k) (if k = 0 then 0 else right.rank k) (left.rank k) := fun h0 => by
    have := ixRange_from (r := y.rank k) (h := right.rank k) (by rw [rm k h0 hk]; omega)
    rw [half k h0 hk, if_neg (by omega), show left.rank k = y.rank k - right.rank k by rw [rm k h0 hk]; omega]
    exact this
  have up : k + 1 < x.ndims → IxRange (.slice (some 0) (some ((y.rank (k + 1) / 2 : ℕ) : ℤ)) 1) (y.rank (k + 1)) 0 (right.rank (k + 1)) := fun h1 => by
    rw [half (k + 1) (by omega) h1]
    exact ixRange_prefix (by rw [rm (k + 1) (by omega) h1]; omega)
  unfold deltaCore
  rw [hny, T.wf.pyCore (by omega), R.ok_bind, hlast]
  split_ifs with h1 h2
  · rw [T.wf.pyRank (by omega), R.ok_bind, ← h1]
    refine fin (low (by omega)) ?_
    rw [show k + 1 = x.ndims by omega, rd, hrd]
    exact ixRange_all 1
  · rw [T.wf.pyRank (by omega), R.ok_bind]
    refine fin ?_ (by have := up (by omega); rw [h2] at this ⊢; exact this)
    rw [if_pos h2, h2, r0, hl0]
    exact ixRange_all 1
  · rw [T.wf.pyRank (by omega), R.ok_bind, T.wf.pyRank (by omega), R.ok_bind]
    exact fin (low (by omega)) (up (by omega))

theorem tangentSpaceToDeltas_ok (F : TFrame x left right) (hd : 2 ≤ x.ndims) (hH : Halves x left right)
    (hrk : ∀ k, 0 < k → k + 1 < x.ndims → right.rank k = left.rank k) {D : ℕ → Tensor ℝ} {y : TT ℝ} (T : IsTangent left right D y) (o : ℕ) :
    ∃ deltas, tangentSpaceToDeltas ⟨y, some o⟩ = Except.ok deltas ∧ deltas.length = x.ndims ∧ ∀ k < x.ndims, deltas.getD k default ≃ₜ D k := by
  have hny : y.ndims = x.ndims := by rw [T.nd, F.nl]
  obtain ⟨l, e1, -⟩ := mapRange_ok (x.ndims - 2) (fun i => do
    let r ← pyGet y.ttRanks (i + 1)
    require (r % 2 = 0) Err.value) (fun _ _ => True) (by
      intro i hi
      refine ⟨(), ?_, trivial⟩
      rw [T.wf.pyRank (by omega), R.ok_bind, require_pos]
      rw [T.rank (i + 1) (by rw [F.nl]; omega), F.nl, addRk, if_neg (by omega), hrk (i + 1) (by omega) (by omega)]
      omega)
  obtain ⟨ds, e2, hl, hds⟩ := mapRange_ok x.ndims (deltaCore y) (fun k (E : Tensor ℝ) => E ≃ₜ D k) (fun k hk => deltaCore_ok F hd hH T hk)
  refine ⟨ds, ?_, hl, hds⟩
  rw [tangentSpaceToDeltas, require_pos (show (Projected.mk y (some o)).on.isSome = true from rfl), R.ok_bind]
  simp only [hny, e1, R.ok_bind, e2]

end

end T3f
