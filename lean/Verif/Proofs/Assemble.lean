import Verif.Proofs.TangentChain
import Verif.Proofs.OrthoRL

/-! # The object returned by the projections -/

namespace T3f

/-- A left orthonormal and a right orthonormal representation of the same object. -/
structure TFrame (x left right : TT ℝ) : Prop where
  wl : left.WF
  wr : right.WF
  bl : left.batch = none
  br : right.batch = none
  rl : left.rawShape = x.rawShape
  rr : right.rawShape = x.rawShape
  nl : left.ndims = x.ndims
  nr : right.ndims = x.ndims
  lo : ∀ k, k + 1 < x.ndims → LOrth x.N left.rank (left.fl []) k
  ro : ∀ k, 0 < k → k < x.ndims → ROrth x.N right.rank (right.fl []) k
  el : ∀ g, (∀ j < x.ndims, Valid (x.modes j) (g j)) → left.entry [] g = x.entry [] g
  er : ∀ g, (∀ j < x.ndims, Valid (x.modes j) (g j)) → right.entry [] g = x.entry [] g
  kl : ∀ k ≤ x.ndims, left.rank k = lrRank x.N x.rank k
  kr : ∀ k ≤ x.ndims, right.rank k = rlRank x.N left.rank x.ndims k

section
variable {x left right : TT ℝ}

theorem TFrame.ml (F : TFrame x left right) : left.modes = x.modes := modes_of_rows F.rl
theorem TFrame.mr (F : TFrame x left right) : right.modes = x.modes := modes_of_rows F.rr
theorem TFrame.Nl (F : TFrame x left right) : left.N = x.N := by funext k; simp only [TT.N, F.ml]
theorem TFrame.Nr (F : TFrame x left right) : right.N = x.N := by funext k; simp only [TT.N, F.mr]
theorem TFrame.pl (F : TFrame x left right) : left.bpre = [] := by simp [TT.bpre, F.bl]
theorem TFrame.pr (F : TFrame x left right) : right.bpre = [] := by simp [TT.bpre, F.br]
theorem TFrame.l0 (F : TFrame x left right) : left.rank 0 = 1 := F.wl.rank_first
theorem TFrame.rd (F : TFrame x left right) : right.rank x.ndims = 1 := by rw [← F.nr]; exact F.wr.rank_last
theorem TFrame.sl (F : TFrame x left right) {k : ℕ} (hk : k < x.ndims) :
    (left.core k).shape = left.rank k :: (x.modes k ++ [left.rank (k + 1)]) := by
  rw [F.wl.core_shape k (by rw [F.nl]; exact hk), F.pl, F.ml]; rfl
theorem TFrame.sr (F : TFrame x left right) {k : ℕ} (hk : k < x.ndims) :
    (right.core k).shape = right.rank k :: (x.modes k ++ [right.rank (k + 1)]) := by
  rw [F.wr.core_shape k (by rw [F.nr]; exact hk), F.pr, F.mr]; rfl
theorem TFrame.cl (F : TFrame x left right) {k : ℕ} (hk : k < x.ndims) : pyGet left.cores k = Except.ok (left.core k) :=
  F.wl.pyCore (by rw [F.nl]; exact hk)
theorem TFrame.cr (F : TFrame x left right) {k : ℕ} (hk : k < x.ndims) : pyGet right.cores k = Except.ok (right.core k) :=
  F.wr.pyCore (by rw [F.nr]; exact hk)

end

theorem tangentFrame_ok {qr : QRRoutine} (hqr : qr.Correct) {x : TT ℝ} (h : x.WF) (hb : x.batch = none) (hm : x.ModesPos) :
    ∃ left right, tangentFrame qr x = Except.ok (left, right) ∧ TFrame x left right := by
  obtain ⟨l, e, w, rs, b, nd, rk, orth, ent⟩ := orthoLR_ok hqr h hm
  have hbp : x.bpre = [] := by simp [TT.bpre, hb]
  rw [hb] at b
  have hml : l.modes = x.modes := modes_of_rows rs
  have hNl : l.N = x.N := by funext k; simp only [TT.N, hml]
  obtain ⟨r, e', w', rs', b', nd', rk', orth', ent'⟩ := orthoRL_ok hqr w b (fun row hr => hm row (by rw [← rs]; exact hr))
  have hmr : r.modes = x.modes := (modes_of_rows rs').trans hml
  have hNr : r.N = x.N := by funext k; simp only [TT.N, hmr]
  refine ⟨l, r, ?_, w, w', b, b', rs, rs'.trans rs, nd, nd'.trans nd, fun k hk => ?_, fun k h0 hk => ?_, fun g hg => ?_, fun g hg => ?_, rk, fun k hk => ?_⟩
  · unfold tangentFrame orthogonalize
    rw [if_pos rfl, e]
    simp only [R.ok_bind, Bool.false_eq_true, if_false, TT.isBatch, b, Option.isSome_none]
    rw [e']; rfl
  · rw [← hNl]
    exact orth [] (by rw [hbp]; trivial) k hk
  · rw [← hNr]
    exact orth' k h0 (by omega)
  · exact ent [] (by rw [hbp]; trivial) g hg
  · rw [ent' g (by rw [nd, hml]; exact hg), ent [] (by rw [hbp]; trivial) g hg]
  · rw [rk' k (by omega), hNl, nd]

/-- The elements of core `k` of a tangent vector, in terms of the cores of the frame and the block `D`. -/
structure TangentVals (left right : TT ℝ) (pre : List ℕ) (D : Tensor ℝ) (k : ℕ) (C : Tensor ℝ) : Prop where
  first : k = 0 → ∀ p, Valid pre p → ∀ v, Valid (left.modes k) v → ∀ b < right.rank 1,
    C.get (p ++ 0 :: (v ++ [b])) = D.get (p ++ 0 :: (v ++ [b]))
  first' : k = 0 → ∀ p, Valid pre p → ∀ v, Valid (left.modes k) v → ∀ b < left.rank 1,
    C.get (p ++ 0 :: (v ++ [right.rank 1 + b])) = (left.core k).get (0 :: (v ++ [b]))
  up : 0 < k → ∀ p, Valid pre p → ∀ v, Valid (left.modes k) v → ∀ a < right.rank k, ∀ b < right.rank (k + 1),
    C.get (p ++ a :: (v ++ [b])) = (right.core k).get (a :: (v ++ [b]))
  blk : 0 < k → ∀ p, Valid pre p → ∀ v, Valid (left.modes k) v → ∀ a < left.rank k, ∀ b < right.rank (k + 1),
    C.get (p ++ (right.rank k + a) :: (v ++ [b])) = D.get (p ++ a :: (v ++ [b]))
  zero : 0 < k → k + 1 < left.ndims → ∀ p, Valid pre p → ∀ v, Valid (left.modes k) v → ∀ a < right.rank k, ∀ b < left.rank (k + 1),
    C.get (p ++ a :: (v ++ [right.rank (k + 1) + b])) = 0
  low : 0 < k → k + 1 < left.ndims → ∀ p, Valid pre p → ∀ v, Valid (left.modes k) v → ∀ a < left.rank k, ∀ b < left.rank (k + 1),
    C.get (p ++ (right.rank k + a) :: (v ++ [right.rank (k + 1) + b])) = (left.core k).get (a :: (v ++ [b]))

/-- `y` is the tangent vector with the blocks `D`. -/
structure IsTangent (left right : TT ℝ) (D : ℕ → Tensor ℝ) (y : TT ℝ) : Prop where
  wf : y.WF
  rows : y.rawShape = left.rawShape
  nd : y.ndims = left.ndims
  rank : ∀ k ≤ left.ndims, y.rank k = addRk right.rank left.rank left.ndims k
  blkShape : ∀ k < left.ndims, (D k).shape = y.bpre ++ left.rank k :: (left.modes k ++ [right.rank (k + 1)])
  vals : ∀ k < left.ndims, TangentVals left right y.bpre (D k) k (y.core k)

theorem valid_rmr {r r' a b : ℕ} {M v : List ℕ} (ha : a < r) (hv : Valid M v) (hb : b < r') : Valid (r :: (M ++ [r'])) (a :: (v ++ [b])) :=
  ⟨ha, valid_append hv (by simpa using hb)⟩

theorem extendCore_ok {t : TT ℝ} (h : t.WF) (hb : t.batch = none) {isMat : Prop} [Decidable isMat] (hmat : isMat ↔ t.rawShape.length = 2)
    (out : Option ℕ) {k : ℕ} (hk : k < t.ndims) :
    ∃ e, extendCore isMat out (t.core k) = Except.ok e ∧ e.shape = out.toList ++ t.rank k :: (t.modes k ++ [t.rank (k + 1)]) ∧
      ∀ p, Valid out.toList p → ∀ idx, Valid (t.rank k :: (t.modes k ++ [t.rank (k + 1)])) idx → e.get (p ++ idx) = (t.core k).get idx := by
  have hbpre : t.bpre = [] := by simp [TT.bpre, hb]
  have hs := h.core_shape k hk
  rw [hbpre, List.nil_append] at hs
  cases out with
  | none =>
    refine ⟨_, rfl, hs, fun p hp idx _ => ?_⟩
    obtain rfl := (valid_nil_iff p).1 hp
    rfl
  | some n =>
    obtain ⟨e, he⟩ : ∃ e, expandDims (t.core k) 0 = Except.ok e := ⟨_, by rw [expandDims, if_pos (Nat.zero_le _)]⟩
    have hv : ∀ o idx, e.get (o :: idx) = (t.core k).get idx := by
      intro o idx
      rw [expandDims, if_pos (Nat.zero_le _)] at he
      rw [← Except.ok.inj he]
      simp
    have hsh : e.shape = 1 :: (t.rank k :: (t.modes k ++ [t.rank (k + 1)])) := by
      rw [expandDims, if_pos (Nat.zero_le _)] at he
      rw [← Except.ok.inj he, ← hs]
      simp
    obtain ⟨T, eT, sT, vT⟩ := tile_ok e n _ hsh (if isMat then [n, 1, 1, 1, 1] else [n, 1, 1, 1]) (by
      have : (t.modes k).length = t.rawShape.length := by simp [TT.modes]
      rcases h.rows with h1 | h2
      · rw [if_neg (by rw [hmat]; omega)]; simp [this, h1, List.replicate]
      · rw [if_pos (by rw [hmat]; exact h2)]; simp [this, h2, List.replicate])
    refine ⟨T, by rw [extendCore, he]; exact eT, sT, fun p hp idx hidx => ?_⟩
    obtain ⟨o, _, rfl, ho, hn⟩ := (valid_cons_iff _ _ _).1 hp
    rw [valid_nil_iff] at hn
    subst hn
    exact (vT o idx hidx).trans (hv _ _)

theorem assemble_core {x left right : TT ℝ} (F : TFrame x left right) (hd : 2 ≤ x.ndims) {isMat : Prop} [Decidable isMat]
    (hmat : isMat ↔ x.rawShape.length = 2) (out : Option ℕ) {k : ℕ} (hk : k < x.ndims) {D : Tensor ℝ}
    (hD : D.shape = out.toList ++ left.rank k :: (x.modes k ++ [right.rank (k + 1)])) {zs : R (List ℕ)}
    (hzs : zs = Except.ok (out.toList ++ right.rank k :: (x.modes k ++ [left.rank (k + 1)])))
    {axL axR : ℕ} (hL : axL = out.toList.length) (hR : axR = out.toList.length + x.rawShape.length + 1) :
    ∃ elc erc C, extendCore isMat out (left.core k) = Except.ok elc ∧ extendCore isMat out (right.core k) = Except.ok erc ∧
      tangentCore axL axR x.ndims k zs elc erc D = Except.ok C ∧
      C.shape = out.toList ++ addRk right.rank left.rank x.ndims k :: (x.modes k ++ [addRk right.rank left.rank x.ndims (k + 1)]) ∧
      TangentVals left right out.toList D k C := by
  obtain ⟨elc, e1, s1, v1⟩ := extendCore_ok F.wl F.bl (isMat := isMat) (by rw [F.rl]; exact hmat) out (k := k) (by rw [F.nl]; exact hk)
  obtain ⟨erc, e2, s2, v2⟩ := extendCore_ok F.wr F.br (isMat := isMat) (by rw [F.rr]; exact hmat) out (k := k) (by rw [F.nr]; exact hk)
  rw [F.ml] at s1 v1
  rw [F.mr] at s2 v2
  have hml : (x.modes k).length = x.rawShape.length := by simp [TT.modes]
  obtain ⟨C, eC, sC, vC⟩ := tangentCore_ok hd hml hk s1 s2 hD F.l0 F.rd hzs hL hR
  have hvl : ∀ p, Valid out.toList p → p.length = out.toList.length := fun p hp => hp.length_eq
  have hvm : ∀ v, Valid (left.modes k) v → v.length = x.rawShape.length := fun v hv => by rw [hv.length_eq, F.ml, hml]
  refine ⟨elc, erc, C, e1, e2, eC, sC, ?_⟩
  have h0l := F.l0
  refine ⟨fun h0 p hp v hv b hb => ?_, fun h0 p hp v hv b hb => ?_, fun h0 p hp v hv a ha b hb => ?_, fun h0 p hp v hv a ha b hb => ?_,
    fun h0 h1 p hp v hv a ha b hb => ?_, fun h0 h1 p hp v hv a ha b hb => ?_⟩ <;>
    rw [vC p v _ _ (hvl p hp) (hvm v hv)]
  · rw [if_pos h0, if_pos hb]
  · rw [if_pos h0, if_neg (by omega), Nat.add_sub_cancel_left, v1 p hp]
    subst h0
    exact valid_rmr (by omega) (by rw [← F.ml]; exact hv) hb
  · rw [if_neg (by omega), if_pos ha, if_pos ha, if_pos hb, ite_self]
    exact v2 p hp _ (valid_rmr ha (by rw [← F.ml]; exact hv) hb)
  · rw [if_neg (by omega), if_neg (show ¬ right.rank k + a < right.rank k by omega), if_neg (show ¬ right.rank k + a < right.rank k by omega),
      if_pos hb, Nat.add_sub_cancel_left, ite_self]
  · rw [F.nl] at h1
    rw [if_neg (by omega), if_neg (by omega), if_pos ha, if_neg (by omega)]
  · rw [F.nl] at h1
    rw [if_neg (by omega), if_neg (by omega), if_neg (by omega), if_neg (by omega), Nat.add_sub_cancel_left, Nat.add_sub_cancel_left]
    exact v1 p hp _ (valid_rmr ha (by rw [← F.ml]; exact hv) hb)

theorem assemble_both {x left right : TT ℝ} (F : TFrame x left right) (h : x.WF) (hd : 2 ≤ x.ndims) {out : Option ℕ} (hout : out ≠ some 0)
    {f : ℕ → R (Tensor ℝ)} {D : ℕ → Tensor ℝ}
    (hD : ∀ k < x.ndims, (D k).shape = out.toList ++ left.rank k :: (x.modes k ++ [right.rank (k + 1)]))
    (hf : ∀ k < x.ndims, ∃ C, f k = Except.ok C ∧
      C.shape = out.toList ++ addRk right.rank left.rank x.ndims k :: (x.modes k ++ [addRk right.rank left.rank x.ndims (k + 1)]) ∧
      TangentVals left right out.toList (D k) k C) :
    ∃ cores y, mapRange x.ndims f = Except.ok cores ∧ mkTangent out cores x.rawShape = Except.ok y ∧ IsTangent left right D y ∧ y.batch = out ∧
      (match (motive := Option ℕ → R (TT ℝ)) out with | some n => mkBatch cores .omitted none (some n) | none => mkTT cores) = Except.ok y := by
  have hml : ∀ k < x.ndims, (x.modes k).length = x.rawShape.length := fun k _ => by simp [TT.modes]
  obtain ⟨cores, ec, lc, hch, hv⟩ := Chain.build f x.ndims out (addRk right.rank left.rank x.ndims) x.modes x.rawShape.length
    (fun k C => TangentVals left right out.toList (D k) k C) (by omega) (by simp [addRk]) (by simp [addRk]) (fun k hk => by
      unfold addRk
      split
      · omega
      · have := F.wl.rank_pos k (by rw [F.nl]; exact hk); omega) h.rows hml hout hf
  refine ⟨cores, chainTT out cores (addRk right.rank left.rank x.ndims) x.modes x.rawShape.length, ec, ?_, ⟨hch.wf, ?_, ?_, ?_, ?_, ?_⟩, rfl, ?_⟩
  · cases out with
    | none => exact mkTT_ok hch (.shapes x.rawShape) (Or.inr (hch.clean (by rw [lc]; exact h.rows_eq))) none (Or.inl rfl)
    | some n => exact mkBatch_ok hch (.shapes x.rawShape) (Or.inr (hch.clean (by rw [lc]; exact h.rows_eq))) none (Or.inl rfl) (some n) (Or.inr rfl)
  · rw [F.rl]
    change rowsOf _ _ _ = _
    rw [lc]; exact h.rows_eq.symm
  · rw [F.nl]; exact lc
  · rw [F.nl]; intro k hk; exact chainTT_rank k (by omega)
  · rw [F.nl, F.ml]; exact hD
  · rw [F.nl]; intro k hk; exact hv k hk
  · cases out with
    | none => exact mkTT_ok hch .omitted (Or.inl rfl) none (Or.inl rfl)
    | some n => exact mkBatch_ok hch .omitted (Or.inl rfl) none (Or.inl rfl) (some n) (Or.inr rfl)

theorem assemble {x left right : TT ℝ} (F : TFrame x left right) (h : x.WF) (hd : 2 ≤ x.ndims) {out : Option ℕ} (hout : out ≠ some 0)
    {f : ℕ → R (Tensor ℝ)} {D : ℕ → Tensor ℝ}
    (hD : ∀ k < x.ndims, (D k).shape = out.toList ++ left.rank k :: (x.modes k ++ [right.rank (k + 1)]))
    (hf : ∀ k < x.ndims, ∃ C, f k = Except.ok C ∧
      C.shape = out.toList ++ addRk right.rank left.rank x.ndims k :: (x.modes k ++ [addRk right.rank left.rank x.ndims (k + 1)]) ∧
      TangentVals left right out.toList (D k) k C) :
    ∃ cores y, mapRange x.ndims f = Except.ok cores ∧ mkTangent out cores x.rawShape = Except.ok y ∧ IsTangent left right D y ∧ y.batch = out := by
  obtain ⟨cores, y, e1, e2, T, hb, _⟩ := assemble_both F h hd hout hD hf
  exact ⟨cores, y, e1, e2, T, hb⟩

/-- The entries of a tangent vector. -/
theorem IsTangent.entry {x left right y : TT ℝ} {D : ℕ → Tensor ℝ} (F : TFrame x left right) (T : IsTangent left right D y) {p : List ℕ} {m : ℕ → List ℕ}
    (hp : Valid y.bpre p) (hm : ∀ k < x.ndims, Valid (x.modes k) (m k)) :
    y.entry p m = ∑ i ∈ Finset.range x.ndims,
      lprod (blockRank left.rank right.rank i) (blockMat (left.slice [] m) (right.slice [] m) (sl D p m) i) x.ndims 0 := by
  have hpos : 0 < x.ndims := by rw [← F.nl]; exact F.wl.pos
  have hV := T.vals
  rw [F.nl] at hV
  rw [TT.entry, T.nd, F.nl]
  have hrk := T.rank
  rw [F.nl] at hrk
  have hmv : ∀ k < x.ndims, Valid (left.modes k) (m k) := by rw [F.ml]; exact hm
  refine lprod_tangent (rC := y.rank) hpos F.l0 (by rw [hrk 0 (by omega)]; simp [addRk]) F.rd (fun k h1 h2 => ?_) (fun b hb => ?_) (fun b hb h1 => ?_)
    (fun k h1 h2 a ha b hb => ?_) (fun k h1 h2 a ha b hb => ?_) (fun k h1 h2 a ha b hb => ?_) (fun k h1 h2 a ha b hb => ?_)
  · rw [hrk k h2.le]; simp [addRk]; omega
  · exact (hV 0 hpos).first rfl p hp _ (hmv 0 hpos) b hb
  · exact (hV 0 hpos).first' rfl p hp _ (hmv 0 hpos) b hb
  · exact (hV k h2).up h1 p hp _ (hmv k h2) a ha b hb
  · exact (hV k h2).blk h1 p hp _ (hmv k h2) a ha b hb
  · exact (hV k (by omega)).zero h1 (by rw [F.nl]; exact h2) p hp _ (hmv k (by omega)) a ha b hb
  · exact (hV k (by omega)).low h1 (by rw [F.nl]; exact h2) p hp _ (hmv k (by omega)) a ha b hb

end T3f
