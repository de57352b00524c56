import Verif.Proofs.SameTensors
import Verif.Proofs.SameLeaves
import Verif.Props.C11Inner
import Verif.Props.C70Ties

/-!
# C89: the results depend on the represented tensors only

A tensor has many TT-representations: other cores, and larger TT-ranks. `SameTensors t t'` says that two objects of the same shape represent the same
tensors. Operations applied to either of them give objects that represent the same tensors again, `project` provided that the point is given with
minimal TT-ranks, and `round` provided that the best approximations are unique.
-/

namespace T3f

section
variable {qr qr' : QRRoutine}

/-- **C89.** The same program over objects that represent the same tensors raises or not regardless of the representation, and its results represent
the same tensors. -/
theorem C89_programs (hqr : qr.Correct) (hqr' : qr'.Correct) {e e' : Expr} (hs : e.SameLeaves e') (h : e.Ok) (h' : e'.Ok) :
    (e.Runs qr ↔ e'.Runs qr') ∧ ∀ t t', e.run qr = Except.ok t → e'.run qr' = Except.ok t' → SameTensors t t' := by
  have k := hs.pair hqr hqr' h h'
  cases hτ : e.ty with
  | none =>
    rw [hτ] at k
    obtain ⟨⟨x, hx⟩, y, hy⟩ := k
    unfold Expr.Runs
    rw [hx, hy]
    exact ⟨by simp, fun t t' h1 => by simp at h1⟩
  | some τ =>
    rw [hτ] at k
    obtain ⟨v, t, t', e1, e2, h1, h2⟩ := k
    refine ⟨⟨fun _ => ⟨t', e2⟩, fun _ => ⟨t, e1⟩⟩, fun s s' i1 i2 => ?_⟩
    obtain rfl : t = s := Except.ok.inj (e1.symm.trans i1)
    obtain rfl : t' = s' := Except.ok.inj (e2.symm.trans i2)
    exact h1.sameTensors h2

theorem squeezed_sel {c : Option ℕ} {i : List ℕ} (hi : Valid (squeezed c).toList i) : ∃ o, o < c.getD 1 ∧ i = bsel (squeezed c) o := by
  rcases c with _ | n
  · exact ⟨0, by simp, (valid_nil_iff _).1 hi⟩
  · by_cases h1 : n = 1
    · subst h1
      exact ⟨0, by simp, (valid_nil_iff _).1 hi⟩
    · have e1 : squeezed (some n) = some n := by simp [squeezed, h1]
      rw [e1] at hi
      obtain ⟨o, rfl, ho⟩ := (valid_singleton _ _).1 hi
      exact ⟨o, ho, by rw [e1]; simp [bsel, h1]⟩

/-- C89: `flat_inner` of objects that represent the same tensors. -/
theorem C89_inner {a a' b b' : TT ℝ} (ha : a.WF) (ha' : a'.WF) (hb : b.WF) (hb' : b'.WF) (sa : SameTensors a a') (sb : SameTensors b b')
    (hr : a.rawShape = b.rawShape) (hbatch : BCompat a.batch b.batch) :
    ∃ F F', flatInner a b = Except.ok F ∧ flatInner a' b' = Except.ok F' ∧ F' ≃ₜ F := by
  obtain ⟨ra, ba, A, A', eA, eA', qA, vA⟩ := sa
  obtain ⟨rb, bb, B, B', eB, eB', qB, vB⟩ := sb
  obtain ⟨F, A1, B1, s, e, eA1, eB1, sA, sB, sF, vF⟩ := C11_flat_inner a b ha hb hr hbatch
  obtain ⟨F', A1', B1', s', e', eA1', eB1', sA', sB', sF', vF'⟩ := C11_flat_inner a' b' ha' hb' (by rw [ra, rb, hr]) (by rw [ba, bb]; exact hbatch)
  obtain rfl : A1 = A := Except.ok.inj (eA1.symm.trans eA)
  obtain rfl : A1' = A' := Except.ok.inj (eA1'.symm.trans eA')
  obtain rfl : B1 = B := Except.ok.inj (eB1.symm.trans eB)
  obtain rfl : B1' = B' := Except.ok.inj (eB1'.symm.trans eB')
  rw [ba, bb] at sF' vF'
  rw [ba] at sA'
  rw [bb] at sB'
  obtain rfl : s' = s := by
    rw [sA, sA'] at qA
    exact List.append_cancel_left qA
  refine ⟨F, F', e, e', by rw [sF, sF'], fun i hi => ?_⟩
  rw [sF'] at hi
  obtain ⟨o, ho, rfl⟩ := squeezed_sel hi
  rw [vF o ho, vF' o ho]
  obtain ⟨v1, v2⟩ := bcast_valid hbatch ho
  refine Finset.sum_congr rfl fun n hn => ?_
  have hu := unravel_valid (Finset.mem_range.1 hn)
  rw [vA _ (by rw [sA']; exact valid_append_iff.2 ⟨_, _, rfl, v1, hu⟩), vB _ (by rw [sB']; exact valid_append_iff.2 ⟨_, _, rfl, v2, hu⟩)]

/-- The dense forms of single objects that represent the same tensor. -/
theorem SameTensors.dense {x x' : TT ℝ} (h : x.WF) (h' : x'.WF) (hs : SameTensors x x') : x'.dense ≃ₜ x.dense := by
  obtain ⟨-, -, F, F', eF, eF', hF⟩ := hs
  obtain ⟨G, eG, hG⟩ := full_dense h
  obtain ⟨G', eG', hG'⟩ := full_dense h'
  obtain rfl : G = F := Except.ok.inj (eG.symm.trans eF)
  obtain rfl : G' = F' := Except.ok.inj (eG'.symm.trans eF')
  exact hG'.symm.trans (hF.trans hG)

/-- **C89.** The tangent space does not depend on the representation, as long as the TT-ranks are minimal. -/
theorem C89_tangent {x x' : TT ℝ} (h : x.WF) (h' : x'.WF) (hb : x.batch = none) (hs : SameTensors x x') (hne : x.Nonzero) (hmin : x.MinimalRanks)
    (hmin' : x'.MinimalRanks) (f : List ℕ → ℝ) : x.TangentVector f ↔ x'.TangentVector f := by
  have hb' : x'.batch = none := hs.2.1.trans hb
  have he := hs.dense h h'
  exact ⟨tangent_of_minimal h h' hb hb' hs.1 he hmin hne,
    tangent_of_minimal h' h hb' hb hs.1.symm he.symm hmin' (Nonzero.transfer hne he)⟩

/-- C89: a representation with larger TT-ranks has all these tangent vectors, and possibly more. -/
theorem C89_tangent_larger {x x' : TT ℝ} (h : x.WF) (h' : x'.WF) (hb : x.batch = none) (hs : SameTensors x x') (hne : x.Nonzero) (hmin : x.MinimalRanks)
    {f : List ℕ → ℝ} (hf : x.TangentVector f) : x'.TangentVector f :=
  tangent_of_minimal h h' hb (hs.2.1.trans hb) hs.1 (hs.dense h h') hmin hne hf

/-- **C89.** `project(what, where)` represents the same tensors for all representations of `what`, and for all representations of `where` with minimal
TT-ranks. -/
theorem C89_project (hqr : qr.Correct) (hqr' : qr'.Correct) {x x' z z' : TT ℝ} (h : x.WF) (h' : x'.WF) (hb : x.batch = none) (hm : x.ModesPos)
    (hd : 2 ≤ x.ndims) (hs : SameTensors x x') (hne : x.Nonzero) (hmin : x.MinimalRanks) (hmin' : x'.MinimalRanks) (hz : z.WF) (hz' : z'.WF)
    (hr : z.rawShape = x.rawShape) (hsz : SameTensors z z') :
    ∃ y y', project qr z x = Except.ok y ∧ project qr' z' x' = Except.ok y' ∧ SameTensors y y' := by
  have hb' : x'.batch = none := hs.2.1.trans hb
  have he := hs.dense h h'
  have hn : x'.ndims = x.ndims := ndims_of_rows h' h hs.1
  obtain ⟨T, _, hT, hP⟩ := project_space hqr h hb hm hd
  obtain ⟨T', _, hT', hP'⟩ := project_space hqr' h' hb' (modesPos_of_raw hm hs.1) (by omega)
  obtain ⟨y, Y, Z, e, w, rs, bt, rk, eY, eZ, sh, sZ, hv⟩ := hP z hz hr
  obtain ⟨y', Y', Z', e', w', rs', bt', rk', eY', eZ', sh', sZ', hv'⟩ := hP' z' hz' (hsz.1.trans (hr.trans hs.1.symm))
  have hTT : T' = T := Submodule.ext fun f => (hT' hmin' (Nonzero.transfer hne he) f).trans ((C89_tangent h h' hb hs hne hmin hmin' f).symm.trans (hT hmin hne f).symm)
  subst hTT
  obtain ⟨rz, bz, F, F', eF, eF', qF, vF⟩ := hsz
  obtain rfl : F = Z := Except.ok.inj (eF.symm.trans eZ)
  obtain rfl : F' = Z' := Except.ok.inj (eF'.symm.trans eZ')
  have hp : z'.bpre = z.bpre := by simp [TT.bpre, bz]
  rw [hp, hs.1] at sZ'
  rw [hp, hs.1] at hv'
  refine ⟨y, y', e, e', rs'.trans (hs.1.trans rs.symm), bt'.trans (bz.trans bt.symm), Y, Y', eY, eY', by rw [sh, sh', qF], fun i hi => ?_⟩
  rw [sh', sZ'] at hi
  obtain ⟨p, i, rfl, hp, hi⟩ := valid_append_iff.1 hi
  refine proj_unique (z := fun i => F'.get (p ++ i)) (hv' p hp).1 (hv p hp).1 (hv' p hp).2 (fun f hf => ?_) i hi
  rw [dot_congr (f' := fun i => F.get (p ++ i) - Y.get (p ++ i)) (g' := f) (fun i hi => ?_) (fun _ _ => rfl)]
  · exact (hv p hp).2 f hf
  · rw [vF (p ++ i) (by rw [sZ']; exact valid_append_iff.2 ⟨_, _, rfl, hp, hi⟩)]

/-- C89: with larger TT-ranks of `where` the projection is at least as close to `what` as with minimal TT-ranks. `s` is the shape of the tensors. -/
theorem C89_project_closer (hqr : qr.Correct) (hqr' : qr'.Correct) {x x' z : TT ℝ} (h : x.WF) (h' : x'.WF) (hb : x.batch = none) (hm : x.ModesPos)
    (hd : 2 ≤ x.ndims) (hs : SameTensors x x') (hne : x.Nonzero) (hmin : x.MinimalRanks) (hz : z.WF) (hr : z.rawShape = x.rawShape) :
    ∃ y y' Y Y' Z s, project qr z x = Except.ok y ∧ project qr' z x' = Except.ok y' ∧ full y = Except.ok Y ∧ full y' = Except.ok Y' ∧
      full z = Except.ok Z ∧ Z.shape = z.bpre ++ s ∧ Y.shape = z.bpre ++ s ∧ Y'.shape = z.bpre ++ s ∧
      ∀ p, Valid z.bpre p → Z.distSq Y' p s ≤ Z.distSq Y p s := by
  have hb' : x'.batch = none := hs.2.1.trans hb
  have he := hs.dense h h'
  have hn : x'.ndims = x.ndims := ndims_of_rows h' h hs.1
  obtain ⟨T, _, hT, hP⟩ := project_space hqr h hb hm hd
  obtain ⟨y, Y, Z, e, w, rs, bt, rk, eY, eZ, sh, sZ, hv⟩ := hP z hz hr
  obtain ⟨left, right, hF, F⟩ := tangentFrame_ok hqr' h' hb' (modesPos_of_raw hm hs.1)
  obtain ⟨y', Y', Z', e', w', rs', bt', rk', eY', eZ', sh', sZ', hv'⟩ := project_frame h' hb' (by omega) hF F hz (hr.trans hs.1.symm)
  obtain rfl : Z' = Z := Except.ok.inj (eZ'.symm.trans eZ)
  refine ⟨y, y', Y, Y', Z', restShape x.rawShape, e, e', eY, eY', eZ, sZ, by rw [sh, sZ], by rw [sh', sZ], fun p hp => ?_⟩
  obtain ⟨a1, a2⟩ := hv' p hp
  rw [hs.1] at a2
  have hf : (fun i => Y.get (p ++ i)) ∈ frameSpace x' left right :=
    frame_of_minimal h h' hb hb' hs.1 he hmin hne F ((hT hmin hne _).1 (hv p hp).1)
  have c := a2 _ ((frameSpace x' left right).sub_mem a1 hf)
  have key : Z'.distSq Y p (restShape x.rawShape) = Z'.distSq Y' p (restShape x.rawShape) +
      2 * dot (restShape x.rawShape) (fun i => Z'.get (p ++ i) - Y'.get (p ++ i)) ((fun i => Y'.get (p ++ i)) - fun i => Y.get (p ++ i)) +
      dot (restShape x.rawShape) ((fun i => Y'.get (p ++ i)) - fun i => Y.get (p ++ i)) ((fun i => Y'.get (p ++ i)) - fun i => Y.get (p ++ i)) := by
    unfold dot Tensor.distSq
    rw [Finset.mul_sum, ← Finset.sum_add_distrib, ← Finset.sum_add_distrib]
    refine Finset.sum_congr rfl fun n _ => ?_
    simp only [Pi.sub_apply]
    ring
  rw [key, c]
  have := dot_self_nonneg (s := restShape x.rawShape) ((fun i => Y'.get (p ++ i)) - fun i => Y.get (p ++ i))
  linarith

/-- **C89.** If the best approximations are unique, `round` gives the same tensors for all representations, whatever their TT-ranks. -/
theorem C89_round (hqr : qr.Correct) (hqr' : qr'.Correct) {svd svd' : SVDRoutine} (hsvd : svd.Correct) (hsvd' : svd'.Correct)
    {t t' : TT ℝ} (h : t.WF) (h' : t'.WF) (hm : t.ModesPos) (hst : SameTensors t t') {m : MaxRank} {b : ℕ → ℕ} (hb : m.Bounds t.ndims b)
    (hbatch : t.isBatch → m.Single) {eps eps' : Option ℝ} (he : ∀ e ∈ eps, 0 ≤ e) (he' : ∀ e ∈ eps', 0 ≤ e) {T : Tensor ℝ} {s : List ℕ}
    (eT : full t = Except.ok T) (sT : T.shape = t.bpre ++ s)
    (hu : ∀ p, Valid t.bpre p → NoTies t.rawShape s b (List.range' 1 (t.ndims - 1)).reverse fun i => T.get (p ++ i)) :
    ∃ x x', ttRound qr svd t m eps = Except.ok x ∧ ttRound qr' svd' t' m eps' = Except.ok x' ∧ SameTensors x x' := by
  obtain ⟨hr, hbt, F, F', eF, eF', qF, vF⟩ := hst
  have hn : t'.ndims = t.ndims := ndims_of_rows h' h hr
  have hp : t'.bpre = t.bpre := by simp [TT.bpre, hbt]
  have hib : t'.isBatch → m.Single := fun hh => hbatch (by unfold TT.isBatch at hh ⊢; rwa [hbt] at hh)
  obtain ⟨x, e, w, rs, bt, -⟩ := ttRound_truncated hqr hsvd h hm hb hbatch he
  obtain ⟨x', e', w', rs', bt', -⟩ := ttRound_truncated hqr' hsvd' h' (modesPos_of_raw hm hr) (by rw [hn]; exact hb) hib he'
  obtain ⟨x1, T1, X, s1, e1, eT1, eX, sT1, sX, ht⟩ := C70_round_steps hqr hsvd h hm hb hbatch he
  obtain ⟨x2, T2, X', s2, e2, eT2, eX', sT2, sX', ht'⟩ := C70_round_steps hqr' hsvd' h' (modesPos_of_raw hm hr) (by rw [hn]; exact hb) hib he'
  obtain rfl : x1 = x := Except.ok.inj (e1.symm.trans e)
  obtain rfl : x2 = x' := Except.ok.inj (e2.symm.trans e')
  obtain rfl : F = T := Except.ok.inj (eF.symm.trans eT)
  obtain rfl : T1 = F := Except.ok.inj (eT1.symm.trans eT)
  obtain rfl : T2 = F' := Except.ok.inj (eT2.symm.trans eF')
  obtain rfl : s1 = s := List.append_cancel_left (sT1.symm.trans sT)
  rw [hp] at sT2 sX' ht'
  obtain rfl : s2 = s1 := by
    rw [sT2, sT1] at qF
    exact List.append_cancel_left qF
  obtain ⟨T3, eT3, sT3, -⟩ := full_ok h
  obtain rfl : T3 = T1 := Except.ok.inj (eT3.symm.trans eT)
  obtain rfl : s2 = restShape t.rawShape := List.append_cancel_left (sT1.symm.trans sT3)
  refine ⟨x1, x2, e, e', rs'.trans (hr.trans rs.symm), bt'.trans (hbt.trans bt.symm), X, X', eX, eX', by rw [sX, sX'], fun i hi => ?_⟩
  rw [sX'] at hi
  obtain ⟨p, i, rfl, hp, hi⟩ := valid_append_iff.1 hi
  have k := ht' p hp
  rw [hr, hn] at k
  exact (hu p hp).unique (ht p hp) (truncated_congr (fun i hi => vF _ (by rw [sT2]; exact valid_append_iff.2 ⟨_, _, rfl, hp, hi⟩)) (fun _ _ => rfl) k) i hi

end

/-! ## Larger TT-ranks change the projection -/

/-- The tensor with the entry one at the position (0, 0) and zeros elsewhere, with TT-rank one. -/
def exUnit1 : TT ℤ where
  cores := [.ofList [1, 2, 1] [1, 0], .ofList [1, 2, 1] [1, 0]]
  rawShape := [[2, 2]]
  ttRanks := [1, 1, 1]
  batch := none

/-- The same tensor with TT-rank two. -/
def exUnit2 : TT ℤ where
  cores := [.ofList [1, 2, 2] [1, 0, 0, 0], .ofList [2, 2, 1] [1, 0, 0, 0]]
  rawShape := [[2, 2]]
  ttRanks := [1, 2, 1]
  batch := none

theorem exUnit1_wf : exUnit1.toReal.WF := TT.WF.toReal (by decide)
theorem exUnit2_wf : exUnit2.toReal.WF := TT.WF.toReal (by decide)

theorem exUnit1_entry (i j : ℕ) (hi : i < 2) (hj : j < 2) : exUnit1.toReal.entry [] (tIdx [i, j]) = if i = 0 ∧ j = 0 then 1 else 0 := by
  interval_cases i <;> interval_cases j <;>
    simp [TT.entry, TT.toReal, exUnit1, TT.ndims, lprod, TT.slice, TT.core, TT.rank, tIdx, Tensor.map, Tensor.ofList, ravel]

theorem exUnit2_entry (i j : ℕ) (hi : i < 2) (hj : j < 2) : exUnit2.toReal.entry [] (tIdx [i, j]) = if i = 0 ∧ j = 0 then 1 else 0 := by
  interval_cases i <;> interval_cases j <;>
    simp [TT.entry, TT.toReal, exUnit2, TT.ndims, lprod, TT.slice, TT.core, TT.rank, tIdx, Tensor.map, Tensor.ofList, ravel, Finset.sum_range_succ]

theorem sameTensors_two {x x' : TT ℝ} (h : x.WF) (h' : x'.WF) (hr : x.rawShape = [[2, 2]]) (hr' : x'.rawShape = [[2, 2]]) (hb : x.batch = none)
    (hb' : x'.batch = none) (he : ∀ i < 2, ∀ j < 2, x'.entry [] (tIdx [i, j]) = x.entry [] (tIdx [i, j])) : SameTensors x x' := by
  obtain ⟨F, eF, sF, vF⟩ := full_single h hb
  obtain ⟨F', eF', sF', vF'⟩ := full_single h' hb'
  rw [hr] at sF vF
  rw [hr'] at sF' vF'
  refine ⟨hr'.trans hr.symm, hb'.trans hb.symm, F, F', eF, eF', by rw [sF, sF'], fun i hi => ?_⟩
  rw [sF'] at hi
  rw [vF i hi, vF' i hi]
  match i, hi with
  | [i, j], ⟨hi, hj, _⟩ => exact he i hi j hj

theorem exUnit_same : SameTensors exUnit1.toReal exUnit2.toReal :=
  sameTensors_two exUnit1_wf exUnit2_wf rfl rfl rfl rfl fun i hi j hj => by rw [exUnit1_entry i j hi hj, exUnit2_entry i j hi hj]

theorem exUnit1_minimal : exUnit1.toReal.MinimalRanks := by
  intro s hs hb hr he k hk
  have hn : s.ndims = 2 := ndims_of_rows hs exUnit1_wf hr
  have hk : k ≤ 2 := hk
  have := hs.rank_pos k (by omega)
  interval_cases k <;> exact this

theorem exUnit1_nonzero : exUnit1.toReal.Nonzero := by
  refine ⟨[0, 0], ?_, ?_⟩
  · rw [dense_shape_single rfl]; exact ⟨by decide, by decide, trivial⟩
  · have := dense_get exUnit1.toReal [] [0, 0] rfl
    rw [List.nil_append] at this
    rw [this]
    show exUnit1.toReal.entry [] (tIdx [0, 0]) ≠ 0
    rw [exUnit1_entry 0 0 (by omega) (by omega)]
    simp

/-- Square matrices with orthonormal columns have orthonormal rows. -/
theorem orth_two {L : ℕ → ℕ → ℝ} (h : ∀ b < 2, ∀ b' < 2, ∑ n ∈ Finset.range 2, L n b * L n b' = if b = b' then 1 else 0) {i i' : ℕ} (hi : i < 2) (hi' : i' < 2) :
    ∑ b ∈ Finset.range 2, L i b * L i' b = if i = i' then 1 else 0 := by
  let M : Matrix (Fin 2) (Fin 2) ℝ := Matrix.of fun i j => L i j
  have h1 : M.transpose * M = 1 := by
    ext a b
    have := h a a.2 b b.2
    rw [← Fin.sum_univ_eq_sum_range (fun n => L n a * L n b) 2] at this
    refine (Matrix.mul_apply ..).trans (this.trans ?_)
    simp [Matrix.one_apply, Fin.ext_iff]
  have h2 : M * M.transpose = 1 := mul_eq_one_comm.1 h1
  have := congrFun (congrFun h2 ⟨i, hi⟩) ⟨i', hi'⟩
  rw [Matrix.mul_apply] at this
  rw [← Fin.sum_univ_eq_sum_range (fun n => L i n * L i' n) 2]
  refine Eq.trans ?_ (this.trans ?_)
  · rfl
  · simp [Matrix.one_apply, Fin.ext_iff]

/-- C89: minimal TT-ranks are needed. The projections of the tensor with a one at (1, 1) on the tangent spaces at two representations of the tensor with a
one at (0, 0), one with TT-rank one and one with TT-rank two, differ: the first is zero and the second is the projected tensor itself. -/
theorem C89_project_nonminimal {qr : QRRoutine} (hqr : qr.Correct) : ∃ (x x' z y y' : TT ℝ) (Y Y' : Tensor ℝ), x.WF ∧ x'.WF ∧ SameTensors x x' ∧ z.WF ∧
    z.rawShape = x.rawShape ∧ project qr z x = Except.ok y ∧ project qr z x' = Except.ok y' ∧ full y = Except.ok Y ∧ full y' = Except.ok Y' ∧
    Y.shape = [2, 2] ∧ Y'.shape = [2, 2] ∧ Y.get [1, 1] = 0 ∧ Y'.get [1, 1] = 1 := by
  have m1 : exUnit1.toReal.ModesPos := by simp [TT.ModesPos, TT.toReal, exUnit1]
  have m2 : exUnit2.toReal.ModesPos := by simp [TT.ModesPos, TT.toReal, exUnit2]
  obtain ⟨y, Y, Z, e, -, -, -, -, eY, eZ, sh, hv⟩ := C37_project hqr exUnit1_wf rfl m1 le_rfl exUnit1_minimal exUnit1_nonzero exCorner2_wf rfl
  obtain ⟨left, right, eF, F⟩ := tangentFrame_ok hqr exUnit2_wf rfl m2
  obtain ⟨y', Y', Z', e', -, -, -, -, eY', eZ', sh', sZ', hv'⟩ := project_frame exUnit2_wf rfl le_rfl eF F exCorner2_wf rfl
  obtain rfl : Z' = Z := Except.ok.inj (eZ'.symm.trans eZ)
  have sZ : Z'.shape = [2, 2] := sZ'
  refine ⟨_, _, _, y, y', Y, Y', exUnit1_wf, exUnit2_wf, exUnit_same, exCorner2_wf, rfl, e, e', eY, eY', by rw [sh, sZ], by rw [sh', sZ], ?_, ?_⟩
  · obtain ⟨⟨D, hD⟩, -⟩ := hv [] trivial
    have h1 := hD [1, 1] (by rw [dense_shape_single rfl]; exact ⟨by decide, by decide, trivial⟩)
    refine h1.trans ?_
    rw [show exUnit1.toReal.ndims = 2 from rfl, Finset.sum_range_succ, Finset.sum_range_one, replaceCore_eq exUnit1_wf rfl _ _ (by decide),
      replaceCore_eq exUnit1_wf rfl _ _ (by decide)]
    show (∑ a ∈ Finset.range 1, ∑ b ∈ Finset.range 1, _ ) + (∑ a ∈ Finset.range 1, ∑ b ∈ Finset.range 1, _ ) = (0 : ℝ)
    simp [TT.toReal, exUnit1, TT.ndims, lprod, rprod, TT.slice, TT.core, TT.rank, restModes, tIdx, Tensor.map, Tensor.ofList, ravel]
  · obtain ⟨hy, ho⟩ := hv' [] trivial
    have l0 := F.wl.rank_first
    have l1 : left.rank 1 = 2 := (F.kl 1 (by decide)).trans (by decide)
    have r2 : right.rank 2 = 1 := F.rd
    have hort : ∀ b < 2, ∀ b' < 2, ∑ n ∈ Finset.range 2, (left.core 0).get [0, n, b] * (left.core 0).get [0, n, b'] = if b = b' then 1 else 0 := by
      intro b hb b' hb'
      have := F.lo 0 (by decide) b (by rw [l1]; exact hb) b' (by rw [l1]; exact hb')
      rw [l0, Finset.sum_range_one] at this
      refine Eq.trans ?_ this
      refine Finset.sum_congr rfl fun n hn => ?_
      unfold TT.fl
      rw [F.ml]
      have hn : n < 2 := Finset.mem_range.1 hn
      interval_cases n <;> rfl
    have hZ : Z'.get ∈ frameSpace exUnit2.toReal left right := by
      refine ⟨fun k m a _ => if k = 1 then ∑ i ∈ Finset.range 2, (left.core 0).get [0, i, a] * Z'.get [i, m.getD 0 0] else 0, fun i hi => ?_⟩
      match i, hi with
      | [i, j], ⟨hi, hj, _⟩ =>
        have hi : i < 2 := hi
        show _ = frameVec exUnit2.toReal left right _ (tIdx [i, j])
        rw [frameVec, show exUnit2.toReal.ndims = 2 from rfl, Finset.sum_range_succ, Finset.sum_range_one]
        simp only [if_neg (show ¬ (0 : ℕ) = 1 by omega), mul_zero, zero_mul, Finset.sum_const_zero, zero_add, if_true, l1, r2, Finset.sum_range_one, rprod,
          Nat.reduceAdd, Nat.reduceSub, mul_one]
        have hl : ∀ a, lprod left.rank (left.slice [] (tIdx [i, j])) 1 a = (left.core 0).get [0, i, a] := by
          intro a
          simp [lprod, l0, TT.slice, tIdx]
        simp only [hl, Finset.mul_sum]
        rw [Finset.sum_comm]
        have : ∀ i' ∈ Finset.range 2, ∑ a ∈ Finset.range 2, (left.core 0).get [0, i, a] * ((left.core 0).get [0, i', a] * Z'.get [i', (tIdx [i, j] 1).getD 0 0]) =
            if i' = i then Z'.get [i, j] else 0 := by
          intro i' hi'
          have := orth_two (L := fun n b => (left.core 0).get [0, n, b]) hort hi (Finset.mem_range.1 hi')
          simp only [← mul_assoc, ← Finset.sum_mul]
          rw [this]
          by_cases h : i' = i
          · subst h; simp [tIdx]
          · rw [if_neg h, if_neg (fun h' => h h'.symm), zero_mul]
        rw [Finset.sum_congr rfl this, Finset.sum_ite_eq', if_pos (Finset.mem_range.2 hi)]
    have := proj_unique (z := Z'.get) hy hZ ho (fun f _ => by unfold dot; simp) [1, 1] ⟨by decide, by decide, trivial⟩
    refine this.trans ?_
    obtain ⟨Z2, eZ2, -, vZ⟩ := full_single exCorner2_wf rfl
    obtain rfl : Z2 = Z' := Except.ok.inj (eZ2.symm.trans eZ)
    rw [vZ [1, 1] ⟨by decide, by decide, trivial⟩]
    show TT.entry _ [] (tIdx [1, 1]) = _
    simp [TT.entry, TT.toReal, exCorner2, TT.ndims, lprod, TT.slice, TT.core, TT.rank, tIdx, Tensor.map]

/-! ## Examples -/

/-- Other cores of the identity matrix of size two. -/
def exEye2b : TT ℤ where
  cores := [.ofList [1, 2, 2] [1, 1, 0, 1], .ofList [2, 2, 1] [1, -1, 0, 1]]
  rawShape := [[2, 2]]
  ttRanks := [1, 2, 1]
  batch := none

/-- Other cores of the batch `exPair2`. -/
def exPair2b : TT ℤ where
  cores := [.ofList [2, 1, 2, 1] [-1, -2, -3, -4], .ofList [2, 1, 2, 1] [-5, -6, -7, -8]]
  rawShape := [[2, 2]]
  ttRanks := [1, 1, 1]
  batch := some 2

theorem exEye2b_wf : exEye2b.toReal.WF := TT.WF.toReal (by decide)
theorem exPair2b_wf : exPair2b.toReal.WF := TT.WF.toReal (by decide)

theorem exEye2_same : SameTensors exEye2.toReal exEye2b.toReal := by
  refine sameTensors_two exEye2_wf exEye2b_wf rfl rfl rfl rfl fun i hi j hj => ?_
  interval_cases i <;> interval_cases j <;>
    simp [TT.entry, TT.toReal, exEye2, exEye2b, TT.ndims, lprod, TT.slice, TT.core, TT.rank, tIdx, Tensor.map, Tensor.ofList, ravel, Finset.sum_range_succ]

theorem exPair2_same : SameTensors exPair2.toReal exPair2b.toReal := by
  obtain ⟨F, eF, sF, vF⟩ := full_ok exPair2_wf
  obtain ⟨F', eF', sF', vF'⟩ := full_ok exPair2b_wf
  refine ⟨rfl, rfl, F, F', eF, eF', by rw [sF, sF']; rfl, fun i hi => ?_⟩
  rw [sF'] at hi
  obtain ⟨p, m, rfl, hp, hm⟩ := valid_append_iff.1 hi
  rw [vF p m hp hm, vF' p m hp hm]
  obtain ⟨k, rfl, hk⟩ := (valid_singleton 2 _).1 hp
  match m, hm with
  | [i, j], ⟨hi, hj, _⟩ =>
    have hi : i < 2 := hi
    have hj : j < 2 := hj
    show exPair2b.toReal.entry [k] (tIdx [i, j]) = exPair2.toReal.entry [k] (tIdx [i, j])
    interval_cases k <;> interval_cases i <;> interval_cases j <;>
      simp [TT.entry, TT.toReal, exPair2, exPair2b, TT.ndims, lprod, TT.slice, TT.core, TT.rank, tIdx, Tensor.map, Tensor.ofList, ravel]

theorem exEye2b_minimal : exEye2b.toReal.MinimalRanks :=
  MinimalRanks.transfer exEye2_minimal rfl rfl (exEye2_same.dense exEye2_wf exEye2b_wf) fun _ _ => le_of_eq rfl

example : exEye2.toReal.WF ∧ exEye2b.toReal.WF ∧ exEye2.toReal.batch = none ∧ exEye2.toReal.ModesPos ∧ 2 ≤ exEye2.toReal.ndims ∧
    SameTensors exEye2.toReal exEye2b.toReal ∧ exEye2.toReal.cores ≠ exEye2b.toReal.cores ∧ exEye2.toReal.Nonzero ∧ exEye2.toReal.MinimalRanks ∧
    exEye2b.toReal.MinimalRanks ∧ exPair2.toReal.WF ∧ exPair2b.toReal.WF ∧ exPair2.toReal.rawShape = exEye2.toReal.rawShape ∧
    SameTensors exPair2.toReal exPair2b.toReal ∧ BCompat exPair2.toReal.batch exEye2.toReal.batch ∧ ∃ qr : QRRoutine, qr.Correct :=
  ⟨exEye2_wf, exEye2b_wf, rfl, by simp [TT.ModesPos, TT.toReal, exEye2], le_rfl, exEye2_same, fun h => by
      have := congrArg (fun c : List (Tensor ℝ) => (c.getD 0 ⟨[], fun _ => 0⟩).get [0, 0, 1]) h
      simp [TT.toReal, exEye2, exEye2b, Tensor.map, Tensor.ofList, ravel] at this,
    exEye2_nonzero, exEye2_minimal, exEye2b_minimal, exPair2_wf, exPair2b_wf, rfl, exPair2_same, trivial, qrRoutine_exists⟩

example : exUnit1.toReal.WF ∧ exUnit2.toReal.WF ∧ exUnit1.toReal.batch = none ∧ exUnit1.toReal.ModesPos ∧ SameTensors exUnit1.toReal exUnit2.toReal ∧
    exUnit1.toReal.Nonzero ∧ exUnit1.toReal.MinimalRanks ∧ ¬ exUnit2.toReal.MinimalRanks ∧ exPair2.toReal.rawShape = exUnit1.toReal.rawShape :=
  ⟨exUnit1_wf, exUnit2_wf, rfl, by simp [TT.ModesPos, TT.toReal, exUnit1], exUnit_same, exUnit1_nonzero, exUnit1_minimal, fun h => by
      have := h exUnit1.toReal exUnit1_wf rfl rfl (exUnit_same.dense exUnit1_wf exUnit2_wf).symm 1 (by decide)
      exact absurd this (by decide), rfl⟩

example : (Expr.mul (.orthogonalize true (.obj exPair2.toReal)) (.sub (.obj exEye2.toReal) (.obj exUnit1.toReal))).SameLeaves
      (.mul (.orthogonalize true (.obj exPair2b.toReal)) (.sub (.obj exEye2b.toReal) (.obj exUnit2.toReal))) ∧
    (Expr.mul (.orthogonalize true (.obj exPair2.toReal)) (.sub (.obj exEye2.toReal) (.obj exUnit1.toReal))).Ok ∧
    (Expr.mul (.orthogonalize true (.obj exPair2b.toReal)) (.sub (.obj exEye2b.toReal) (.obj exUnit2.toReal))).Ok :=
  ⟨.mul (.orthogonalize true (.obj exPair2_same)) (.sub (.obj exEye2_same) (.obj exUnit_same)),
    ⟨⟨exPair2_wf, by simp [TT.ModesPos, TT.toReal, exPair2]⟩, ⟨exEye2_wf, by simp [TT.ModesPos, TT.toReal, exEye2]⟩,
      exUnit1_wf, by simp [TT.ModesPos, TT.toReal, exUnit1]⟩,
    ⟨⟨exPair2b_wf, by simp [TT.ModesPos, TT.toReal, exPair2b]⟩, ⟨exEye2b_wf, by simp [TT.ModesPos, TT.toReal, exEye2b]⟩,
      exUnit2_wf, by simp [TT.ModesPos, TT.toReal, exUnit2]⟩⟩

example : (∃ qr : QRRoutine, qr.Correct) ∧ (∃ svd : SVDRoutine, svd.Correct) ∧ exUnit1.toReal.WF ∧ exUnit2.toReal.WF ∧ exUnit1.toReal.ModesPos ∧
    SameTensors exUnit1.toReal exUnit2.toReal ∧ (MaxRank.num 1).Bounds exUnit1.toReal.ndims (fun _ => 1) ∧
    (exUnit1.toReal.isBatch → (MaxRank.num 1).Single) ∧ ∃ T s, full exUnit1.toReal = Except.ok T ∧ T.shape = exUnit1.toReal.bpre ++ s ∧
      ∀ p, Valid exUnit1.toReal.bpre p →
        NoTies exUnit1.toReal.rawShape s (fun _ => 1) (List.range' 1 (exUnit1.toReal.ndims - 1)).reverse fun i => T.get (p ++ i) := by
  obtain ⟨T, eT, sT, vT⟩ := full_single exUnit1_wf rfl
  refine ⟨qrRoutine_exists, svdRoutine_exists, exUnit1_wf, exUnit2_wf, by simp [TT.ModesPos, TT.toReal, exUnit1], exUnit_same,
    Or.inl ⟨1, by omega, Or.inl rfl, fun _ => rfl⟩, by simp [TT.isBatch, TT.toReal, exUnit1], T, _, eT, sT, fun p hp => ?_⟩
  obtain rfl : p = [] := by
    have := hp.length_eq
    simpa [TT.bpre, TT.toReal, exUnit1] using this
  exact noTies_congr (fun i hi => (vT i hi).symm) (noTies_of_hasTT (hasTT_iff.2 ⟨exUnit1.toReal, exUnit1_wf, rfl, rfl,
    fun k _ hk => (show ∀ k ≤ exUnit1.ndims, exUnit1.rank k ≤ 1 by decide) k hk.le, fun _ _ => rfl⟩))

end T3f
