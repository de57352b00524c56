import Verif.Proofs.TangentSpace

/-! # Properties of the projection -/

namespace T3f

section dot
variable {s : List ℕ}

theorem dot_congr {f f' g g' : List ℕ → ℝ} (hf : ∀ i, Valid s i → f i = f' i) (hg : ∀ i, Valid s i → g i = g' i) : dot s f g = dot s f' g' :=
  Finset.sum_congr rfl fun n hn => by
    have := unravel_valid (Finset.mem_range.1 hn)
    rw [hf _ this, hg _ this]

theorem dot_comm (f g : List ℕ → ℝ) : dot s f g = dot s g f := Finset.sum_congr rfl fun _ _ => mul_comm _ _

theorem dot_sub (f g h : List ℕ → ℝ) : dot s (fun i => f i - g i) h = dot s f h - dot s g h := by
  unfold dot
  rw [← Finset.sum_sub_distrib]
  exact Finset.sum_congr rfl fun _ _ => sub_mul _ _ _

theorem dot_self {f : List ℕ → ℝ} (h : dot s f f = 0) : ∀ i, Valid s i → f i = 0 := by
  intro i hi
  have := (Finset.sum_eq_zero_iff_of_nonneg (fun n _ => mul_self_nonneg (f (unravel s n)))).1 h (ravel s i) (Finset.mem_range.2 (ravel_lt hi))
  rw [unravel_ravel hi] at this
  exact mul_self_eq_zero.1 this

theorem dot_self_nonneg (f : List ℕ → ℝ) : 0 ≤ dot s f f := Finset.sum_nonneg fun _ _ => mul_self_nonneg _

/-- Uniqueness of the orthogonal projection. -/
theorem proj_unique {T : Submodule ℝ (List ℕ → ℝ)} {z u v : List ℕ → ℝ} (hu : u ∈ T) (hv : v ∈ T)
    (ou : ∀ f ∈ T, dot s (fun i => z i - u i) f = 0) (ov : ∀ f ∈ T, dot s (fun i => z i - v i) f = 0) : ∀ i, Valid s i → u i = v i := by
  have hd : (fun i => u i - v i) ∈ T := T.sub_mem hu hv
  have h1 := ou _ hd
  have h2 := ov _ hd
  rw [dot_sub] at h1 h2
  have h3 : dot s (fun i => u i - v i) (fun i => u i - v i) = 0 := by rw [dot_sub]; linarith
  intro i hi
  exact sub_eq_zero.1 (dot_self h3 i hi)

end dot

theorem mkTangent_bad_single (bs : Option ℕ) (c : Tensor ℝ) (M : List ℕ) (hM : M.length = 1 ∨ M.length = 2)
    (hs : c.shape = bs.toList ++ 1 :: (M ++ [2])) (rows : List (List ℕ)) (hr : rows = M.map fun x => [x]) :
    mkTangent bs [c] rows = Except.error Err.value := by
  have : ∃ n m, M = [n] ∨ M = [n, m] := by
    rcases hM with h | h
    · obtain ⟨n, rfl⟩ := List.length_eq_one_iff.1 h; exact ⟨n, 0, Or.inl rfl⟩
    · obtain ⟨n, m, rfl⟩ := List.length_eq_two.1 h; exact ⟨n, m, Or.inr rfl⟩
  subst hr
  obtain ⟨n, m, rfl | rfl⟩ := this <;> cases bs <;>
    simp [mkTangent, mkTT, mkBatch, cleanRawShape, coresValid, allRange, coreCheck, hs, andR, eqR, pyGet, pyLast]

/-- For one core the result is rejected by the constructor. -/
theorem assemble_single {x left right : TT ℝ} (F : TFrame x left right) (h : x.WF) (hd : x.ndims = 1) {isMat : Prop} [Decidable isMat]
    (hmat : isMat ↔ x.rawShape.length = 2) (out : Option ℕ) {D : Tensor ℝ}
    (hD : D.shape = out.toList ++ left.rank 0 :: (x.modes 0 ++ [right.rank 1])) (zs : R (List ℕ))
    {axL axR : ℕ} (hR : axR = out.toList.length + x.rawShape.length + 1) :
    ∃ elc erc C, extendCore isMat out (left.core 0) = Except.ok elc ∧ extendCore isMat out (right.core 0) = Except.ok erc ∧
      tangentCore axL axR x.ndims 0 zs elc erc D = Except.ok C ∧ mkTangent out [C] x.rawShape = Except.error Err.value := by
  obtain ⟨elc, e1, s1, v1⟩ := extendCore_ok F.wl F.bl (isMat := isMat) (by rw [F.rl]; exact hmat) out (k := 0) (by rw [F.nl]; omega)
  obtain ⟨erc, e2, s2, v2⟩ := extendCore_ok F.wr F.br (isMat := isMat) (by rw [F.rr]; exact hmat) out (k := 0) (by rw [F.nr]; omega)
  rw [F.ml] at s1
  have hl1 : left.rank 1 = 1 := by have := F.wl.rank_last; rwa [F.nl, hd] at this
  have hr1 : right.rank 1 = 1 := by have := F.rd; rwa [hd] at this
  rw [F.l0, hr1] at hD
  rw [F.l0, hl1] at s1
  have hML : (x.modes 0).length = x.rawShape.length := by simp [TT.modes]
  obtain ⟨C, ec, sc, -⟩ := concat_ok D elc (out.toList ++ 1 :: x.modes 0) [] 1 1 (by rw [hD]; simp) (by rw [s1]; simp) axR (by rw [hR]; simp [hML]; omega)
  refine ⟨elc, erc, C, e1, e2, ?_, ?_⟩
  · rw [tangentCore, if_pos rfl]; exact ec
  · refine mkTangent_bad_single out C (x.modes 0) (by rw [hML]; exact h.rows) (by rw [sc]; simp) _ ?_
    rw [h.rows_eq, hd]
    simp only [rowsOf, List.range_one, List.map_cons, List.map_nil]
    conv_rhs => rw [list_eq_range_map (x.modes 0) 0, hML, List.map_map]
    rfl

theorem project_one_dim {qr : QRRoutine} (hqr : qr.Correct) {x z : TT ℝ} (h : x.WF) (hm : x.ModesPos) (hd : x.ndims = 1) (hz : z.WF) :
    project qr z x = Except.error Err.value := by
  unfold project projectChecks
  by_cases hb : x.batch = none
  swap
  · rw [require_neg hb]; rfl
  by_cases hr : z.rawShape = x.rawShape
  swap
  · rw [require_pos hb, require_neg (fun e => hr e.symm)]; rfl
  obtain ⟨left, right, hF, F⟩ := tangentFrame_ok hqr h hb hm
  obtain ⟨w, n, ew, ww, bw, rw', kw, nw, hcase, hfl⟩ := expand_fl hz
  have P : PSetup x left right w n := ⟨F, h, ww, bw, rw'.trans hr, nw.trans (ndims_of_rows hz h hr)⟩
  obtain ⟨rhs, er, lr, hR⟩ := P.rhs_ok (by omega)
  obtain ⟨lhs, el, ll, hL⟩ := P.lhs_ok (by omega)
  have hbs : w.lazyBatchSize = Except.ok n := by simp [TT.lazyBatchSize, bw]
  have hk : 0 < x.ndims := by omega
  obtain ⟨E, e, s⟩ : ∃ E, projectBlock (modeLabels x) z.isBatch lhs rhs x.ndims 0 (w.core 0) (left.core 0) = Except.ok E ∧
      E.shape = z.batch.toList ++ left.rank 0 :: (x.modes 0 ++ [right.rank (0 + 1)]) := by
    obtain ⟨⟨E, e, s, v⟩, ⟨E', e', s', v'⟩⟩ := P.block_ok ll lr hL hR hk
    rcases hcase with ⟨hzb, rfl⟩ | ⟨hzb, rfl⟩
    · exact ⟨E, by rw [TT.isBatch, hzb]; exact e, by rw [hzb]; exact s⟩
    · exact ⟨E', by rw [TT.isBatch, hzb]; exact e', by rw [hzb]; exact s'⟩
  obtain ⟨axL, axR⟩ := rankDims z hz
  rw [hr] at axR
  obtain ⟨elc, erc, C, e1, e2, e3, e4⟩ := assemble_single F h hd (isMat := x.isMatrix) Iff.rfl z.batch s (zeroBlockShape x left right z.batch 0)
    (axL := z.leftRankDim) axR
  rw [require_pos hb, require_pos hr.symm, hF, ew]
  simp only [R.ok_bind, hbs, er, el]
  rw [show (mapRange x.ndims) = mapRange 1 by rw [hd]]
  rw [← e4]
  simp only [mapRange, List.range_one, List.mapM_cons, List.mapM_nil, bind_assoc, pure_bind]
  rw [P.cw hk, F.cl hk, F.cr hk]
  simp only [R.ok_bind, e, e1, e2, e3]

/-- `project` is the orthogonal projection on the space of the two orthogonalizations. -/
theorem project_frame {qr : QRRoutine} {x left right : TT ℝ} (h : x.WF) (hb : x.batch = none) (hd : 2 ≤ x.ndims)
    (hF : tangentFrame qr x = Except.ok (left, right)) (F : TFrame x left right) {z : TT ℝ} (hz : z.WF) (hr : z.rawShape = x.rawShape) :
    ∃ y Y Z, project qr z x = Except.ok y ∧ y.WF ∧ y.rawShape = x.rawShape ∧ y.batch = z.batch ∧
      (∀ k, 0 < k → k < x.ndims → y.rank k = right.rank k + left.rank k) ∧
      full y = Except.ok Y ∧ full z = Except.ok Z ∧ Y.shape = Z.shape ∧ Z.shape = z.bpre ++ restShape x.rawShape ∧
      ∀ p, Valid z.bpre p → (fun i => Y.get (p ++ i)) ∈ frameSpace x left right ∧
        ∀ f ∈ frameSpace x left right, dot (restShape x.rawShape) (fun i => Z.get (p ++ i) - Y.get (p ++ i)) f = 0 := by
  obtain ⟨y, D, e, T, hyb, hD⟩ := project_ok h hb hd hF F hz hr
  have hyr : y.rawShape = x.rawShape := T.rows.trans F.rl
  have hbp : y.bpre = z.bpre := by simp [TT.bpre, hyb]
  obtain ⟨Y, eY, sY, vY⟩ := full_ok T.wf
  obtain ⟨Z, eZ, sZ, vZ⟩ := full_ok hz
  rw [hyr, hbp] at vY sY
  rw [hr] at vZ sZ
  refine ⟨y, Y, Z, e, T.wf, hyr, hyb, fun k h1 h2 => ?_, eY, eZ, by rw [sY, sZ], sZ, fun p hp => ?_⟩
  · rw [T.rank k (by rw [F.nl]; omega), F.nl, addRk, if_neg (by omega)]
  · have hval : ∀ i, Valid (restShape x.rawShape) i → Y.get (p ++ i) =
        frameVec x left right (fun k v a b => (D k).get (p ++ a :: (v ++ [b]))) (restModes x.rawShape i) := fun i hi => by
      rw [vY p i hp hi, T.entry_vec F (by rw [hbp]; exact hp) (validModes_rest h hi)]
    refine ⟨⟨_, hval⟩, ?_⟩
    rintro f ⟨E, hE⟩
    rw [dot_sub, sub_eq_zero, dot_congr (fun i hi => vZ p i hp hi) hE, dot_congr hval hE]
    exact (frame_dot F h hz hr p (fun k hk m hm a ha b hb => hD k hk p hp m hm a ha b hb) E).symm

/-- `project` is the orthogonal projection on a space that depends on `x` only. -/
theorem project_space {qr : QRRoutine} (hqr : qr.Correct) {x : TT ℝ} (h : x.WF) (hb : x.batch = none) (hm : x.ModesPos) (hd : 2 ≤ x.ndims) :
    ∃ T : Submodule ℝ (List ℕ → ℝ), (fun i => x.entry [] (restModes x.rawShape i)) ∈ T ∧
      (x.MinimalRanks → x.Nonzero → ∀ f, f ∈ T ↔ x.TangentVector f) ∧
      ∀ z : TT ℝ, z.WF → z.rawShape = x.rawShape → ∃ y Y Z, project qr z x = Except.ok y ∧ y.WF ∧ y.rawShape = x.rawShape ∧ y.batch = z.batch ∧
        (∀ k, 0 < k → k < x.ndims → y.rank k ≤ 2 * x.rank k ∧ (x.MinimalRanks → y.rank k = 2 * x.rank k)) ∧
        full y = Except.ok Y ∧ full z = Except.ok Z ∧ Y.shape = Z.shape ∧ Z.shape = z.bpre ++ restShape x.rawShape ∧
        ∀ p, Valid z.bpre p → (fun i => Y.get (p ++ i)) ∈ T ∧
          ∀ f ∈ T, dot (restShape x.rawShape) (fun i => Z.get (p ++ i) - Y.get (p ++ i)) f = 0 := by
  obtain ⟨left, right, hF, F⟩ := tangentFrame_ok hqr h hb hm
  refine ⟨frameSpace x left right, frame_self F h, fun h1 h2 => frame_tangent F h hb h1 h2, fun z hz hr => ?_⟩
  obtain ⟨y, Y, Z, e, w, rs, b, rk, hv⟩ := project_frame h hb hd hF F hz hr
  refine ⟨y, Y, Z, e, w, rs, b, fun k h1 h2 => ?_, hv⟩
  have hk := rk k h1 h2
  have l1 := F.le_left h h2.le
  have l2 := F.le_right h h2.le
  refine ⟨by omega, fun hmin => ?_⟩
  have := F.rank_eq h hb hmin h2.le
  omega

theorem dense_shape_single {x : TT ℝ} (hb : x.batch = none) : x.dense.shape = restShape x.rawShape := by
  change x.bpre ++ restShape x.rawShape = _
  simp [TT.bpre, hb]

theorem full_single {x : TT ℝ} (h : x.WF) (hb : x.batch = none) : ∃ X, full x = Except.ok X ∧ X.shape = restShape x.rawShape ∧
    ∀ i, Valid (restShape x.rawShape) i → X.get i = x.entry [] (restModes x.rawShape i) := by
  obtain ⟨X, e, s, v⟩ := full_ok h
  have hp : x.bpre = [] := by simp [TT.bpre, hb]
  rw [hp] at s v
  exact ⟨X, e, s, fun i hi => v [] i trivial hi⟩

end T3f
