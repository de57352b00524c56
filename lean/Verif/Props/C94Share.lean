import Verif.Proofs.Keeps
import Verif.Props.C31Round
import Verif.Props.C33ToTT
import Verif.Props.C37Project

/-!
# C94: the share of the norm that rounding and decompositions keep

`X.normSq p s` is the squared Frobenius norm of the batch item `p`. A tensor of TT-ranks `r` that is rounded to TT-ranks `b` keeps at least the
fraction `∏ b_k / r_k` of its squared norm, whatever the tensor is. In particular the result is zero only if the argument is, so it is safe to
normalize after rounding.
-/

namespace T3f

/-- The fraction `∏ min(b_k, r_k) / r_k` over the inner TT-ranks of an object with `d` modes. -/
noncomputable def keptShare (b r : ℕ → ℕ) (d : ℕ) : ℝ := ∏ k ∈ Finset.Ico 1 d, ((min (b k) (r k) : ℕ) : ℝ) / r k

theorem keptShare_pos {b r : ℕ → ℕ} {d : ℕ} (hb : ∀ k, 0 < k → k < d → 0 < b k) (hr : ∀ k, 0 < k → k < d → 0 < r k) : 0 < keptShare b r d := by
  refine Finset.prod_pos fun k hk => ?_
  rw [Finset.mem_Ico] at hk
  have h1 := hb k (by omega) hk.2
  have h2 := hr k (by omega) hk.2
  have : 0 < min (b k) (r k) := lt_min h1 h2
  positivity

theorem MaxRank.Bounds.bound_pos {m : MaxRank} {d : ℕ} {b : ℕ → ℕ} (h : m.Bounds d b) {k : ℕ} (hk : k ≤ d) : 0 < b k := by
  obtain ⟨l, -, -, hlb, hp⟩ := maxRanks_ok h (eps := Option.none) (by simp)
  rw [← hlb k hk]; exact hp k hk

/-- **C94.** Let `S` be any tensor train of the tensor that `t` represents. `round` keeps at least the share of the squared norm that is determined
by the TT-ranks of `S` and the bounds, in every batch item. Equivalently the squared error is at most the rest. -/
theorem C94_round {qr : QRRoutine} (hqr : qr.Correct) {svd : SVDRoutine} (hsvd : svd.Correct) {t : TT ℝ} (h : t.WF) (hm : t.ModesPos)
    {m : MaxRank} {b : ℕ → ℕ} (hb : m.Bounds t.ndims b) (hbatch : t.isBatch → m.Single) {eps : Option ℝ} (he : ∀ e ∈ eps, 0 ≤ e)
    {S : TT ℝ} (hS : S.WF) (hrs : S.rawShape = t.rawShape) (hSb : S.batch = t.batch)
    {T F : Tensor ℝ} (hT : full t = Except.ok T) (hF : full S = Except.ok F) (hTF : F ≃ₜ T) :
    ∃ x X s, ttRound qr svd t m eps = Except.ok x ∧ full x = Except.ok X ∧ T.shape = t.bpre ++ s ∧ X.shape = t.bpre ++ s ∧
      ∀ p, Valid t.bpre p → keptShare b S.rank t.ndims * T.normSq p s ≤ X.normSq p s ∧
        T.distSq X p s ≤ (1 - keptShare b S.rank t.ndims) * T.normSq p s := by
  obtain ⟨x, T', X, s, e, eT, eX, sT, sX, hx⟩ := C32_error hqr hsvd h hm hb hbatch he
  obtain rfl : T' = T := Except.ok.inj (eT.symm.trans hT)
  obtain ⟨x', e', w, rs, bt, hk⟩ := ttRound_keeps hqr hsvd h hm hb hbatch he
  obtain rfl : x' = x := Except.ok.inj (e'.symm.trans e)
  obtain ⟨T'', eT'', sT', -⟩ := full_ok h
  obtain rfl : T'' = T' := Except.ok.inj (eT''.symm.trans eT)
  obtain rfl : s = restShape t.rawShape := List.append_cancel_left (sT.symm.trans sT')
  refine ⟨x', X, _, e, eX, sT, sX, fun p hp => ?_⟩
  have h0 : T''.distSq F p (restShape t.rawShape) = 0 := (distSq_zero sT (by rw [hTF.1, sT])).2 hTF p hp
  have h1 := hk p hp S hS hrs (by rw [← dense_dist h hS hrs hSb eT hF hp, h0])
  rw [← dense_dist h w rs bt eT eX hp, ← dense_norm h eT hp] at h1
  have h2 := (hx p hp).1
  unfold keptShare
  constructor <;> linarith

theorem exEye2_bounds : (MaxRank.num 1).Bounds exEye2.toReal.ndims fun _ => 1 := Or.inl ⟨1, by omega, Or.inl rfl, fun _ => rfl⟩

example : (∃ qr : QRRoutine, qr.Correct) ∧ (∃ svd : SVDRoutine, svd.Correct) ∧ exEye2.toReal.WF ∧ exEye2.toReal.ModesPos ∧
    (MaxRank.num 1).Bounds exEye2.toReal.ndims (fun _ => 1) ∧ (exEye2.toReal.isBatch → (MaxRank.num 1).Single) ∧
    keptShare (fun _ => 1) exEye2.toReal.rank exEye2.toReal.ndims = 1 / 2 :=
  ⟨qrRoutine_exists, svdRoutine_exists, exEye2_wf, by simp [TT.ModesPos, TT.toReal, exEye2], exEye2_bounds, by simp [TT.isBatch, TT.toReal, exEye2],
    by simp [keptShare, TT.rank, TT.ndims, TT.toReal, exEye2]⟩

theorem normSq_zero {X : Tensor ℝ} {p s : List ℕ} : X.normSq p s = 0 ↔ ∀ i, Valid s i → X.get (p ++ i) = 0 := by
  rw [Tensor.normSq, Finset.sum_eq_zero_iff_of_nonneg fun _ _ => sq_nonneg _]
  constructor
  · intro h i hi
    have := h _ (Finset.mem_range.2 (ravel_lt hi))
    rw [unravel_ravel hi] at this
    exact pow_eq_zero_iff two_ne_zero |>.1 this
  · intro h n hn
    rw [h _ (unravel_valid (Finset.mem_range.1 hn))]; simp

/-- **C94.** Rounding does not annihilate: a batch item of the result is zero exactly when that item of the argument is. Its norm is never larger. -/
theorem C94_nonzero {qr : QRRoutine} (hqr : qr.Correct) {svd : SVDRoutine} (hsvd : svd.Correct) {t : TT ℝ} (h : t.WF) (hm : t.ModesPos)
    {m : MaxRank} {b : ℕ → ℕ} (hb : m.Bounds t.ndims b) (hbatch : t.isBatch → m.Single) {eps : Option ℝ} (he : ∀ e ∈ eps, 0 ≤ e) :
    ∃ x T X s, ttRound qr svd t m eps = Except.ok x ∧ full t = Except.ok T ∧ full x = Except.ok X ∧ T.shape = t.bpre ++ s ∧ X.shape = t.bpre ++ s ∧
      ∀ p, Valid t.bpre p → X.normSq p s ≤ T.normSq p s ∧
        ((∀ i, Valid s i → X.get (p ++ i) = 0) ↔ ∀ i, Valid s i → T.get (p ++ i) = 0) := by
  obtain ⟨T, eT, -⟩ := full_ok h
  obtain ⟨x, X, s, e, eX, sT, sX, hx⟩ := C94_round hqr hsvd h hm hb hbatch he h rfl rfl eT eT ⟨rfl, fun _ _ => rfl⟩
  obtain ⟨x', T', X', s', e', eT', eX', sT', -, hx'⟩ := C32_error hqr hsvd h hm hb hbatch he
  obtain rfl : x' = x := Except.ok.inj (e'.symm.trans e)
  obtain rfl : T' = T := Except.ok.inj (eT'.symm.trans eT)
  obtain rfl : X' = X := Except.ok.inj (eX'.symm.trans eX)
  obtain rfl : s' = s := List.append_cancel_left (sT'.symm.trans sT)
  refine ⟨x', T', X', s', e, eT, eX, sT, sX, fun p hp => ?_⟩
  have hle : X'.normSq p s' ≤ T'.normSq p s' := by
    have h1 := (hx' p hp).1
    have h2 : 0 ≤ T'.distSq X' p s' := Finset.sum_nonneg fun _ _ => sq_nonneg _
    linarith
  have hpos := keptShare_pos (d := t.ndims) (fun k _ hk => hb.bound_pos hk.le) (fun k _ hk => h.rank_pos k hk.le)
  have hn : ∀ Y : Tensor ℝ, 0 ≤ Y.normSq p s' := fun Y => Finset.sum_nonneg fun _ _ => sq_nonneg _
  refine ⟨hle, ?_⟩
  rw [← normSq_zero, ← normSq_zero]
  constructor
  · intro h0
    have h1 := (hx p hp).1
    rw [h0] at h1
    have h2 := hn T'
    by_contra h3
    have h4 : 0 < T'.normSq p s' := lt_of_le_of_ne h2 (Ne.symm h3)
    have := mul_pos hpos h4
    linarith
  · intro h0
    exact le_antisymm (h0 ▸ hle) (hn X')

/-- **C94.** The share cannot be improved: of the identity matrix of size two, which has rank two, `round` to rank one keeps exactly one half. -/
theorem C94_sharp {qr : QRRoutine} (hqr : qr.Correct) {svd : SVDRoutine} (hsvd : svd.Correct) :
    ∃ x T X, ttRound qr svd exEye2.toReal (.num 1) none = Except.ok x ∧ full exEye2.toReal = Except.ok T ∧ full x = Except.ok X ∧
      T.normSq [] [2, 2] = 2 ∧ X.normSq [] [2, 2] = 1 ∧ keptShare (fun _ => 1) exEye2.toReal.rank 2 = 1 / 2 := by
  have hw := exEye2_wf
  have hm : exEye2.toReal.ModesPos := by simp [TT.ModesPos, TT.toReal, exEye2]
  have hnb : exEye2.toReal.isBatch → (MaxRank.num 1).Single := by simp [TT.isBatch, TT.toReal, exEye2]
  obtain ⟨T, eT, sT, vT⟩ := full_single hw rfl
  obtain ⟨x, X, s, e, eX, sT', sX, hx⟩ := C94_round hqr hsvd hw hm exEye2_bounds hnb (eps := none) (by simp) hw rfl rfl eT eT ⟨rfl, fun _ _ => rfl⟩
  obtain ⟨x', T', X', s', e', eT', eX', sT'', -, hx'⟩ := C32_error hqr hsvd hw hm exEye2_bounds hnb (eps := none) (by simp)
  obtain rfl : x' = x := Except.ok.inj (e'.symm.trans e)
  obtain rfl : T' = T := Except.ok.inj (eT'.symm.trans eT)
  obtain rfl : X' = X := Except.ok.inj (eX'.symm.trans eX)
  obtain ⟨x'', e'', wx, rx, bx, kx, -⟩ := C31_ranks hqr hsvd hw hm exEye2_bounds hnb (eps := none) (by simp)
  obtain rfl : x'' = x' := Except.ok.inj (e''.symm.trans e)
  have es : s = [2, 2] := (sT'.symm.trans sT)
  have es' : s' = [2, 2] := (sT''.symm.trans sT)
  subst es es'
  have g' : ∀ i < 2, ∀ j < 2, T'.get [i, j] = if i = j then 1 else 0 := fun i hi j hj => by
    rw [vT [i, j] ⟨hi, hj, trivial⟩]
    interval_cases i <;> interval_cases j <;>
      simp [TT.entry, TT.toReal, exEye2, TT.ndims, lprod, TT.slice, TT.core, TT.rank, restModes, tIdx, Tensor.map, Tensor.ofList, ravel, Finset.sum_range_succ]
  have nT : T'.normSq [] [2, 2] = 2 := by
    simp [Tensor.normSq, Finset.sum_range_succ, unravel, g']
    norm_num
  have hsh : keptShare (fun _ => 1) exEye2.toReal.rank 2 = 1 / 2 := by simp [keptShare, TT.rank, TT.toReal, exEye2]
  refine ⟨x'', T', X', e, eT, eX, nT, ?_, hsh⟩
  have h1 := (hx [] trivial).1
  have h2 := (hx' [] trivial).1
  rw [show exEye2.toReal.ndims = 2 from rfl, hsh, nT] at h1
  rw [nT] at h2
  refine le_antisymm ?_ (by linarith)
  obtain ⟨X'', eX'', -, vX⟩ := full_single wx (bx.trans rfl)
  obtain rfl : X'' = X' := Except.ok.inj (eX''.symm.trans eX)
  have hn : x''.ndims = 2 := ndims_eq_of_rawShape wx hw rx
  have r0 : x''.rank 0 = 1 := wx.rank_first
  have r1 : x''.rank 1 = 1 := le_antisymm (kx 1 (by omega) (by simp [TT.ndims, TT.toReal, exEye2])) (wx.rank_pos 1 (by omega))
  obtain ⟨u, v, g⟩ : ∃ u v : ℕ → ℝ, ∀ i < 2, ∀ j < 2, X''.get [i, j] = u i * v j :=
    ⟨fun i => (x''.core 0).get [0, i, 0], fun j => (x''.core 1).get [0, j, 0], fun i hi j hj => by
      rw [vX [i, j] (by rw [rx]; exact ⟨hi, hj, trivial⟩), rx]
      simp [TT.entry, hn, lprod, TT.slice, r0, r1, restModes, tIdx, TT.toReal, exEye2]⟩
  have h3 : 1 ≤ T'.distSq X'' [] [2, 2] := by
    simp [Tensor.distSq, Finset.sum_range_succ, unravel, g, g']
    nlinarith [sq_nonneg (1 - (u 0 * v 0 + u 1 * v 1)), sq_nonneg (u 0 * v 1 - u 1 * v 0)]
  linarith

/-- The share that a decomposition keeps, for dense tensors. -/
theorem Fit.dense_keeps {z x : TT ℝ} {b : ℕ → ℕ} (f : Fit z x b) (h : z.WF) (hz : z.batch = none) {Z X : Tensor ℝ}
    (hZ : full z = Except.ok Z) (hZX : Z ≃ₜ X) {S : TT ℝ} (hS : S.WF) (hr : S.rawShape = z.rawShape) (hSb : S.batch = none) {F : Tensor ℝ}
    (hF : full S = Except.ok F) (hFX : F ≃ₜ X) {Y : Tensor ℝ} (hY : full x = Except.ok Y) :
    keptShare b S.rank z.ndims * X.normSq [] X.shape ≤ Y.normSq [] X.shape ∧
      X.distSq Y [] X.shape ≤ (1 - keptShare b S.rank z.ndims) * X.normSq [] X.shape := by
  obtain ⟨-, d1, n1, n2⟩ := dense_dist_eqv h f.wf f.rows hz f.batch hZ hZX hY
  obtain ⟨-, d2, -, -⟩ := dense_dist_eqv h hS hr hz hSb hZ hZX hF
  have h0 : X.distSq F [] X.shape = 0 := (distSq_zero (pre := []) rfl hFX.1).2 hFX [] trivial
  have h1 := f.keeps h hS hr (by rw [← d2, h0])
  have h2 := f.error
  rw [← d1, ← n1] at h1
  rw [← d1, ← n1, ← n2] at h2
  unfold keptShare
  constructor <;> linarith

/-- **C94.** `to_tt_tensor` keeps the share determined by the bounds and the TT-ranks of any tensor train of the given tensor. -/
theorem C94_tensor {svd : SVDRoutine} (hsvd : svd.Correct) {X : Tensor ℝ} (hd : 2 ≤ X.shape.length) (hs : ∀ n ∈ X.shape, 0 < n)
    {m : MaxRank} {b : ℕ → ℕ} (hb : m.Bounds X.shape.length b) {eps : Option ℝ} (he : ∀ e ∈ eps, 0 ≤ e)
    {S : TT ℝ} (hS : S.WF) (hrs : S.rawShape = [X.shape]) (hSb : S.batch = none) {F : Tensor ℝ} (hF : full S = Except.ok F) (hFX : F ≃ₜ X) :
    ∃ x Y, toTTTensor svd X m eps = Except.ok x ∧ full x = Except.ok Y ∧ Y.shape = X.shape ∧
      keptShare b S.rank X.shape.length * X.normSq [] X.shape ≤ Y.normSq [] X.shape ∧
      X.distSq Y [] X.shape ≤ (1 - keptShare b S.rank X.shape.length) * X.normSq [] X.shape := by
  obtain ⟨x, e, f⟩ := toTTTensor_fit hsvd hd hs hb he
  have hw := xTT_wf (X := X) (by omega) hs
  obtain ⟨Z, eZ, hZ⟩ := xTT_full (X := X) (by omega) hs
  obtain ⟨Y, eY, h1, -⟩ := f.dense_error hw rfl eZ hZ
  have := f.dense_keeps hw rfl eZ hZ hS (by rw [hrs, xTT_rawShape]) hSb hF hFX eY
  rw [xTT_ndims] at this
  exact ⟨x, Y, e, eY, h1, this⟩

example : ∃ (X : Tensor ℝ) (S : TT ℝ) (F : Tensor ℝ), 2 ≤ X.shape.length ∧ (∀ n ∈ X.shape, 0 < n) ∧
    (MaxRank.num 1).Bounds X.shape.length (fun _ => 1) ∧ S.WF ∧ S.rawShape = [X.shape] ∧ S.batch = none ∧ full S = Except.ok F ∧ F ≃ₜ X ∧
    keptShare (fun _ => 1) S.rank X.shape.length = 1 / 2 := by
  obtain ⟨F, e, s, -⟩ := full_single exEye2_wf rfl
  have s' : F.shape = [2, 2] := s
  refine ⟨F, exEye2.toReal, F, by rw [s']; simp, by rw [s']; simp, by rw [s']; exact exEye2_bounds, exEye2_wf, by rw [s']; rfl, rfl, e,
    ⟨rfl, fun _ _ => rfl⟩, ?_⟩
  rw [s']
  simp [keptShare, TT.rank, TT.toReal, exEye2]

/-- **C94.** The same for `to_tt_matrix`. -/
theorem C94_matrix {svd : SVDRoutine} (hsvd : svd.Correct) {X A : Tensor ℝ} {a b : List ℕ} (hX : X.shape.prod = a.prod * b.prod)
    (hab : a.length = b.length) (hd : 2 ≤ a.length) (ha : ∀ n ∈ a, 0 < n) (hb0 : ∀ n ∈ b, 0 < n) {ra rb : Option (List ℕ)}
    (hf : RowArgs a b ra rb) (hA : A.shape = [a.prod, b.prod])
    (hAX : ∀ x < a.prod, ∀ y < b.prod, A.get [x, y] = X.get (unravel X.shape (x * b.prod + y)))
    {m : MaxRank} {bd : ℕ → ℕ} (hb : m.Bounds a.length bd) {eps : Option ℝ} (he : ∀ e ∈ eps, 0 ≤ e)
    {S : TT ℝ} (hS : S.WF) (hrs : S.rawShape = [a, b]) (hSb : S.batch = none) {F : Tensor ℝ} (hF : full S = Except.ok F) (hFA : F ≃ₜ A) :
    ∃ x Y, toTTMatrix svd X ra rb m eps = Except.ok x ∧ full x = Except.ok Y ∧ Y.shape = A.shape ∧
      keptShare bd S.rank a.length * A.normSq [] A.shape ≤ Y.normSq [] A.shape ∧
      A.distSq Y [] A.shape ≤ (1 - keptShare bd S.rank a.length) * A.normSq [] A.shape := by
  obtain ⟨x, z, Z, e, hw, hr, hb', eZ, sZ, vZ, f⟩ := toTTMatrix_fit hsvd hX hab hd ha hb0 hf.fill hb he
  have hZA : Z ≃ₜ A := by
    refine ⟨by rw [sZ, hA], fun i hi => ?_⟩
    rw [sZ] at hi
    obtain ⟨u, v, rfl, hu, hv⟩ := (valid_pair _ _ _).1 hi
    rw [vZ u hu v hv, hAX u hu v hv]; rfl
  have hn : z.ndims = a.length := (hw.rows_len a (by rw [hr]; simp)).symm
  obtain ⟨Y, eY, h1, -⟩ := f.dense_error hw hb' eZ hZA
  have := f.dense_keeps hw hb' eZ hZA hS (by rw [hrs, hr]) hSb hF hFA eY
  rw [hn] at this
  exact ⟨x, Y, e, eY, h1, this⟩

example : ∃ (A : Tensor ℝ) (S : TT ℝ) (a b : List ℕ), A.shape.prod = a.prod * b.prod ∧ a.length = b.length ∧ 2 ≤ a.length ∧ (∀ n ∈ a, 0 < n) ∧
    (∀ n ∈ b, 0 < n) ∧ RowArgs a b (some a) (some b) ∧ A.shape = [a.prod, b.prod] ∧
    (∀ x < a.prod, ∀ y < b.prod, A.get [x, y] = A.get (unravel A.shape (x * b.prod + y))) ∧ (MaxRank.num 1).Bounds a.length (fun _ => 1) ∧
    S.WF ∧ S.rawShape = [a, b] ∧ S.batch = none ∧ full S = Except.ok A := by
  have hw : exMatrix.toReal.WF := TT.WF.toReal (by decide)
  obtain ⟨A, e, s, -⟩ := full_single hw rfl
  have s' : A.shape = [([2, 2] : List ℕ).prod, ([1, 2] : List ℕ).prod] := s
  refine ⟨A, exMatrix.toReal, [2, 2], [1, 2], by rw [s']; rfl, rfl, by simp, by simp, by simp, Or.inl ⟨rfl, rfl⟩, s', fun x hx y hy => ?_,
    Or.inl ⟨1, by omega, Or.inl rfl, fun _ => rfl⟩, hw, rfl, rfl, e⟩
  have h1 : ravel [([2, 2] : List ℕ).prod, ([1, 2] : List ℕ).prod] [x, y] = x * ([1, 2] : List ℕ).prod + y := by simp [ravel]
  have hv : Valid [([2, 2] : List ℕ).prod, ([1, 2] : List ℕ).prod] [x, y] := ⟨hx, hy, trivial⟩
  rw [s', ← h1, unravel_ravel hv]

end T3f
