import Verif.Proofs.Stage
import Verif.Props.C33ToTT
import Verif.Props.C37Project
import Verif.Props.C30Orthogonalize

/-!
# C70: when the results do not depend on the routines for QR and SVD

The factors of QR and singular value decompositions are not unique, and different devices return different ones. `qr`, `qr'`, `svd` and `svd'` are
arbitrary routines that return correct factors. `b k` is the bound `max_tt_rank` gives for the `k`-th TT-rank.
-/

namespace T3f

/-- C70: `round` is a sequence of best approximations: at the cuts `d - 1, ..., 1`, in this order, it replaces the tensor by a nearest one whose TT-rank
at this cut is within the bound. This holds for all items of a batch. -/
theorem C70_round_steps {qr : QRRoutine} (hqr : qr.Correct) {svd : SVDRoutine} (hsvd : svd.Correct) {t : TT ℝ} (h : t.WF) (hm : t.ModesPos)
    {m : MaxRank} {b : ℕ → ℕ} (hb : m.Bounds t.ndims b) (hbatch : t.isBatch → m.Single) {eps : Option ℝ} (he : ∀ e ∈ eps, 0 ≤ e) :
    ∃ x T X s, ttRound qr svd t m eps = Except.ok x ∧ full t = Except.ok T ∧ full x = Except.ok X ∧
      T.shape = t.bpre ++ s ∧ X.shape = t.bpre ++ s ∧ ∀ p, Valid t.bpre p →
        Truncated t.rawShape s b (List.range' 1 (t.ndims - 1)).reverse (fun i => T.get (p ++ i)) (fun i => X.get (p ++ i)) := by
  obtain ⟨x, e, w, rs, bt, ht⟩ := ttRound_truncated hqr hsvd h hm hb hbatch he
  obtain ⟨T, eT, sT, vT⟩ := full_ok h
  obtain ⟨X, eX, sX, vX⟩ := full_ok w
  have hp : x.bpre = t.bpre := by simp [TT.bpre, bt]
  rw [hp, rs] at sX vX
  exact ⟨x, T, X, _, e, eT, eX, sT, sX, fun p hp => truncated_congr (fun i hi => (vT p i hp hi).symm) (fun i hi => (vX p i hp hi).symm) (ht p hp)⟩

/-- C70: `to_tt_tensor` is a sequence of best approximations at the cuts `1, ..., d - 1`. -/
theorem C70_tensor_steps {svd : SVDRoutine} (hsvd : svd.Correct) {X : Tensor ℝ} (hd : 2 ≤ X.shape.length) (hs : ∀ n ∈ X.shape, 0 < n)
    {m : MaxRank} {b : ℕ → ℕ} (hb : m.Bounds X.shape.length b) {eps : Option ℝ} (he : ∀ e ∈ eps, 0 ≤ e) :
    ∃ x Y, toTTTensor svd X m eps = Except.ok x ∧ full x = Except.ok Y ∧ Y.shape = X.shape ∧
      Truncated [X.shape] X.shape b (List.range' 1 (X.shape.length - 1)) X.get Y.get := by
  obtain ⟨x, e, f⟩ := toTTTensor_fit hsvd hd hs hb he
  have hw := xTT_wf (X := X) (by omega) hs
  have q := f.truncated hw
  have hx := f.rows
  rw [xTT_rawShape] at q hx
  rw [xTT_ndims] at q
  obtain ⟨Y, eY, sY, vY⟩ := full_single f.wf f.batch
  rw [hx] at sY vY
  have sY' : Y.shape = X.shape := sY
  exact ⟨x, Y, e, eY, sY', truncated_congr (fun i hi => xTT_entry (by omega) hs hi) (fun i hi => (vY i hi).symm) q⟩

/-- C70: the same for `to_tt_matrix`. `A` is the matrix with the elements of `X`, row by row. -/
theorem C70_matrix_steps {svd : SVDRoutine} (hsvd : svd.Correct) {X A : Tensor ℝ} {a b : List ℕ} (hX : X.shape.prod = a.prod * b.prod)
    (hab : a.length = b.length) (hd : 2 ≤ a.length) (ha : ∀ n ∈ a, 0 < n) (hb0 : ∀ n ∈ b, 0 < n) {ra rb : Option (List ℕ)}
    (hf : RowArgs a b ra rb) (hA : A.shape = [a.prod, b.prod])
    (hAX : ∀ x < a.prod, ∀ y < b.prod, A.get [x, y] = X.get (unravel X.shape (x * b.prod + y)))
    {m : MaxRank} {bd : ℕ → ℕ} (hb : m.Bounds a.length bd) {eps : Option ℝ} (he : ∀ e ∈ eps, 0 ≤ e) :
    ∃ x Y, toTTMatrix svd X ra rb m eps = Except.ok x ∧ full x = Except.ok Y ∧ Y.shape = A.shape ∧
      Truncated [a, b] A.shape bd (List.range' 1 (a.length - 1)) A.get Y.get := by
  obtain ⟨x, z, Z, e, hw, hr, hb', eZ, sZ, vZ, f⟩ := toTTMatrix_fit hsvd hX hab hd ha hb0 hf.fill hb he
  have hn : z.ndims = a.length := (hw.rows_len a (by rw [hr]; simp)).symm
  have q := f.truncated hw
  have hx := f.rows
  rw [hr] at q hx
  rw [hn] at q
  obtain ⟨Y, eY, sY, vY⟩ := full_single f.wf f.batch
  obtain ⟨Z', eZ', sZ', vZ'⟩ := full_single hw hb'
  obtain rfl : Z' = Z := Except.ok.inj (eZ'.symm.trans eZ)
  rw [hx] at sY vY
  rw [hr] at sZ' vZ'
  have sA : A.shape = restShape [a, b] := by rw [hA, ← sZ, sZ']
  refine ⟨x, Y, e, eY, by rw [sY, sA], ?_⟩
  rw [sA]
  refine truncated_congr (fun i hi => ?_) (fun i hi => (vY i hi).symm) q
  rw [← vZ' i hi]
  rw [← sZ', sZ] at hi
  obtain ⟨u, v, rfl, hu, hv⟩ := (valid_pair _ _ _).1 hi
  rw [vZ u hu v hv, hAX u hu v hv]; rfl

/-- C70: if the best approximations of all items are unique, `round` represents the same tensor with all routines. -/
theorem C70_round {qr qr' : QRRoutine} (hqr : qr.Correct) (hqr' : qr'.Correct) {svd svd' : SVDRoutine} (hsvd : svd.Correct) (hsvd' : svd'.Correct)
    {t : TT ℝ} (h : t.WF) (hm : t.ModesPos) {m : MaxRank} {b : ℕ → ℕ} (hb : m.Bounds t.ndims b) (hbatch : t.isBatch → m.Single)
    {eps eps' : Option ℝ} (he : ∀ e ∈ eps, 0 ≤ e) (he' : ∀ e ∈ eps', 0 ≤ e) {T : Tensor ℝ} {s : List ℕ} (eT : full t = Except.ok T)
    (sT : T.shape = t.bpre ++ s)
    (hu : ∀ p, Valid t.bpre p → NoTies t.rawShape s b (List.range' 1 (t.ndims - 1)).reverse fun i => T.get (p ++ i)) :
    ∃ x x' X X', ttRound qr svd t m eps = Except.ok x ∧ ttRound qr' svd' t m eps' = Except.ok x' ∧ full x = Except.ok X ∧ full x' = Except.ok X' ∧
      X' ≃ₜ X := by
  obtain ⟨x, T1, X, s1, e, eT1, eX, sT1, sX, ht⟩ := C70_round_steps hqr hsvd h hm hb hbatch he
  obtain ⟨x', T2, X', s2, e', eT2, eX', sT2, sX', ht'⟩ := C70_round_steps hqr' hsvd' h hm hb hbatch he'
  obtain rfl : T1 = T := Except.ok.inj (eT1.symm.trans eT)
  obtain rfl : T2 = T1 := Except.ok.inj (eT2.symm.trans eT)
  obtain rfl : s1 = s := List.append_cancel_left (sT1.symm.trans sT)
  obtain rfl : s2 = s1 := List.append_cancel_left (sT2.symm.trans sT)
  obtain ⟨T3, eT3, sT3, -⟩ := full_ok h
  obtain rfl : T3 = T2 := Except.ok.inj (eT3.symm.trans eT)
  obtain rfl : s2 = restShape t.rawShape := List.append_cancel_left (sT2.symm.trans sT3)
  refine ⟨x, x', X, X', e, e', eX, eX', by rw [sX, sX'], fun i hi => ?_⟩
  rw [sX'] at hi
  obtain ⟨p, i, rfl, hp, hi⟩ := valid_append_iff.1 hi
  exact (hu p hp).unique (ht p hp) (ht' p hp) i hi

/-- C70: if the best approximations are unique, `to_tt_tensor` represents the same tensor with all routines. -/
theorem C70_tensor {svd svd' : SVDRoutine} (hsvd : svd.Correct) (hsvd' : svd'.Correct) {X : Tensor ℝ} (hd : 2 ≤ X.shape.length)
    (hs : ∀ n ∈ X.shape, 0 < n) {m : MaxRank} {b : ℕ → ℕ} (hb : m.Bounds X.shape.length b) {eps eps' : Option ℝ} (he : ∀ e ∈ eps, 0 ≤ e)
    (he' : ∀ e ∈ eps', 0 ≤ e) (hu : NoTies [X.shape] X.shape b (List.range' 1 (X.shape.length - 1)) X.get) :
    ∃ x x' Y Y', toTTTensor svd X m eps = Except.ok x ∧ toTTTensor svd' X m eps' = Except.ok x' ∧ full x = Except.ok Y ∧ full x' = Except.ok Y' ∧
      Y' ≃ₜ Y := by
  obtain ⟨x, Y, e, eY, sY, ht⟩ := C70_tensor_steps hsvd hd hs hb he
  obtain ⟨x', Y', e', eY', sY', ht'⟩ := C70_tensor_steps hsvd' hd hs hb he'
  refine ⟨x, x', Y, Y', e, e', eY, eY', by rw [sY, sY'], fun i hi => ?_⟩
  rw [sY'] at hi
  exact NoTies.unique (rows := [X.shape]) hu ht ht' i hi

/-- C70: if the best approximations are unique, `to_tt_matrix` represents the same matrix with all routines. -/
theorem C70_matrix {svd svd' : SVDRoutine} (hsvd : svd.Correct) (hsvd' : svd'.Correct) {X A : Tensor ℝ} {a b : List ℕ}
    (hX : X.shape.prod = a.prod * b.prod) (hab : a.length = b.length) (hd : 2 ≤ a.length) (ha : ∀ n ∈ a, 0 < n) (hb0 : ∀ n ∈ b, 0 < n)
    {ra rb : Option (List ℕ)} (hf : RowArgs a b ra rb) (hA : A.shape = [a.prod, b.prod])
    (hAX : ∀ x < a.prod, ∀ y < b.prod, A.get [x, y] = X.get (unravel X.shape (x * b.prod + y)))
    {m : MaxRank} {bd : ℕ → ℕ} (hb : m.Bounds a.length bd) {eps eps' : Option ℝ} (he : ∀ e ∈ eps, 0 ≤ e) (he' : ∀ e ∈ eps', 0 ≤ e)
    (hu : NoTies [a, b] A.shape bd (List.range' 1 (a.length - 1)) A.get) :
    ∃ x x' Y Y', toTTMatrix svd X ra rb m eps = Except.ok x ∧ toTTMatrix svd' X ra rb m eps' = Except.ok x' ∧ full x = Except.ok Y ∧
      full x' = Except.ok Y' ∧ Y' ≃ₜ Y := by
  obtain ⟨x, Y, e, eY, sY, ht⟩ := C70_matrix_steps hsvd hX hab hd ha hb0 hf hA hAX hb he
  obtain ⟨x', Y', e', eY', sY', ht'⟩ := C70_matrix_steps hsvd' hX hab hd ha hb0 hf hA hAX hb he'
  refine ⟨x, x', Y, Y', e, e', eY, eY', by rw [sY, sY'], fun i hi => ?_⟩
  have sA : A.shape = restShape [a, b] := by rw [hA]; rfl
  rw [sY', sA] at hi
  rw [sA] at hu ht ht'
  exact hu.unique ht ht' i hi

/-- C70: with one cut only (two cores), the error does not depend on the routines, even if the result does. -/
theorem C70_two_cores {qr qr' : QRRoutine} (hqr : qr.Correct) (hqr' : qr'.Correct) {svd svd' : SVDRoutine} (hsvd : svd.Correct)
    (hsvd' : svd'.Correct) {t : TT ℝ} (h : t.WF) (hm : t.ModesPos) (hd : t.ndims = 2) {m : MaxRank} {b : ℕ → ℕ} (hb : m.Bounds t.ndims b)
    (hbatch : t.isBatch → m.Single) {eps eps' : Option ℝ} (he : ∀ e ∈ eps, 0 ≤ e) (he' : ∀ e ∈ eps', 0 ≤ e) :
    ∃ x x' T X X' s, ttRound qr svd t m eps = Except.ok x ∧ ttRound qr' svd' t m eps' = Except.ok x' ∧ full t = Except.ok T ∧ full x = Except.ok X ∧
      full x' = Except.ok X' ∧ T.shape = t.bpre ++ s ∧ X.shape = t.bpre ++ s ∧ X'.shape = t.bpre ++ s ∧
      ∀ p, Valid t.bpre p → T.distSq X p s = T.distSq X' p s := by
  obtain ⟨x, T, X, s, e, eT, eX, sT, sX, ht⟩ := C70_round_steps hqr hsvd h hm hb hbatch he
  obtain ⟨x', T', X', s', e', eT', eX', sT', sX', ht'⟩ := C70_round_steps hqr' hsvd' h hm hb hbatch he'
  obtain rfl : T' = T := Except.ok.inj (eT'.symm.trans eT)
  obtain rfl : s' = s := List.append_cancel_left (sT'.symm.trans sT)
  refine ⟨x, x', T', X, X', s', e, e', eT, eX, eX', sT, sX, sX', fun p hp => ?_⟩
  have key : ∀ Y : Tensor ℝ, T'.distSq Y p s' = sqDist s' (fun i => T'.get (p ++ i)) (fun i => Y.get (p ++ i)) := by
    intro Y
    unfold Tensor.distSq sqDist dot
    exact Finset.sum_congr rfl fun n _ => by rw [sq]
  have h1 := ht p hp
  have h2 := ht' p hp
  rw [hd] at h1 h2
  rw [key, key]
  exact truncated_one h1 h2

/-- C70: `project` on the tangent space of a tensor with minimal ranks gives the same tensors with all routines. -/
theorem C70_project {qr qr' : QRRoutine} (hqr : qr.Correct) (hqr' : qr'.Correct) {x z : TT ℝ} (h : x.WF) (hb : x.batch = none) (hm : x.ModesPos)
    (hd : 2 ≤ x.ndims) (hmin : x.MinimalRanks) (hne : x.Nonzero) (hz : z.WF) (hr : z.rawShape = x.rawShape) :
    ∃ y y' Y Y', project qr z x = Except.ok y ∧ project qr' z x = Except.ok y' ∧ full y = Except.ok Y ∧ full y' = Except.ok Y' ∧ Y' ≃ₜ Y := by
  obtain ⟨T, _, hT, hP⟩ := project_space hqr h hb hm hd
  obtain ⟨T', _, hT', hP'⟩ := project_space hqr' h hb hm hd
  obtain ⟨y, Y, Z, e, w, rs, bt, rk, eY, eZ, sh, sZ, hv⟩ := hP z hz hr
  obtain ⟨y', Y', Z', e', w', rs', bt', rk', eY', eZ', sh', sZ', hv'⟩ := hP' z hz hr
  obtain rfl : Z' = Z := Except.ok.inj (eZ'.symm.trans eZ)
  have hTT : T' = T := Submodule.ext fun f => (hT' hmin hne f).trans (hT hmin hne f).symm
  subst hTT
  refine ⟨y, y', Y, Y', e, e', eY, eY', by rw [sh, sh'], fun i hi => ?_⟩
  rw [sh', sZ] at hi
  obtain ⟨p, i, rfl, hp, hi⟩ := valid_append_iff.1 hi
  exact proj_unique (hv' p hp).1 (hv p hp).1 (hv' p hp).2 (hv p hp).2 i hi

/-- C70: `orthogonalize_tt_cores` represents the same tensor with all routines. -/
theorem C70_orthogonalize {qr qr' : QRRoutine} (hqr : qr.Correct) (hqr' : qr'.Correct) {t : TT ℝ} (h : t.WF) (hm : t.ModesPos) :
    ∃ o o' O O', orthogonalize qr t true = Except.ok o ∧ orthogonalize qr' t true = Except.ok o' ∧ full o = Except.ok O ∧ full o' = Except.ok O' ∧
      O' ≃ₜ O := by
  obtain ⟨o, T, O, e, _, _, _, _, _, eT, eO, hO⟩ := C30_left_to_right hqr h hm
  obtain ⟨o', T', O', e', _, _, _, _, _, eT', eO', hO'⟩ := C30_left_to_right hqr' h hm
  obtain rfl : T' = T := Except.ok.inj (eT'.symm.trans eT)
  exact ⟨o, o', O, O', e, e', eO, eO', hO'.trans hO.symm⟩

/-- A diagonal matrix as a dense tensor with two axes. -/
def exDiag : Tensor ℝ := ⟨[2, 2], fun i => if i.getD 0 0 = i.getD 1 0 then 2 - i.getD 0 0 else 0⟩

theorem rank_one_det {Z : List ℕ → ℝ} (h : HasCut [[2, 2]] 1 1 Z) : Z [0, 0] * Z [1, 1] = Z [0, 1] * Z [1, 0] := by
  obtain ⟨b, hb, hZ⟩ := h
  obtain ⟨S, w, hr, hb', hk, hv⟩ := hasTT_iff.1 hZ
  have h2 : S.ndims = 2 := (w.rows_len [2, 2] (by rw [hr]; simp)).symm
  have hp := w.rank_pos 1 (by omega)
  have h1 := hk 1 (by omega) (by omega)
  have r0 := w.rank_first
  have r1 : S.rank 1 = 1 := by omega
  have key : ∀ i < 2, ∀ j < 2, Z [i, j] = (S.core 0).get [0, i, 0] * (S.core 1).get [0, j, 0] := by
    intro i hi j hj
    rw [← hv [i, j] ⟨hi, hj, trivial⟩]
    show S.entry [] (tIdx [i, j]) = _
    simp [TT.entry, h2, lprod, r0, r1, TT.slice, tIdx]
  rw [key 0 (by omega) 0 (by omega), key 1 (by omega) 1 (by omega), key 0 (by omega) 1 (by omega), key 1 (by omega) 0 (by omega)]
  ring

theorem sqDist_exDiag (Z : List ℕ → ℝ) : sqDist [2, 2] exDiag.get Z = (2 - Z [0, 0]) ^ 2 + Z [0, 1] ^ 2 + Z [1, 0] ^ 2 + (1 - Z [1, 1]) ^ 2 := by
  unfold sqDist dot
  simp [Finset.sum_range_succ, unravel, exDiag]
  ring

theorem nearest_exDiag {p q x y : ℝ} (hd : p * q = x * y) (h : (2 - p) ^ 2 + x ^ 2 + y ^ 2 + (1 - q) ^ 2 ≤ 1) : p = 2 ∧ q = 0 ∧ x = 0 ∧ y = 0 := by
  have h1 : 2 * |p * q| ≤ x ^ 2 + y ^ 2 := by
    rw [hd, abs_mul]
    nlinarith [sq_nonneg (|x| - |y|), sq_abs x, sq_abs y]
  rw [abs_mul] at h1
  have h2 := le_abs_self p
  have h3 := le_abs_self q
  have hq : |q| = 0 := le_antisymm (by nlinarith [sq_nonneg (|p| + |q| - 2), sq_abs p, sq_abs q, abs_nonneg p, abs_nonneg q]) (abs_nonneg q)
  have hq0 := abs_eq_zero.1 hq
  subst hq0
  have hp : p = 2 := by nlinarith [sq_nonneg (p - 2), sq_nonneg x, sq_nonneg y]
  subst hp
  have hx : x ^ 2 ≤ 0 := by nlinarith [sq_nonneg y]
  have hy : y ^ 2 ≤ 0 := by nlinarith [sq_nonneg x]
  exact ⟨rfl, rfl, pow_eq_zero_iff (two_ne_zero) |>.1 (le_antisymm hx (sq_nonneg _)), pow_eq_zero_iff (two_ne_zero) |>.1 (le_antisymm hy (sq_nonneg _))⟩

/-- The nearest matrix of rank one. -/
def exCornerTT : TT ℤ where
  cores := [.ofList [1, 2, 1] [2, 0], .ofList [1, 2, 1] [1, 0]]
  rawShape := [[2, 2]]
  ttRanks := [1, 1, 1]
  batch := none

theorem exDiag_noTies : NoTies [exDiag.shape] exDiag.shape (fun _ => 1) (List.range' 1 (exDiag.shape.length - 1)) exDiag.get := by
  have hB : HasCut [[2, 2]] 1 1 (fun i => if i = [0, 0] then 2 else 0) := by
    refine ⟨fun _ => 1, le_rfl, hasTT_iff.2 ⟨exCornerTT.toReal, TT.WF.toReal (by decide), rfl, rfl, fun k h0 hk => ?_, fun i hi => ?_⟩⟩
    · have : k < 2 := hk
      obtain rfl : k = 1 := by omega
      exact le_rfl
    · obtain ⟨u, v, rfl, hu, hv⟩ := (valid_pair _ _ _).1 hi
      show exCornerTT.toReal.entry [] (tIdx [u, v]) = _
      interval_cases u <;> interval_cases v <;>
        simp [TT.entry, TT.toReal, exCornerTT, TT.ndims, lprod, TT.slice, TT.core, TT.rank, tIdx, Tensor.map, Tensor.ofList, ravel]
  have key : ∀ Z, NearestCut [[2, 2]] [2, 2] 1 1 exDiag.get Z → Z [0, 0] = 2 ∧ Z [1, 1] = 0 ∧ Z [0, 1] = 0 ∧ Z [1, 0] = 0 := by
    intro Z hZ
    refine nearest_exDiag (rank_one_det hZ.1) ?_
    have := hZ.2 _ hB
    rw [sqDist_exDiag, sqDist_exDiag] at this
    refine this.trans (by norm_num)
  intro Z hZ
  refine ⟨fun Z' hZ' i hi => ?_, trivial⟩
  obtain ⟨a, b, c, d⟩ := key Z hZ
  obtain ⟨a', b', c', d'⟩ := key Z' hZ'
  obtain ⟨u, v, rfl, hu, hv⟩ := (valid_pair _ _ _).1 hi
  interval_cases u <;> interval_cases v <;> simp_all

example : (∃ svd : SVDRoutine, svd.Correct) ∧ 2 ≤ exDiag.shape.length ∧ (∀ n ∈ exDiag.shape, 0 < n) ∧ (MaxRank.num 1).Bounds exDiag.shape.length (fun _ => 1) ∧
    NoTies [exDiag.shape] exDiag.shape (fun _ => 1) (List.range' 1 (exDiag.shape.length - 1)) exDiag.get :=
  ⟨svdRoutine_exists, by simp [exDiag], by simp [exDiag], Or.inl ⟨1, by omega, Or.inl rfl, fun _ => rfl⟩, exDiag_noTies⟩

theorem exTensor3_noTies : NoTies exTensor3.toReal.rawShape [2, 2, 3] (fun _ => 3) (List.range' 1 (exTensor3.toReal.ndims - 1)).reverse
    fun i => exTensor3.toReal.entry [] (restModes exTensor3.toReal.rawShape i) :=
  noTies_of_hasTT (hasTT_iff.2 ⟨exTensor3.toReal, TT.WF.toReal (by decide), rfl, rfl,
    fun k _ hk => (show ∀ k ≤ exTensor3.ndims, exTensor3.rank k ≤ 3 by decide) k hk.le, fun _ _ => rfl⟩)

example : (∃ qr : QRRoutine, qr.Correct) ∧ (∃ svd : SVDRoutine, svd.Correct) ∧ exTensor3.toReal.WF ∧ exTensor3.toReal.ModesPos ∧
    (MaxRank.num 3).Bounds exTensor3.toReal.ndims (fun _ => 3) ∧ (exTensor3.toReal.isBatch → (MaxRank.num 3).Single) ∧
    ∃ T s, full exTensor3.toReal = Except.ok T ∧ T.shape = exTensor3.toReal.bpre ++ s ∧ ∀ p, Valid exTensor3.toReal.bpre p →
      NoTies exTensor3.toReal.rawShape s (fun _ => 3) (List.range' 1 (exTensor3.toReal.ndims - 1)).reverse fun i => T.get (p ++ i) := by
  have hw : exTensor3.toReal.WF := TT.WF.toReal (by decide)
  obtain ⟨T, eT, sT, vT⟩ := full_single hw rfl
  refine ⟨qrRoutine_exists, svdRoutine_exists, hw, by simp [TT.ModesPos, TT.toReal, exTensor3], Or.inl ⟨3, by omega, Or.inl rfl, fun _ => rfl⟩,
    by simp [TT.isBatch, TT.toReal, exTensor3], T, _, eT, sT, fun p hp => ?_⟩
  obtain rfl : p = [] := by
    have := hp.length_eq
    simpa [TT.bpre, TT.toReal, exTensor3] using this
  exact noTies_congr (fun i hi => (vT i hi).symm) exTensor3_noTies

example : (∃ qr : QRRoutine, qr.Correct) ∧ exEye2.toReal.WF ∧ exEye2.toReal.batch = none ∧ exEye2.toReal.ModesPos ∧ 2 ≤ exEye2.toReal.ndims ∧
    exEye2.toReal.ndims = 2 ∧ (MaxRank.num 1).Bounds exEye2.toReal.ndims (fun _ => 1) ∧
    exEye2.toReal.MinimalRanks ∧ exEye2.toReal.Nonzero ∧ exPair2.toReal.WF ∧ exPair2.toReal.rawShape = exEye2.toReal.rawShape :=
  ⟨qrRoutine_exists, exEye2_wf, rfl, by simp [TT.ModesPos, TT.toReal, exEye2], le_rfl, rfl, Or.inl ⟨1, by omega, Or.inl rfl, fun _ => rfl⟩,
    exEye2_minimal, exEye2_nonzero, exPair2_wf, rfl⟩

example : ∃ X : Tensor ℝ, X.shape = [[2, 2].prod, [1, 2].prod] ∧ RowArgs [2, 2] [1, 2] (some [2, 2]) (some [1, 2]) ∧
    (∀ x < [2, 2].prod, ∀ y < [1, 2].prod, X.get [x, y] = X.get (unravel X.shape (x * [1, 2].prod + y))) ∧
    (MaxRank.num 2).Bounds [2, 2].length (fun _ => 2) ∧ NoTies [[2, 2], [1, 2]] X.shape (fun _ => 2) (List.range' 1 ([2, 2].length - 1)) X.get := by
  have hw : exMatrix.toReal.WF := TT.WF.toReal (by decide)
  obtain ⟨T, eT, sT, vT⟩ := full_single hw rfl
  have sT : T.shape = [4, 2] := sT
  refine ⟨T, sT, Or.inl ⟨rfl, rfl⟩, fun x hx y hy => ?_, Or.inl ⟨2, by omega, Or.inl rfl, fun _ => rfl⟩, ?_⟩
  · have hx : x < 4 := hx
    have hy : y < 2 := hy
    rw [sT]
    congr 1
    simp [unravel]
    omega
  · rw [sT]
    exact noTies_congr (fun i hi => (vT i hi).symm) (noTies_of_hasTT (rows := [[2, 2], [1, 2]]) (hasTT_iff.2 ⟨exMatrix.toReal, hw, rfl, rfl,
      fun k _ hk => (show ∀ k ≤ exMatrix.ndims, exMatrix.rank k ≤ 2 by decide) k hk.le, fun _ _ => rfl⟩))

end T3f
