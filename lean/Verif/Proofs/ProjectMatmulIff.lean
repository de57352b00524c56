import Verif.Proofs.BilinearIff
import Verif.Proofs.ProjectMatmul
import Verif.Proofs.ProjectProps
import Verif.Proofs.AutodiffError
import Verif.Proofs.RoundLast

/-! # When `project_matmul` succeeds -/

namespace T3f

/-- The leading `d` cores of a TT-matrix. -/
def TT.prefixCores {K : Type} (A : TT K) (d : ℕ) : TT K :=
  { cores := A.cores.take d, rawShape := A.rawShape.map (·.take d), ttRanks := A.ttRanks.take (d + 1), batch := A.batch }

section prefixes
variable {K : Type} [CommRing K]

omit [CommRing K] in
theorem prefixCores_ndims {A : TT K} {d : ℕ} (hd : d ≤ A.ndims) : (A.prefixCores d).ndims = d := by
  simp only [TT.ndims, TT.prefixCores, List.length_take] at hd ⊢; omega

omit [CommRing K] in
theorem prefixCores_rank {A : TT K} {d k : ℕ} (hk : k ≤ d) : (A.prefixCores d).rank k = A.rank k := by
  simp only [TT.rank, TT.prefixCores, List.getD_eq_getElem?_getD, List.getElem?_take]
  rw [if_pos (by omega)]

theorem prefixCores_core {A : TT K} {d k : ℕ} (hk : k < d) : (A.prefixCores d).core k = A.core k := by
  simp only [TT.core, TT.prefixCores, List.getD_eq_getElem?_getD, List.getElem?_take]
  rw [if_pos hk]

omit [CommRing K] in
theorem prefixCores_pyGet {A : TT K} {d k : ℕ} (hk : k < d) : pyGet (A.prefixCores d).cores k = pyGet A.cores k := by
  simp only [pyGet, TT.prefixCores, List.getElem?_take]
  rw [if_pos hk]

omit [CommRing K] in
theorem prefixCores_modes {A : TT K} {d k : ℕ} (hk : k < d) : (A.prefixCores d).modes k = A.modes k := by
  simp only [TT.modes, TT.prefixCores, List.map_map]
  refine List.map_congr_left fun r _ => ?_
  simp only [Function.comp, List.getD_eq_getElem?_getD, List.getElem?_take]
  rw [if_pos hk]

theorem prefixCores_wf {A : TT K} (h : A.WF) {d : ℕ} (h0 : 0 < d) (hd : d ≤ A.ndims) (hr : A.rank d = 1) : (A.prefixCores d).WF where
  pos := by rw [prefixCores_ndims hd]; exact h0
  ranks_len := by
    rw [prefixCores_ndims hd]
    have := h.ranks_len
    simp only [TT.prefixCores, List.length_take]; omega
  rank_first := by rw [prefixCores_rank (by omega)]; exact h.rank_first
  rank_last := by rw [prefixCores_ndims hd, prefixCores_rank le_rfl]; exact hr
  rank_pos := fun k hk => by
    rw [prefixCores_ndims hd] at hk
    rw [prefixCores_rank hk]; exact h.rank_pos k (by omega)
  rows := by simpa [TT.prefixCores] using h.rows
  rows_len := fun row hrow => by
    rw [prefixCores_ndims hd]
    simp only [TT.prefixCores, List.mem_map] at hrow
    obtain ⟨r, hr, rfl⟩ := hrow
    have := h.rows_len r hr
    rw [List.length_take]; omega
  core_shape := fun k hk => by
    rw [prefixCores_ndims hd] at hk
    rw [prefixCores_core hk, prefixCores_rank hk.le, prefixCores_rank hk, h.core_shape k (by omega)]
    rw [prefixCores_modes hk]; rfl
  batch_pos := h.batch_pos

end prefixes

/-- Only the first cores of the matrix are read. -/
theorem projectMatmul_prefix (qr : QRRoutine) (z x A : TT ℝ) : projectMatmul qr z x (A.prefixCores x.ndims) = projectMatmul qr z x A := by
  unfold projectMatmul
  have h1 : ∀ (w right : TT ℝ) s, forRange (fun j => rhsMatStep w right (A.prefixCores x.ndims) (x.ndims - 1 - j)) 0 (x.ndims - 1) s =
      forRange (fun j => rhsMatStep w right A (x.ndims - 1 - j)) 0 (x.ndims - 1) s := fun w right s =>
    forRange_congr fun k _ hk s => by unfold rhsMatStep; rw [prefixCores_pyGet (by omega)]
  have h2 : ∀ (w left : TT ℝ) s, forRange (lhsMatStep w left (A.prefixCores x.ndims)) 0 (x.ndims - 1) s =
      forRange (lhsMatStep w left A) 0 (x.ndims - 1) s := fun w left s =>
    forRange_congr fun k _ hk s => by unfold lhsMatStep; rw [prefixCores_pyGet (by omega)]
  simp only [h1, h2]
  refine bind_congr fun _ => bind_congr fun _ => bind_congr fun _ => bind_congr fun _ => bind_congr fun _ => bind_congr fun _ => ?_
  congr 1
  refine mapRange_congr _ _ _ fun k hk => ?_
  rw [prefixCores_pyGet hk]

section ein
variable {mc rc nxt wc : Tensor ℝ} {qA : Option ℕ} {s1 s2 i j n a j3 k3 d : ℕ}

theorem rhsMat_inv {sr : List ℕ} (sA : mc.shape = qA.toList ++ [s1, i, j, s2]) (hsr : rc.shape = sr) (sw : wc.shape = [n, a, j3, k3, d])
    (h : EinOk (ein! "bije,cikf,sdef,sajkd->sabc") [mc, rc, nxt, wc]) :
    qA = none ∧ sr.length = 4 ∧ sr.getD 1 0 = i ∧ j3 = j ∧ nxt.shape.getD 2 0 = s2 := by
  obtain ⟨h1, h2, -⟩ := h
  simp only [List.map_cons, List.map_nil, sA, hsr, sw, List.cons.injEq] at h1
  obtain ⟨hA, hr, hn, -⟩ := h1
  have hq : qA = none := by rcases qA with _ | q <;> simp at hA ⊢
  subst hq
  obtain ⟨r0, r1, r2, r3, rfl⟩ : ∃ r0 r1 r2 r3, sr = [r0, r1, r2, r3] := by
    match sr, hr with
    | [r0, r1, r2, r3], _ => exact ⟨r0, r1, r2, r3, rfl⟩
  obtain ⟨n0, n1, n2, n3, hn'⟩ : ∃ r0 r1 r2 r3, nxt.shape = [r0, r1, r2, r3] := by
    match nxt.shape, hn with
    | [r0, r1, r2, r3], _ => exact ⟨r0, r1, r2, r3, rfl⟩
  simp [einDims, List.lookup, sA, hsr, sw, hn'] at h2
  simp [hn']
  omega

theorem lhsMat_inv {sr : List ℕ} (sA : mc.shape = qA.toList ++ [s1, i, j, s2]) (hsr : rc.shape = sr) (sw : wc.shape = [n, a, j3, k3, d])
    (h : EinOk (ein! "bije,aikd,sabc,scjkf->sdef") [mc, rc, nxt, wc]) :
    qA = none ∧ sr.length = 4 ∧ sr.getD 1 0 = i ∧ j3 = j := by
  obtain ⟨h1, h2, -⟩ := h
  simp only [List.map_cons, List.map_nil, sA, hsr, sw, List.cons.injEq] at h1
  obtain ⟨hA, hr, hn, -⟩ := h1
  have hq : qA = none := by rcases qA with _ | q <;> simp at hA ⊢
  subst hq
  obtain ⟨r0, r1, r2, r3, rfl⟩ : ∃ r0 r1 r2 r3, sr = [r0, r1, r2, r3] := by
    match sr, hr with
    | [r0, r1, r2, r3], _ => exact ⟨r0, r1, r2, r3, rfl⟩
  obtain ⟨n0, n1, n2, n3, hn'⟩ : ∃ r0 r1 r2 r3, nxt.shape = [r0, r1, r2, r3] := by
    match nxt.shape, hn with
    | [r0, r1, r2, r3], _ => exact ⟨r0, r1, r2, r3, rfl⟩
  simp [einDims, List.lookup, sA, hsr, sw, hn'] at h2
  simp
  omega

end ein

theorem lastMat_inv {cur mc wc : Tensor ℝ} {qA : Option ℕ} {s1 s2 i j n a j3 k3 d n1 b1 a1 c1 : ℕ} (sA : mc.shape = qA.toList ++ [s1, i, j, s2])
    (sc : cur.shape = [n1, a1, b1, c1]) (sw : wc.shape = [n, a, j3, k3, d]) {E : Tensor ℝ}
    (h : einsum (ein! "sabc,bijd,scjke->saike") [cur, mc, wc] = Except.ok E) :
    qA = none ∧ j3 = j ∧ E.shape = [n1, a1, i, k3, d] := by
  have hE := einOk_of_ok h
  obtain ⟨h1, h2, -⟩ := id hE
  simp only [List.map_cons, List.map_nil, sA, sw, sc, List.cons.injEq] at h1
  obtain ⟨-, hA, -⟩ := h1
  have hq : qA = none := by rcases qA with _ | q <;> simp at hA ⊢
  subst hq
  simp [einDims, List.lookup, sA, sc, sw] at h2
  refine ⟨rfl, by omega, ?_⟩
  rw [einsum_eq, if_pos hE] at h
  cases h
  simp [einDims, lookupLabel, List.lookup, sA, sc, sw]

/-- A successful call of `project_matmul`, step by step. -/
theorem projectMatmul_steps {qr : QRRoutine} {x left right A z y : TT ℝ} {n : ℕ} (hb : x.batch = none) (hr : z.rawShape = x.rawShape)
    (hF : tangentFrame qr x = Except.ok (left, right)) (bz : z.batch = some n) (e : projectMatmul qr z x A = Except.ok y) :
    ∃ rhs lhs cores, forRange (fun j => rhsMatStep z right A (x.ndims - 1 - j)) 0 (x.ndims - 1)
        ((List.replicate (x.ndims + 1) default).set x.ndims (ones [n, 1, 1, 1])) = Except.ok rhs ∧
      forRange (lhsMatStep z left A) 0 (x.ndims - 1) ((List.replicate (x.ndims + 1) default).set 0 (ones [n, 1, 1, 1])) = Except.ok lhs ∧
      (∀ k < x.ndims, ∃ wc mc lc rc proj elc erc zs, pyGet z.cores k = Except.ok wc ∧ pyGet A.cores k = Except.ok mc ∧
        pyGet left.cores k = Except.ok lc ∧ pyGet right.cores k = Except.ok rc ∧ projectMatBlock lhs rhs x.ndims k wc lc mc = Except.ok proj ∧
        extendCore True z.batch lc = Except.ok elc ∧ extendCore True z.batch rc = Except.ok erc ∧
        tangentCore z.leftRankDim z.rightRankDim x.ndims k zs elc erc proj = Except.ok (cores.getD k default)) ∧
      cores.length = x.ndims ∧ mkTangent z.batch cores x.rawShape = Except.ok y := by
  unfold projectMatmul projectChecks at e
  have hbs : z.lazyBatchSize = Except.ok n := by simp [TT.lazyBatchSize, bz]
  have ew : expandBatchDim z = Except.ok z := by simp [expandBatchDim, bz]
  rw [require_pos hb, require_pos hr.symm, hF] at e
  simp only [R.ok_bind, hbs, ew] at e
  obtain ⟨rhs, er, e⟩ := bind_ok_iff.1 e
  obtain ⟨lhs, el, e⟩ := bind_ok_iff.1 e
  obtain ⟨cores, ec, e⟩ := bind_ok_iff.1 e
  obtain ⟨hl, hv⟩ := mapRange_inv ec
  refine ⟨rhs, lhs, cores, er, el, fun k hk => ?_, hl, e⟩
  obtain ⟨wc, e1, h⟩ := bind_ok_iff.1 (hv k hk)
  obtain ⟨mc, e2, h⟩ := bind_ok_iff.1 h
  obtain ⟨lc, e3, h⟩ := bind_ok_iff.1 h
  obtain ⟨rc, e4, h⟩ := bind_ok_iff.1 h
  obtain ⟨proj, e5, h⟩ := bind_ok_iff.1 h
  obtain ⟨elc, e6, h⟩ := bind_ok_iff.1 h
  obtain ⟨erc, e7, h⟩ := bind_ok_iff.1 h
  exact ⟨wc, mc, lc, rc, proj, elc, erc, _, e1, e2, e3, e4, e5, e6, e7, h⟩

theorem getD_take_eq {l : List ℕ} {d : ℕ} {I : List ℕ} (hI : I.length = d) (hl : d ≤ l.length) (h : ∀ k < d, l.getD k 0 = I.getD k 0) : l.take d = I := by
  refine List.ext_getElem (by rw [List.length_take]; omega) fun k h1 h2 => ?_
  have := h k (by omega)
  rw [List.getD_eq_getElem _ _ (by omega), List.getD_eq_getElem _ _ (by omega)] at this
  rw [List.getElem_take, this]

theorem projectMatmul_iff {qr : QRRoutine} (hqr : qr.Correct) {x z A : TT ℝ} {I' J' : List ℕ} (h : x.WF) (hm : x.ModesPos) (hz : z.WF) (hA : A.WF)
    (rA : A.rawShape = [I', J']) :
    (∃ y, projectMatmul qr z x A = Except.ok y) ↔ ∃ I L n, x.batch = none ∧ x.rawShape = [I, L] ∧ 2 ≤ x.ndims ∧ z.batch = some n ∧
      z.rawShape = [I, L] ∧ A.batch = none ∧ A.rank x.ndims = 1 ∧ I'.take x.ndims = I ∧ J'.take x.ndims = I := by
  have hI' : I'.length = A.ndims := hA.rows_len I' (by simp [rA])
  have hJ' : J'.length = A.ndims := hA.rows_len J' (by simp [rA])
  constructor
  · rintro ⟨y, e⟩
    have hb : x.batch = none := by
      by_contra hb
      unfold projectMatmul projectChecks at e
      rw [require_neg hb] at e
      cases e
    have hr : z.rawShape = x.rawShape := by
      by_contra hr
      unfold projectMatmul projectChecks at e
      rw [require_pos hb, require_neg (fun e => hr e.symm)] at e
      cases e
    obtain ⟨left, right, hF, F⟩ := tangentFrame_ok hqr h hb hm
    cases bz : z.batch with
    | none =>
      unfold projectMatmul projectChecks at e
      rw [require_pos hb, require_pos hr.symm, hF] at e
      simp only [R.ok_bind, TT.lazyBatchSize, bz] at e
      cases e
    | some n =>
    obtain ⟨rhs, lhs, cores, er, el, hc, lc, ey⟩ := projectMatmul_steps hb hr hF bz e
    have nz : z.ndims = x.ndims := ndims_of_rows hz h hr
    have hpos := h.pos
    have hAn : x.ndims ≤ A.ndims := by
      obtain ⟨wc, mc, lc, rc, proj, elc, erc, zs, e1, e2, -⟩ := hc (x.ndims - 1) (by omega)
      have := pyGet_core_lt e2
      omega
    have hmat : x.rawShape.length = 2 := by
      obtain ⟨wc, mc, lc, rc, proj, elc, erc, zs, e1, e2, e3, e4, e5, -⟩ := hc (x.ndims - 1) (by omega)
      rw [hz.pyCore (by omega)] at e1
      cases e1
      unfold projectMatBlock at e5
      rw [if_neg (by omega)] at e5
      obtain ⟨cur, -, e5⟩ := bind_ok_iff.1 e5
      have h1 := (einOk_of_ok e5).1
      simp only [List.map_cons, List.map_nil, List.cons.injEq] at h1
      have h2 := h1.2.2.1
      rw [hz.core_shape _ (by omega)] at h2
      simp [TT.bpre, bz, TT.modes, hr] at h2
      omega
    obtain ⟨I, L, rx⟩ := List.length_eq_two.1 hmat
    have hI : I.length = x.ndims := h.rows_len I (by simp [rx])
    have rz := hr.trans rx
    have sA : ∀ k < x.ndims, (A.core k).shape = A.batch.toList ++ [A.rank k, I'.getD k 0, J'.getD k 0, A.rank (k + 1)] := by
      intro k hk; rw [hA.core_shape k (by omega)]; simp [TT.modes, rA, TT.bpre]
    have sz : ∀ k < x.ndims, (z.core k).shape = [n, z.rank k, I.getD k 0, L.getD k 0, z.rank (k + 1)] := by
      intro k hk; rw [hz.core_shape k (by omega)]; simp [TT.modes, rz, TT.bpre, bz]
    have mx : ∀ k, x.modes k = [I.getD k 0, L.getD k 0] := fun k => by simp [TT.modes, rx]
    by_cases hd : 2 ≤ x.ndims
    · obtain ⟨v, v0, hv⟩ := forRange_steps er
      obtain ⟨u, u0, hu⟩ := forRange_steps el
      have hR : ∀ k, 0 < k → k < x.ndims → A.batch = none ∧ I.getD k 0 = I'.getD k 0 ∧ I.getD k 0 = J'.getD k 0 ∧
          (k + 1 = x.ndims → A.rank x.ndims = 1) := by
        intro k h0 hk
        have hs := hv (x.ndims - 1 - k) (by omega) (by omega)
        simp only [show x.ndims - 1 - (x.ndims - 1 - k) = k by omega] at hs
        unfold rhsMatStep at hs
        rw [hz.pyCore (by omega), F.cr hk, hA.pyCore (by omega)] at hs
        simp only [R.ok_bind] at hs
        obtain ⟨nxt, en, hs⟩ := bind_ok_iff.1 hs
        obtain ⟨w, ew, -⟩ := bind_ok_iff.1 hs
        obtain ⟨q1, -, q2, q3, q4⟩ := rhsMat_inv (sA k hk) (F.sr hk) (sz k hk) (einOk_of_ok ew)
        rw [mx] at q2
        refine ⟨q1, by simpa using q2, q3, fun hl => ?_⟩
        rw [show x.ndims - 1 - k = 0 by omega, v0, hl, pyGet_of_lt _ _ default (by simp)] at en
        cases en
        rw [← hl, ← q4]
        simp [ones]
      have L0 : I.getD 0 0 = I'.getD 0 0 ∧ I.getD 0 0 = J'.getD 0 0 := by
        have hs := hu 0 (by omega) (by omega)
        unfold lhsMatStep at hs
        rw [hz.pyCore (by omega), F.cl hpos, hA.pyCore (by omega)] at hs
        simp only [R.ok_bind] at hs
        obtain ⟨cur, en, hs⟩ := bind_ok_iff.1 hs
        obtain ⟨w, ew, -⟩ := bind_ok_iff.1 hs
        obtain ⟨q1, -, q2, q3⟩ := lhsMat_inv (sA 0 hpos) (F.sl hpos) (sz 0 hpos) (einOk_of_ok ew)
        rw [mx] at q2
        exact ⟨by simpa using q2, q3⟩
      obtain ⟨q1, -, -, q2⟩ := hR (x.ndims - 1) (by omega) (by omega)
      refine ⟨I, L, n, hb, rx, hd, rfl, rz, q1, q2 (by omega), getD_take_eq hI (by omega) fun k hk => ?_, getD_take_eq hI (by omega) fun k hk => ?_⟩
      · rcases Nat.eq_zero_or_pos k with rfl | h0
        · exact L0.1.symm
        · exact (hR k h0 hk).2.1.symm
      · rcases Nat.eq_zero_or_pos k with rfl | h0
        · exact L0.2.symm
        · exact (hR k h0 hk).2.2.1.symm
    · have hd1 : x.ndims = 1 := by omega
      exfalso
      obtain ⟨wc, mc, lc', rc, proj, elc, erc, zs, e1, e2, e3, e4, e5, e6, e7, e8⟩ := hc 0 hpos
      rw [hz.pyCore (by omega)] at e1
      cases e1
      rw [hA.pyCore (by omega)] at e2
      cases e2
      rw [F.cl hpos] at e3
      cases e3
      unfold projectMatBlock at e5
      rw [if_neg (by omega)] at e5
      obtain ⟨cur, ecur, e5⟩ := bind_ok_iff.1 e5
      simp only [hd1, Nat.sub_self] at el
      cases el
      rw [pyGet_of_lt _ _ default (by simp)] at ecur
      cases ecur
      obtain ⟨-, -, sE⟩ := lastMat_inv (sA 0 hpos) (n1 := n) (a1 := 1) (b1 := 1) (c1 := 1) rfl (sz 0 hpos) e5
      obtain ⟨elc', e6', s6, -⟩ := extendCore_ok F.wl F.bl (isMat := True) (by rw [F.rl, hmat]; simp) z.batch (k := 0) (by rw [F.nl]; omega)
      rw [e6] at e6'
      cases e6'
      obtain ⟨axL, axR⟩ := rankDims z hz
      have e8' := e8
      rw [tangentCore, if_pos rfl] at e8'
      have hI0 : I'.getD 0 0 = I.getD 0 0 := by
        simp only [concat, bind_ok_iff] at e8'
        obtain ⟨r, hr', e8'⟩ := e8'
        split_ifs at hr'
        cases hr'
        unfold concat2 at e8'
        split_ifs at e8' with hcond
        have := hcond.2.2
        rw [axR, sE, s6, F.ml, mx, bz, rz] at this
        simp at this
        simpa using this.2
      have hz1 : z.rank 1 = 1 := by have := hz.rank_last; rwa [nz, hd1] at this
      have hr1 : right.rank 1 = 1 := by have := F.rd; rwa [hd1] at this
      obtain ⟨elc', erc', C, a1, a2, a3, a4⟩ := assemble_single F h hd1 (isMat := True) (by simp [hmat]) z.batch (D := proj)
        (by rw [sE, bz, F.l0, mx, hI0, hz1, hr1]; rfl) zs (axL := z.leftRankDim) (axR := z.rightRankDim) (by rw [axR, hr])
      rw [e6] at a1
      cases a1
      rw [F.cr hpos] at e4
      cases e4
      rw [e7] at a2
      cases a2
      rw [e8] at a3
      have : cores = [C] := by
        obtain ⟨c, rfl⟩ := List.length_eq_one_iff.1 (lc.trans hd1)
        cases a3
        rfl
      rw [this, a4] at ey
      cases ey
  · rintro ⟨I, L, n, hb, rx, hd, bz, rz, bA, kA, tI, tJ⟩
    have hI : I.length = x.ndims := h.rows_len I (by simp [rx])
    have hAn : x.ndims ≤ A.ndims := by
      have := congrArg List.length tI
      rw [List.length_take] at this
      omega
    obtain ⟨left, right, hF, F⟩ := tangentFrame_ok hqr h hb hm
    obtain ⟨m, -, -, -, -, y, D, e, -⟩ := projectMatmul_ok h hb hd hF F (prefixCores_wf hA h.pos hAn kA) (A := A.prefixCores x.ndims) bA
      (by simp [TT.prefixCores, rA, tI, tJ]) hz bz rz rx
    exact ⟨y, by rw [← projectMatmul_prefix]; exact e⟩

end T3f
