import Verif.Model.Descent
import Verif.Proofs.ProjectProps
import Verif.Proofs.RoundProps
import Verif.Proofs.Variables
import Verif.Spec.RankBound
import Verif.Props.C06Arith
import Verif.Props.C13Norm
import Verif.Props.C31Round
import Verif.Props.C48Variables

/-! # Riemannian gradient descent -/

namespace T3f

theorem sub_single {a b : TT ℝ} (ha : a.WF) (hb : b.WF) (hd : 2 ≤ a.ndims) (hr : b.rawShape = a.rawShape) (h1 : a.batch = none) (h2 : b.batch = none) :
    ∃ c, sub a b = Except.ok c ∧ c.WF ∧ c.rawShape = a.rawShape ∧ c.batch = none ∧ c.ndims = a.ndims ∧ (∀ k ≤ a.ndims, a.rank k ≤ c.rank k) ∧
      ∀ A B C, full a = Except.ok A → full b = Except.ok B → full c = Except.ok C → ∀ i, Valid (restShape a.rawShape) i → C.get i = A.get i - B.get i := by
  obtain ⟨t, et, wt, rt, bt, kt, nt, vt⟩ := multiplyScalar_spec hb (-1)
  obtain ⟨c, e, w, r, bc, nd, rk, en⟩ := add_spec ha wt hd (hr.symm.trans rt.symm) (Or.inl ⟨h1, bt.trans h2⟩)
  have hcb : c.batch = none := by
    have : bshape a.bpre t.bpre = some [] := by simp [TT.bpre, h1, bt, h2, bshape]
    rw [this] at bc
    have := (Option.some.inj bc).symm
    unfold TT.bpre at this
    cases hc : c.batch with
    | none => rfl
    | some n => rw [hc] at this; simp at this
  refine ⟨c, by simp [sub, et, e], w, r, hcb, nd, fun k hk => ?_, fun A B C eA eB eC i hi => ?_⟩
  · rw [rk k hk, addRk]
    split_ifs with h
    · rcases h with rfl | rfl
      · rw [ha.rank_first]
      · rw [ha.rank_last]
    · omega
  · obtain ⟨A', eA', sA, vA⟩ := full_single ha h1
    obtain ⟨B', eB', sB, vB⟩ := full_single hb h2
    obtain ⟨C', eC', sC, vC⟩ := full_single w hcb
    obtain rfl : A' = A := Except.ok.inj (eA'.symm.trans eA)
    obtain rfl : B' = B := Except.ok.inj (eB'.symm.trans eB)
    obtain rfl : C' = C := Except.ok.inj (eC'.symm.trans eC)
    have hi' : Valid (restShape c.rawShape) i := by rw [r]; exact hi
    rw [vA i hi, vB i (by rw [hr]; exact hi), vC i hi', r, hr]
    have hv := validModes_rest w hi'
    rw [r] at hv
    have hcp : c.bpre = [] := by simp [TT.bpre, hcb]
    rw [en [] _ (by rw [hcp]; trivial) hv, vt]
    have e1 : bproj a.bpre [] = [] := by simp [TT.bpre, h1, bproj]
    have e2 : bproj t.bpre [] = [] := by simp [TT.bpre, bt, h2, bproj]
    rw [e1, e2]
    ring

theorem scalar_single {a : TT ℝ} (ha : a.WF) (h1 : a.batch = none) (c : ℝ) :
    ∃ t, multiplyScalar a c = Except.ok t ∧ t.WF ∧ t.rawShape = a.rawShape ∧ t.batch = none ∧
      ∀ A T, full a = Except.ok A → full t = Except.ok T → ∀ i, Valid (restShape a.rawShape) i → T.get i = c * A.get i := by
  obtain ⟨t, et, wt, rt, bt, kt, nt, vt⟩ := multiplyScalar_spec ha c
  refine ⟨t, et, wt, rt, bt.trans h1, fun A T eA eT i hi => ?_⟩
  obtain ⟨A', eA', sA, vA⟩ := full_single ha h1
  obtain ⟨T', eT', sT, vT⟩ := full_single wt (bt.trans h1)
  obtain rfl : A' = A := Except.ok.inj (eA'.symm.trans eA)
  obtain rfl : T' = T := Except.ok.inj (eT'.symm.trans eT)
  rw [vA i hi, vT i (by rw [rt]; exact hi), rt, vt]

theorem distSq_dot (X Y : Tensor ℝ) (s : List ℕ) : X.distSq Y [] s = dot s (fun i => X.get i - Y.get i) (fun i => X.get i - Y.get i) :=
  Finset.sum_congr rfl fun _ _ => sq _

theorem normSq_dot (X : Tensor ℝ) (s : List ℕ) : X.normSq [] s = dot s X.get X.get := Finset.sum_congr rfl fun _ _ => sq _

theorem distSq_congr {X X' Y Y' : Tensor ℝ} {s : List ℕ} (hX : ∀ i, Valid s i → X.get i = X'.get i) (hY : ∀ i, Valid s i → Y.get i = Y'.get i) :
    X.distSq Y [] s = X'.distSq Y' [] s := by
  rw [distSq_dot, distSq_dot]
  exact dot_congr (fun i hi => by rw [hX i hi, hY i hi]) (fun i hi => by rw [hX i hi, hY i hi])

/-- The point before the retraction. -/
theorem descent_point {qr : QRRoutine} (hqr : qr.Correct) {x a : TT ℝ} (hx : x.WF) (hxb : x.batch = none) (hm : x.ModesPos) (hd : 2 ≤ x.ndims)
    (ha : a.WF) (hab : a.batch = none) (har : a.rawShape = x.rawShape) (alpha : ℝ) :
    ∃ g p y X A P Y, sub x a = Except.ok g ∧ project qr g x = Except.ok p ∧
      (∀ svd m, descentUpdate qr svd alpha m x a = ttRound qr svd y m none) ∧
      y.WF ∧ y.rawShape = x.rawShape ∧ y.batch = none ∧ y.ndims = x.ndims ∧ (∀ k ≤ x.ndims, x.rank k ≤ y.rank k) ∧
      full x = Except.ok X ∧ full a = Except.ok A ∧ full p = Except.ok P ∧ full y = Except.ok Y ∧
      X.shape = restShape x.rawShape ∧ A.shape = X.shape ∧ P.shape = X.shape ∧ Y.shape = X.shape ∧
      (∀ i, Valid X.shape i → Y.get i = X.get i - alpha * P.get i) ∧
      dot X.shape (fun i => (X.get i - A.get i) - P.get i) P.get = 0 := by
  obtain ⟨X, eX, sX, vX⟩ := full_single hx hxb
  obtain ⟨A, eA, sA, vA⟩ := full_single ha hab
  obtain ⟨g, eg, wg, rg, bg, ng, -, vg⟩ := sub_single hx ha hd har hxb hab
  obtain ⟨T, hT, -, hP⟩ := project_space hqr hx hxb hm hd
  obtain ⟨p, P, G, ep, wp, rp, bp, -, eP, eG, sP, sG, hv⟩ := hP g wg rg
  have bp' : p.batch = none := bp.trans bg
  have hgp : g.bpre = [] := by simp [TT.bpre, bg]
  obtain ⟨h1, h2⟩ := hv [] (by rw [hgp]; trivial)
  obtain ⟨s, es, ws, rs, bs, vs⟩ := scalar_single wp bp' alpha
  obtain ⟨y, ey, wy, ry, by', ny, rky, vy⟩ := sub_single hx ws hd (rs.trans rp) hxb bs
  obtain ⟨S, eS, sS, -⟩ := full_single ws bs
  obtain ⟨Y, eY, sY, -⟩ := full_single wy by'
  rw [hgp, List.nil_append] at sG
  refine ⟨g, p, y, X, A, P, Y, eg, ep, fun svd m => ?_, wy, ry, by', ny, rky, eX, eA, eP, eY, sX, ?_, ?_, ?_, fun i hi => ?_, ?_⟩
  · simp only [descentUpdate, eg, ep, es, ey, R.ok_bind]
  · rw [sA, sX, har]
  · rw [sP, sG, sX]
  · rw [sY, sX, ry]
  · rw [sX] at hi
    rw [vy X S Y eX eS eY i hi, vs P S eP eS i (by rw [rp]; exact hi)]
  · rw [sX]
    have := h2 _ h1
    rw [← this]
    exact dot_congr (fun i hi => by simp only [List.nil_append]; rw [vg X A G eX eA eG i hi]) (fun i _ => rfl)

end T3f
