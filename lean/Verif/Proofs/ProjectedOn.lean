import Verif.Proofs.AddProjected
import Verif.Proofs.ProjectMatmul

/-! # Projected objects have gauged blocks -/

namespace T3f

section
variable {x left right : TT ℝ}

theorem GTangent.of_blocks (F : TFrame x left right) {y w : TT ℝ} {D : ℕ → Tensor ℝ} (T : IsTangent left right D y)
    {n : ℕ} {c : List ℕ → ℕ → ℝ} {q : List ℕ → ℕ → List ℕ}
    (hD : ∀ k < x.ndims, ∀ p, Valid y.bpre p → ∀ m < (x.modes k).prod, ∀ a < left.rank k, ∀ b < right.rank (k + 1),
      (D k).get (p ++ a :: (unravel (x.modes k) m ++ [b])) = ∑ s ∈ Finset.range n, c p s * tBlock x left right w (q p s) k m a b) :
    GTangent x left right D y := by
  refine ⟨T, fun p hp => ?_⟩
  have hg : Gauged x.N left.rank right.rank (left.fl []) (fun k n' a b => ∑ s ∈ Finset.range n, c p s * tBlock x left right w (q p s) k n' a b) x.ndims :=
    Gauged.sum (c p) fun s _ => gauged_tanBlock F.lo
  exact hg.congr fun k hk m hm a ha b hb => hD k (by omega) p hp m hm a ha b hb

theorem projectedOn_gauged {qr : QRRoutine} (h : x.WF) (hb : x.batch = none) (hd : 2 ≤ x.ndims) (hF : tangentFrame qr x = Except.ok (left, right))
    (F : TFrame x left right) (hH : Halves x left right) {y : TT ℝ} (hy : ProjectedOn qr x y) : ∃ D, GTangent x left right D y := by
  induction hy with
  | @project z y hz e =>
    have hr : z.rawShape = x.rawShape := by
      by_contra hne
      unfold project projectChecks at e
      rw [require_pos hb, require_neg (fun e => hne e.symm)] at e
      exact absurd e (by simp [bind, Except.bind])
    obtain ⟨y', D, e', T, yb, hD⟩ := project_ok h hb hd hF F hz hr
    obtain rfl : y' = y := Except.ok.inj (e'.symm.trans e)
    refine ⟨D, GTangent.of_blocks F T (w := z) (n := 1) (c := fun _ _ => 1) (q := fun p _ => p) fun k hk p hp m hm a ha b hb' => ?_⟩
    rw [Finset.sum_range_one, one_mul]
    exact hD k hk p (by rw [TT.bpre, yb] at hp; exact hp) m hm a ha b hb'
  | @projectSum z y weights out c hz hw e =>
    obtain ⟨w, n, ew, ww, bw, rw', kw, nw, hcase, hfl⟩ := expand_fl hz
    have hn : z.batch.getD 1 = n := by
      rcases hcase with ⟨e, _⟩ | ⟨e, e'⟩ <;> simp [e]
      exact e'.symm
    rw [hn] at hw
    have hexp : projectSum qr z x weights = projectSum qr w x weights := by
      have : expandBatchDim w = Except.ok w := by simp [expandBatchDim, bw]
      unfold projectSum
      rw [ew, this]
    rw [hexp] at e
    have hr : w.rawShape = x.rawShape := by
      by_contra hne
      have ew' : expandBatchDim w = Except.ok w := by simp [expandBatchDim, bw]
      unfold projectSum projectChecks at e
      rw [ew', R.ok_bind, require_pos hb, require_neg (fun e => hne e.symm)] at e
      exact absurd e (by simp [bind, Except.bind])
    obtain ⟨y', D, e', T, yb, hD⟩ := projectSum_ok h hb hd hF F ww bw hr weights c (by
      cases hw with
      | ones => exact Or.inl ⟨rfl, rfl⟩
      | vector wt h => exact Or.inr (Or.inl ⟨wt, rfl, h, rfl⟩)
      | matrix wt o h ho => exact Or.inr (Or.inr ⟨wt, o, rfl, h, ho, rfl⟩))
    obtain rfl : y' = y := Except.ok.inj (e'.symm.trans e)
    exact ⟨D, GTangent.of_blocks F T (q := fun _ s => [s]) hD⟩
  | @projectMatmul z y A n I L hz bz rz hA bA rA e =>
    have hr : z.rawShape = x.rawShape := by
      by_contra hne
      unfold projectMatmul projectChecks at e
      rw [require_pos hb, require_neg (fun e => hne e.symm)] at e
      exact absurd e (by simp [bind, Except.bind])
    obtain ⟨m, wm, bm, rm, em, y', D, e', T, yb, hD⟩ := projectMatmul_ok h hb hd hF F hA bA rA hz bz rz (hr.symm.trans rz)
    obtain rfl : y' = y := Except.ok.inj (e'.symm.trans e)
    refine ⟨D, GTangent.of_blocks F T (w := m) (n := 1) (c := fun _ _ => 1) (q := fun p _ => p) fun k hk p hp m hm a ha b hb' => ?_⟩
    rw [Finset.sum_range_one, one_mul]
    exact hD k hk p (by rw [TT.bpre, yb] at hp; exact hp) m hm a ha b hb'
  | @addN ys y o out coef c hne _ hbt hc e ih =>
    have hmem : ∀ i < ys.length, ys.getD i default ∈ ys := fun i hi => by
      rw [List.getD_eq_getElem _ _ hi]; exact List.getElem_mem _
    have ihs : ∀ i < ys.length, ∃ D, GTangent x left right D (ys.getD i default) := fun i hi => ih _ (hmem i hi)
    choose! Ds hDs using ihs
    obtain ⟨y', D', e', T, yb, hD⟩ := addNProjected_ok F h hd hH hne hc (fun i hi => (hDs i hi).tan) (fun i hi => hbt _ (hmem i hi)) o
    obtain rfl : y' = y := congrArg Projected.tt (Except.ok.inj (e'.symm.trans e))
    refine ⟨D', T, fun p hp => ?_⟩
    rw [TT.bpre, yb] at hp
    have hg := Gauged.sum (s := Finset.range ys.length) (N := x.N) (rL := left.rank) (rV := right.rank) (L := left.fl []) (d := x.ndims)
      (D := fun i => flat x (blk (Ds i) p)) (c p) (fun i hi => (hDs i (Finset.mem_range.1 hi)).gauge p (by
        rw [TT.bpre, hbt _ (hmem i (Finset.mem_range.1 hi))]; exact hp))
    exact hg.congr fun k hk m hm a ha b hb' => hD k (by omega) p hp _ (unravel_valid hm) a ha b hb'

end

end T3f
