import Verif.Proofs.Tape
import Verif.Proofs.OrthoRL
import Verif.Proofs.Minimal

/-! # Which backward passes run: the right-to-left sweep -/

namespace T3f

open Taped

theorem rightPart_eq (t : TT ℝ) (g : ℕ → List ℕ) (m k a : ℕ) : t.rightPart g m k a = rprod t.rank (t.slice [] g) m k a := by
  induction m generalizing k a with
  | zero => rfl
  | succ m ih => rw [TT.rightPart, rprod]; exact Finset.sum_congr rfl fun b _ => by rw [ih]

/-- A chain with orthonormal rows from core `k` on satisfies no relation. -/
theorem rorth_indep {A : (ℕ → List ℕ) → ℕ → ℕ → ℕ → ℝ} {F : ℕ → ℕ → ℕ → ℕ → ℝ} {M : ℕ → List ℕ} {N r : ℕ → ℕ} {d : ℕ} (hN : ∀ k, N k = (M k).prod)
    (hA : ∀ g k a b, A g k a b = F k (ravel (M k) (g k)) a b ∨ ¬ Valid (M k) (g k)) (hd : r d = 1) (m : ℕ) :
    ∀ k, k + m = d → (∀ j, k ≤ j → j < d → ROrth N r F j) → ∀ w : ℕ → ℝ,
      (∀ g : ℕ → List ℕ, (∀ j, k ≤ j → j < d → Valid (M j) (g j)) → ∑ a ∈ Finset.range (r k), w a * rprod r (A g) m k a = 0) →
      (∀ g g' k, g k = g' k → A g k = A g' k) → ∀ a < r k, w a = 0 := by
  induction m with
  | zero =>
    intro k hk _ w hw _ a ha
    obtain rfl : k = d := by omega
    rw [hd] at ha
    obtain rfl : a = 0 := by omega
    have := hw (fun _ => []) (fun j h1 h2 => absurd h1 (by omega))
    rw [hd, Finset.sum_range_one] at this
    simpa [rprod] using this
  | succ m ih =>
    intro k hk ho w hw hloc
    have key : ∀ n < N k, ∀ b < r (k + 1), ∑ a ∈ Finset.range (r k), w a * F k n a b = 0 := by
      intro n hn
      refine ih (k + 1) (by omega) (fun j h1 h2 => ho j (by omega) h2) (fun b => ∑ a ∈ Finset.range (r k), w a * F k n a b) (fun g hg => ?_) hloc
      have hv : Valid (M k) (unravel (M k) n) := unravel_valid (by rw [← hN]; exact hn)
      have := hw (Function.update g k (unravel (M k) n)) (fun j h1 h2 => by
        rcases h1.eq_or_lt with rfl | h1
        · rw [Function.update_self]; exact hv
        · rw [Function.update_of_ne (by omega)]; exact hg j (by omega) h2)
      rw [← this]
      simp only [rprod, Finset.mul_sum, Finset.sum_mul]
      rw [Finset.sum_comm]
      refine Finset.sum_congr rfl fun a _ => Finset.sum_congr rfl fun b _ => ?_
      rw [show rprod r (A (Function.update g k (unravel (M k) n))) m (k + 1) b = rprod r (A g) m (k + 1) b from
        rprod_congr' fun j hj => hloc _ _ j (Function.update_of_ne (by omega) _ _)]
      have e := hA (Function.update g k (unravel (M k) n)) k a b
      rw [Function.update_self, ravel_unravel (by rw [← hN]; exact hn)] at e
      rcases e with e | e
      · rw [e]; ring
      · exact absurd hv e
    intro a' ha'
    have : w a' = ∑ a ∈ Finset.range (r k), w a * δ a a' := by rw [sum_δ_right ha']
    rw [this]
    rw [show (∑ a ∈ Finset.range (r k), w a * δ a a') = ∑ n ∈ Finset.range (N k), ∑ b ∈ Finset.range (r (k + 1)),
        (∑ a ∈ Finset.range (r k), w a * F k n a b) * F k n a' b by
      rw [Finset.sum_congr rfl fun a ha => by rw [← ho k le_rfl (by omega) a (Finset.mem_range.1 ha) a' ha']]
      simp only [Finset.mul_sum, Finset.sum_mul]
      rw [Finset.sum_comm]
      refine Finset.sum_congr rfl fun n _ => ?_
      rw [Finset.sum_comm]
      exact Finset.sum_congr rfl fun b _ => Finset.sum_congr rfl fun a _ => by ring]
    refine Finset.sum_eq_zero fun n hn => Finset.sum_eq_zero fun b hb => ?_
    rw [key n (Finset.mem_range.1 hn) b (Finset.mem_range.1 hb), zero_mul]

open Classical in
/-- What the backward pass through the QR decomposition of core `k` gives. -/
noncomputable def rlGrad (t : TT ℝ) (k : ℕ) : R Unit :=
  if t.N k * rlRank t.N t.rank t.ndims (k + 1) < t.rank k then Except.error Err.notImpl
  else if t.RightIndependent k then Except.ok () else Except.error Err.tf

theorem orthoRLStepT_run {qr : QRRoutine} (hqr : qr.Correct) {t : TT ℝ} (h : t.WF) (hb : t.batch = none) (i : ℕ) (hi : i + 1 < t.ndims)
    (hm : t.ModesPos) (s : List (Tensor ℝ) × ℕ) (hs : RLInv t (i + 1) s) :
    ∃ s' node, (orthoRLStepT qr t (i + 1) s).run = Except.ok (s', [node]) ∧ RLInv t i s' ∧ node.grad = rlGrad t (i + 1) ∧
      (node.grad = Except.ok () ↔ t.RightIndependent (i + 1)) := by
  obtain ⟨s', es', hs'⟩ := orthoRLStep_ok hqr h hb i hi hm s hs
  obtain ⟨T, hB, hT⟩ := hs.cur
  have hpre : t.bpre = [] := by rw [TT.bpre, hb]; rfl
  set r' := rlRank t.N t.rank t.ndims with hr'
  obtain ⟨Y, eY, sY, bY⟩ := hB.reshape_some (s := [t.rank (i + 1), t.N (i + 1) * r' (i + 2)]) (by simp)
  obtain ⟨Xt, Q, S, Qt, St, q, τ, e1, e2, e3, e4, sQt, bQt, sSt, vSt, q1, q2⟩ := qr_wide hqr bY sY
  have sX : Xt.shape = [t.N (i + 1) * r' (i + 2), t.rank (i + 1)] := by
    obtain ⟨X', eX', sX', -⟩ := transpose_pre (bs := none) sY
    rw [show transpose Y (List.range (none : Option ℕ).toList.length ++ [(none : Option ℕ).toList.length + 1, (none : Option ℕ).toList.length]) =
      transpose Y [1, 0] from rfl, e1] at eX'
    rw [Except.ok.inj eX']; exact sX'
  have sS : S.shape = [min (t.N (i + 1) * r' (i + 2)) (t.rank (i + 1)), t.rank (i + 1)] := by
    have := e2
    unfold linalgQR at this
    rw [sX, show matShape [t.N (i + 1) * r' (i + 2), t.rank (i + 1)] = Except.ok ([], _, _) from rfl, R.ok_bind] at this
    obtain ⟨-, rfl⟩ := Prod.mk.inj (Except.ok.inj this)
    rfl
  have vS : ∀ γ α, S.get [γ, α] = τ α γ := by
    intro γ α
    obtain ⟨S', eS', -, vS'⟩ := transpose_pre (bs := none) sS
    rw [show transpose S (List.range (none : Option ℕ).toList.length ++ [(none : Option ℕ).toList.length + 1, (none : Option ℕ).toList.length]) =
      transpose S [1, 0] from rfl, e4] at eS'
    rw [← vSt, Except.ok.inj eS']
    exact (vS' [] trivial γ α).symm
  set n' := t.N (i + 1) * r' (i + 2) with hn'
  set m' := t.rank (i + 1) with hm'
  have p1 : pyGet s.1 (i + 1) = Except.ok (s.1.getD (i + 1) default) := pyGet_of_lt _ _ _ (by rw [hs.len]; omega)
  have eY' : reshape (s.1.getD (i + 1) default) [some (t.rank (i + 1)), some ((coreModes t (i + 1)).prod * rlRank t.N t.rank t.ndims (i + 1 + 1))] =
      Except.ok Y := eY
  have eQT : (linalgQRT qr Xt).run = Except.ok ((Q, S), [qrNode [] n' m' S]) := by
    unfold linalgQRT
    simp only [sX, show matShape [n', m'] = Except.ok ([], n', m') from rfl, R.ok_bind, e2]
    rfl
  have hrun : (orthoRLStepT qr t (i + 1) s).run = (orthoRLStep qr t (i + 1) s).map fun x => (x, [qrNode [] n' m' S]) := by
    unfold orthoRLStepT orthoRLStep
    simp only [p1, hs.rk, h.pyRank (show i + 1 ≤ t.ndims by omega), R.ok_bind, eY', e1, e2, plain_bind]
    rw [run_bind, eQT, R.ok_bind]
    simp only [e3, e4, plain_bind, R.ok_bind, run_bind]
    generalize pyGet St.shape 0 = a1
    rcases a1 with e | a1
    · rfl
    simp only [R.ok_bind, run_plain_ok]
    generalize pyGet St.shape 1 = a2
    rcases a2 with e | a2
    · rfl
    simp only [R.ok_bind, run_plain_ok]
    generalize reshape Qt _ = a3
    rcases a3 with e | a3
    · rfl
    simp only [R.ok_bind, run_plain_ok]
    generalize pyGet s.1 (i + 1 - 1) = a4
    rcases a4 with e | a4
    · rfl
    simp only [R.ok_bind, run_plain_ok]
    generalize reshape a4 _ = a5
    rcases a5 with e | a5
    · rfl
    simp only [R.ok_bind, run_plain_ok]
    generalize matmul a5 St = a6
    rcases a6 with e | a6
    · rfl
    rfl
  have key : t.RightIndependent (i + 1) ↔ ∀ v : ℕ → ℝ, (∀ γ < min n' m', ∑ β ∈ Finset.range m', S.get [γ, β] * v β = 0) → ∀ β < m', v β = 0 := by
    have hrp : ∀ g : ℕ → List ℕ, (∀ j, i + 1 ≤ j → j < t.ndims → Valid (t.modes j) (g j)) → ∀ v : ℕ → ℝ,
        ∑ b ∈ Finset.range m', v b * rprod t.rank (t.slice [] g) (t.ndims - (i + 1)) (i + 1) b =
          ∑ a ∈ Finset.range (r' (i + 2)), (∑ b ∈ Finset.range m', v b *
            ∑ γ ∈ Finset.range (min n' m'), τ b γ * q [] γ (ravel (t.modes (i + 1)) (g (i + 1))) a) *
              rprod r' (cvl s.1 [] g) (t.ndims - 1 - (i + 1)) (i + 2) a := by
      intro g hg v
      have hgi := hg (i + 1) le_rfl hi
      rw [show t.ndims - (i + 1) = (t.ndims - 1 - (i + 1)) + 1 by omega]
      simp only [Finset.sum_mul]
      rw [Finset.sum_comm]
      refine Finset.sum_congr rfl fun b hb => ?_
      rw [rprod]
      calc v b * ∑ l ∈ Finset.range (t.rank (i + 1 + 1)), t.slice [] g (i + 1) b l * rprod t.rank (t.slice [] g) (t.ndims - 1 - (i + 1)) (i + 1 + 1) l
          = v b * ∑ a ∈ Finset.range (r' (i + 2)), (∑ l ∈ Finset.range (t.rank (i + 2)),
              t.fl [] (i + 1) (ravel (t.modes (i + 1)) (g (i + 1))) b l * T l a) * rprod r' (cvl s.1 [] g) (t.ndims - 1 - (i + 1)) (i + 2) a := by
            congr 1
            simp only [Finset.sum_mul]
            rw [Finset.sum_comm]
            refine Finset.sum_congr rfl fun l hl => ?_
            rw [hT g (fun j hj hj' => hg j (by omega) hj') l (Finset.mem_range.1 hl), Finset.mul_sum]
            refine Finset.sum_congr rfl fun a _ => ?_
            rw [TT.fl, unravel_ravel hgi, TT.slice]; ring
        _ = _ := by
            rw [Finset.mul_sum]
            refine Finset.sum_congr rfl fun a ha => ?_
            rw [q1 b (Finset.mem_range.1 hb) _ (ravel_lt hgi) a (Finset.mem_range.1 ha)]
            ring
    constructor
    · intro hind v hv β hβ
      refine hind v (fun g hg => ?_) β hβ
      simp only [rightPart_eq]
      rw [hrp g (fun j _ hj => hg j hj) v]
      refine Finset.sum_eq_zero fun a _ => ?_
      rw [show (∑ b ∈ Finset.range m', v b *
          ∑ γ ∈ Finset.range (min n' m'), τ b γ * q [] γ (ravel (t.modes (i + 1)) (g (i + 1))) a) = 0 by
        simp only [Finset.mul_sum]
        rw [Finset.sum_comm]
        refine Finset.sum_eq_zero fun γ hγ => ?_
        have := hv γ (Finset.mem_range.1 hγ)
        simp only [vS] at this
        rw [show (∑ b ∈ Finset.range m', v b * (τ b γ * q [] γ (ravel (t.modes (i + 1)) (g (i + 1))) a)) =
          q [] γ (ravel (t.modes (i + 1)) (g (i + 1))) a * ∑ b ∈ Finset.range m', τ b γ * v b by
          rw [Finset.mul_sum]; exact Finset.sum_congr rfl fun b _ => by ring, this, mul_zero], zero_mul]
    · intro hker v hv
      refine hker v fun γ hγ => ?_
      have hrow : ∀ n < t.N (i + 1), ∀ a < r' (i + 2), ∑ γ ∈ Finset.range (min n' m'), q [] γ n a *
          ∑ b ∈ Finset.range m', τ b γ * v b = 0 := by
        intro n hn
        refine rorth_indep (A := fun g => cvl s.1 [] g) (F := cfl s.1 t.modes []) (M := t.modes) (N := t.N) (r := r') (d := t.ndims) (fun k => rfl)
          (fun g k a b => ?_) (rlRank_last _ _ _) (t.ndims - 1 - (i + 1)) (i + 2) (by omega) (fun j h1 h2 => hs.orth j (by omega) h2)
          (fun a => ∑ γ ∈ Finset.range (min n' m'), q [] γ n a * ∑ b ∈ Finset.range m', τ b γ * v b) (fun g hg => ?_)
          (fun g g' k hk => by funext a b; simp only [cvl, hk])
        · by_cases hv : Valid (t.modes k) (g k)
          · left; simp only [cvl, cfl]; rw [unravel_ravel hv]
          · right; exact hv
        -- extend `g` to all modes
        let z : ℕ → List ℕ := fun j => if j = i + 1 then unravel (t.modes (i + 1)) n else if i + 2 ≤ j then g j else unravel (t.modes j) 0
        have hz : ∀ j < t.ndims, Valid (t.modes j) (z j) := fun j hj => by
          simp only [z]
          split_ifs with h1 h2
          · rw [h1]; exact unravel_valid hn
          · exact hg j h2 hj
          · exact unravel_valid (modes_pos h hm hj)
        have := hv z hz
        simp only [rightPart_eq] at this
        rw [hrp _ (fun j _ hj => hz j hj) v] at this
        have hzi : z (i + 1) = unravel (t.modes (i + 1)) n := if_pos rfl
        rw [hzi, ravel_unravel hn] at this
        rw [← this]
        refine Finset.sum_congr rfl fun a ha => ?_
        rw [show rprod r' (cvl s.1 [] z) (t.ndims - 1 - (i + 1)) (i + 2) a = rprod r' (cvl s.1 [] g) (t.ndims - 1 - (i + 1)) (i + 2) a from
          rprod_congr' fun j hj => by funext x y; simp only [cvl, z]; rw [if_neg (by omega), if_pos hj]]
        congr 1
        simp only [Finset.mul_sum]
        rw [Finset.sum_comm]
        exact Finset.sum_congr rfl fun b _ => Finset.sum_congr rfl fun γ _ => by ring
      simp only [vS]
      have e : (∑ b ∈ Finset.range m', τ b γ * v b) =
          ∑ γ' ∈ Finset.range (min n' m'), (if γ' = γ then 1 else 0) * ∑ b ∈ Finset.range m', τ b γ' * v b := by
        rw [Finset.sum_eq_single γ (fun b _ hb => by rw [if_neg hb, zero_mul]) (fun hn => absurd (Finset.mem_range.2 hγ) hn), if_pos rfl, one_mul]
      rw [e, Finset.sum_congr rfl fun γ' hγ' => by rw [← q2 γ' (Finset.mem_range.1 hγ') γ hγ]]
      simp only [Finset.sum_mul]
      rw [Finset.sum_comm]
      refine Finset.sum_eq_zero fun n hn => ?_
      rw [Finset.sum_comm]
      refine Finset.sum_eq_zero fun a ha => ?_
      rw [← mul_zero (q [] γ n a), ← hrow n (Finset.mem_range.1 hn) a (Finset.mem_range.1 ha), Finset.mul_sum]
      exact Finset.sum_congr rfl fun _ _ => by ring
  have hiff : t.RightIndependent (i + 1) ↔ min n' m' = m' ∧ ∀ γ < min n' m', S.get [γ, γ] ≠ 0 :=
    key.trans (upper_injective_iff (fun i j => S.get [i, j]) (fun a ha b hb => qr_upper hqr (bs := none) sX e2 (p := []) trivial a ha b hb))
  have hg : (qrNode [] n' m' S).grad = rlGrad t (i + 1) := by
    unfold qrNode Node.grad rlGrad
    dsimp only
    by_cases hw : t.N (i + 1) * rlRank t.N t.rank t.ndims (i + 1 + 1) < t.rank (i + 1)
    · rw [if_pos (by change n' < m' at hw; omega), if_pos hw]
    · rw [if_neg (by change ¬ n' < m' at hw; omega), if_neg hw]
      have hmin : min n' m' = m' := by change ¬ n' < m' at hw; omega
      by_cases hz : ∃ p, Valid [] p ∧ ∃ γ < min n' m', S.get (p ++ [γ, γ]) = 0
      · rw [if_pos hz, if_neg]
        obtain ⟨p, hp, γ, hγ, hz⟩ := hz
        obtain rfl := (valid_nil_iff p).1 hp
        exact fun hall => (hiff.1 hall).2 γ hγ hz
      · rw [if_neg hz, if_pos]
        exact hiff.2 ⟨hmin, fun γ hγ hz' => hz ⟨[], trivial, γ, hγ, hz'⟩⟩
  refine ⟨s', _, by rw [hrun, es']; rfl, hs', hg, ?_⟩
  rw [hg, rlGrad]
  by_cases hw : t.N (i + 1) * rlRank t.N t.rank t.ndims (i + 1 + 1) < t.rank (i + 1)
  · rw [if_pos hw]
    refine ⟨fun hh => by simp at hh, fun hall => ?_⟩
    have := (hiff.1 hall).1
    change n' < m' at hw
    omega
  · rw [if_neg hw]
    split_ifs with hc
    · exact ⟨fun _ => hc, fun _ => rfl⟩
    · exact ⟨fun hh => by simp at hh, fun hh => absurd hh hc⟩

/-- The tape of the right-to-left sweep: the operations are recorded from the last core to the second. -/
theorem orthoRLT_run {qr : QRRoutine} (hqr : qr.Correct) {t : TT ℝ} (h : t.WF) (hb : t.batch = none) (hm : t.ModesPos) :
    ∃ o nodes, (orthoRLT qr t).run = Except.ok (o, nodes) ∧ orthoRL qr t = Except.ok o ∧
      nodes.map Node.grad = (List.range (t.ndims - 1)).map (fun j => rlGrad t (t.ndims - 1 - j)) ∧
      ((∀ n ∈ nodes, n.grad = Except.ok ()) ↔ ∀ k, 0 < k → k < t.ndims → t.RightIndependent k) := by
  have loop : ∀ (n a : ℕ) (s : List (Tensor ℝ) × ℕ), RLInv t (t.ndims - 1 - a) s → a + n ≤ t.ndims - 1 →
      ∃ s' nodes, (forRangeT (fun j => orthoRLStepT qr t (t.ndims - 1 - j)) a n s).run = Except.ok (s', nodes) ∧
        nodes.map Node.grad = (List.range' a n).map (fun j => rlGrad t (t.ndims - 1 - j)) ∧
        ((∀ x ∈ nodes, x.grad = Except.ok ()) ↔ ∀ j, a ≤ j → j < a + n → t.RightIndependent (t.ndims - 1 - j)) := by
    intro n
    induction n with
    | zero => exact fun a s _ _ => ⟨s, [], rfl, rfl, by simp; intro k h1 h2; omega⟩
    | succ n ih =>
      intro a s hs hle
      obtain ⟨i, hi⟩ : ∃ i, t.ndims - 1 - a = i + 1 := ⟨t.ndims - 1 - a - 1, by omega⟩
      obtain ⟨s1, node, e1, i1, g1, c1⟩ := orthoRLStepT_run hqr h hb i (by omega) hm s (by rw [← hi]; exact hs)
      obtain ⟨s2, nodes, e2, g2, c2⟩ := ih (a + 1) s1 (by rw [show t.ndims - 1 - (a + 1) = i by omega]; exact i1) (by omega)
      refine ⟨s2, node :: nodes, ?_, ?_, ?_⟩
      · rw [forRangeT, run_bind, hi, e1, R.ok_bind, e2]; rfl
      · rw [List.map_cons, List.range'_succ, List.map_cons, g1, g2, hi]
      · rw [List.forall_mem_cons, c1, c2]
        constructor
        · rintro ⟨ha, hb⟩ k hk hk'
          rcases hk.eq_or_lt with rfl | hk
          · rw [hi]; exact ha
          · exact hb k (by omega) (by omega)
        · exact fun hh => ⟨by rw [← hi]; exact hh a le_rfl (by omega), fun k h1 h2 => hh k (by omega) (by omega)⟩
  obtain ⟨s, nodes, e, g, c⟩ := loop (t.ndims - 1) 0 (t.cores, 1) (RLInv.init h hb) (by omega)
  obtain ⟨o, eo, -⟩ := orthoRL_ok hqr h hb hm
  have hv : (orthoRLT qr t).value = Except.ok o := by rw [value_orthoRLT, eo]
  have hr : ∃ x, (orthoRLT qr t).run = Except.ok (x, nodes) ∨ ∃ er, (orthoRLT qr t).run = Except.error er := by
    unfold orthoRLT
    simp only [h.pyRank le_rfl, h.rank_last, plain_bind]
    rw [run_bind, e, R.ok_bind]
    generalize hx : (do
      let first ← plain (pyGet s.1 0)
      let first ← plain (reshape first ((1 :: (coreModes t 0 ++ [s.2])).map some))
      plain (mkTT (s.1.set 0 first) (.shapes t.rawShape) none) : Taped (TT ℝ)) = X
    have hX : X.run = X.value.map fun a => (a, []) := by
      rw [← hx]
      generalize pyGet s.1 0 = a1
      rcases a1 with er | a1
      · rfl
      rw [plain_bind]
      generalize reshape a1 _ = a2
      rcases a2 with er | a2
      · rfl
      rw [plain_bind]
      exact run_plain _
    show ∃ x, (X.run >>= fun q => Except.ok (q.1, nodes ++ q.2)) = Except.ok (x, nodes) ∨ ∃ er, (X.run >>= fun q => Except.ok (q.1, nodes ++ q.2)) = Except.error er
    rw [hX]
    rcases X.value with er | a
    · exact ⟨t, Or.inr ⟨er, rfl⟩⟩
    · exact ⟨a, Or.inl (by simp [Except.map])⟩
  obtain ⟨x, hr | ⟨er, hr⟩⟩ := hr
  · have : x = o := by
      unfold value at hv
      rw [hr] at hv
      exact Except.ok.inj hv
    subst this
    refine ⟨x, nodes, hr, eo, by rw [g, List.range_eq_range'], c.trans ⟨fun hh k h0 hk => ?_, fun hh j _ hj => hh _ (by omega) (by omega)⟩⟩
    have := hh (t.ndims - 1 - k) (by omega) (by omega)
    rwa [show t.ndims - 1 - (t.ndims - 1 - k) = k by omega] at this
  · unfold value at hv
    rw [hr] at hv
    simp [Except.map] at hv

end T3f
