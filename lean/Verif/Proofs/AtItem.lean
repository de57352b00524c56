import Verif.Spec.AtItem
import Verif.Props.C51Closure

/-! # Programs on batches and on their items -/

namespace T3f

theorem hasItem_of_bcast {ra rb rc : List (List ℕ)} {a b : Option ℕ} {o : ℕ} (ha : (Ty.mk ra a).HasItem o) (hb : (Ty.mk rb b).HasItem o) :
    (Ty.mk rc (bcast a b)).HasItem o := by
  rcases a with _ | m <;> rcases b with _ | n <;> simp only [bcast, Ty.HasItem] at * <;> try assumption
  split_ifs with h1
  · exact hb
  · exact ha

theorem hasItem_of_squeezed {ra rc : List (List ℕ)} {a : Option ℕ} {o : ℕ} (ha : (Ty.mk ra a).HasItem o) : (Ty.mk rc (squeezed a)).HasItem o := by
  rw [squeezed_eq]
  split_ifs
  · trivial
  · exact ha

/-- The type and the values of the program on the items. -/
def ItemVal (k : ℕ) (e e' : Expr) : Prop :=
  ∀ τ, e.ty = some τ → τ.HasItem k ∧ e'.ty = some ⟨τ.raw, none⟩ ∧ ∀ o i, Valid τ.shape i → e'.value o i = e.value k i

theorem ItemVal.un {k : ℕ} {a a' e e' : Expr} (h : ItemVal k a a') (h1 : e.ty = a.ty) (h1' : e'.ty = a'.ty) (φ : ℝ → ℝ)
    (h2 : ∀ o i, e.value o i = φ (a.value o i)) (h2' : ∀ o i, e'.value o i = φ (a'.value o i)) : ItemVal k e e' := by
  intro τ hτ
  obtain ⟨i1, i2, i3⟩ := h τ (h1 ▸ hτ)
  exact ⟨i1, h1' ▸ i2, fun o i hi => by rw [h2, h2', i3 o i hi]⟩

theorem ItemVal.add {k : ℕ} {a a' b b' e e' : Expr} (ha : ItemVal k a a') (hb : ItemVal k b b') (φ : ℝ → ℝ → ℝ)
    (h1 : e.ty = (do addTy (← a.ty) (← b.ty))) (h1' : e'.ty = (do addTy (← a'.ty) (← b'.ty)))
    (h2 : ∀ o i, e.value o i = φ (a.value o i) (b.value o i)) (h2' : ∀ o i, e'.value o i = φ (a'.value o i) (b'.value o i)) : ItemVal k e e' := by
  intro τ hτ
  rw [h1] at hτ
  rcases ea : a.ty with _ | α
  · rw [ea] at hτ; cases hτ
  rcases eb : b.ty with _ | β
  · rw [ea, eb] at hτ; cases hτ
  rw [ea, eb] at hτ
  replace hτ : addTy α β = some τ := hτ
  unfold addTy at hτ
  split_ifs at hτ with hc
  obtain ⟨hr, hd, hB⟩ := hc
  obtain rfl := Option.some.inj hτ
  obtain ⟨a1, a2, a3⟩ := ha α ea
  obtain ⟨b1, b2, b3⟩ := hb β eb
  refine ⟨hasItem_of_bcast a1 b1, ?_, fun o i hi => ?_⟩
  · rw [h1', a2, b2]
    show addTy ⟨α.raw, none⟩ ⟨β.raw, none⟩ = _
    unfold addTy
    rw [if_pos ⟨hr, hd, Or.inl ⟨rfl, rfl⟩⟩]
    rfl
  · rw [h2, h2', a3 o i hi, b3 o i (by unfold Ty.shape at hi ⊢; rw [← hr]; exact hi)]

theorem ItemVal.mul {k : ℕ} {a a' b b' : Expr} (ha : ItemVal k a a') (hb : ItemVal k b b') : ItemVal k (.mul a b) (.mul a' b') := by
  intro τ hτ
  rcases ea : a.ty with _ | α
  · rw [Expr.ty, ea] at hτ; cases hτ
  rcases eb : b.ty with _ | β
  · rw [Expr.ty, ea, eb] at hτ; cases hτ
  rw [Expr.ty, ea, eb] at hτ
  replace hτ : mulTy α β = some τ := hτ
  unfold mulTy at hτ
  split_ifs at hτ with hc
  obtain ⟨hr, hB⟩ := hc
  obtain rfl := Option.some.inj hτ
  obtain ⟨a1, a2, a3⟩ := ha α ea
  obtain ⟨b1, b2, b3⟩ := hb β eb
  refine ⟨hasItem_of_bcast a1 b1, ?_, fun o i hi => ?_⟩
  · rw [Expr.ty, a2, b2]
    show mulTy ⟨α.raw, none⟩ ⟨β.raw, none⟩ = _
    unfold mulTy
    rw [if_pos ⟨hr, trivial⟩]
    rfl
  · rw [Expr.value, Expr.value, a3 o i hi, b3 o i (by unfold Ty.shape at hi ⊢; rw [← hr]; exact hi)]

theorem ItemVal.matmul {k : ℕ} {a a' b b' : Expr} (ha : ItemVal k a a') (hb : ItemVal k b b') : ItemVal k (.matmul a b) (.matmul a' b') := by
  intro τ hτ
  rcases ea : a.ty with _ | α
  · rw [Expr.ty, ea] at hτ; cases hτ
  rcases eb : b.ty with _ | β
  · rw [Expr.ty, ea, eb] at hτ; cases hτ
  rw [Expr.ty, ea, eb] at hτ
  replace hτ : matmulTy α β = some τ := hτ
  obtain ⟨a1, a2, a3⟩ := ha α ea
  obtain ⟨b1, b2, b3⟩ := hb β eb
  obtain ⟨ra, ba⟩ := α
  obtain ⟨rb, bb⟩ := β
  unfold matmulTy at hτ
  split at hτ
  next I J J' L hI hJ =>
    simp only at hI hJ
    subst hI hJ
    split_ifs at hτ with hc
    obtain ⟨rfl, hB⟩ := hc
    obtain rfl := Option.some.inj hτ
    refine ⟨hasItem_of_squeezed (ra := []) (hasItem_of_bcast a1 b1), ?_, fun o i hi => ?_⟩
    · rw [Expr.ty, a2, b2]
      show matmulTy ⟨[I, J], none⟩ ⟨[J, L], none⟩ = _
      unfold matmulTy
      simp only
      rw [if_pos ⟨rfl, trivial⟩]
      rfl
    · obtain ⟨x, y, rfl, hx, hy⟩ := (valid_pair _ _ _).1 (show Valid [I.prod, L.prod] i from hi)
      rw [Expr.value, Expr.value, ea, a2]
      refine Finset.sum_congr rfl fun z hz => ?_
      have hz : z < J.prod := Finset.mem_range.1 hz
      exact congrArg₂ _ (a3 o [x, z] ⟨hx, hz, trivial⟩) (b3 o [z, y] ⟨hz, hy, trivial⟩)
  · cases hτ

theorem Expr.AtItem.val {k : ℕ} {e e' : Expr} (hs : e.AtItem k e') (h : e.Ok) (h' : e'.Ok) : ItemVal k e e' := by
  induction hs with
  | @obj t t' hi =>
    obtain ⟨hr, hb, hk, F, F', eF, eF', sF, vF⟩ := hi
    intro τ hτ
    obtain rfl := Option.some.inj hτ
    refine ⟨?_, by rw [Expr.ty, hr, hb], fun o i hi => ?_⟩
    · unfold Ty.HasItem
      rcases ht : t.batch with _ | n
      · trivial
      · exact hk n ht
    · obtain ⟨G, eG, sG, -⟩ := full_ok h'.1
      obtain rfl : G = F' := Except.ok.inj (eG.symm.trans eF')
      rw [Expr.value, Expr.value, Expr.fullOf, Expr.fullOf, eF, eF', hb]
      exact vF i (by rw [sG, hr, TT.bpre, hb]; exact hi)
  | add _ _ iha ihb => exact (iha h.1 h'.1).add (ihb h.2 h'.2) (· + ·) rfl rfl (fun _ _ => rfl) (fun _ _ => rfl)
  | sub _ _ iha ihb => exact (iha h.1 h'.1).add (ihb h.2 h'.2) (· - ·) rfl rfl (fun _ _ => rfl) (fun _ _ => rfl)
  | neg _ iha => exact (iha h h').un rfl rfl (fun x => -x) (fun _ _ => rfl) (fun _ _ => rfl)
  | mul _ _ iha ihb => exact (iha h.1 h'.1).mul (ihb h.2 h'.2)
  | smul c _ iha => exact (iha h h').un rfl rfl (fun x => c * x) (fun _ _ => rfl) (fun _ _ => rfl)
  | matmul _ _ iha ihb => exact (iha h.1 h'.1).matmul (ihb h.2 h'.2)
  | @transpose a a' _ iha =>
    intro τ hτ
    rcases ea : a.ty with _ | α
    · rw [Expr.ty, ea] at hτ; cases hτ
    rw [Expr.ty, ea] at hτ
    replace hτ : transposeTy α = some τ := hτ
    obtain ⟨a1, a2, a3⟩ := iha h h' α ea
    obtain ⟨ra, ba⟩ := α
    unfold transposeTy at hτ
    split at hτ
    next I J hI =>
      simp only at hI
      subst hI
      obtain rfl := Option.some.inj hτ
      refine ⟨a1, by rw [Expr.ty, a2]; rfl, fun o i hi => ?_⟩
      obtain ⟨x, y, rfl, hx, hy⟩ := (valid_pair _ _ _).1 (show Valid [J.prod, I.prod] i from hi)
      exact a3 o [y, x] ⟨hy, hx, trivial⟩
    · cases hτ
  | @orthogonalize lr a a' _ iha =>
    intro τ hτ
    rcases ea : a.ty with _ | α
    · rw [Expr.ty, ea] at hτ; cases hτ
    rw [Expr.ty, ea] at hτ
    replace hτ : (if lr = true ∨ α.batch = none then some α else none) = some τ := hτ
    split_ifs at hτ
    obtain rfl := Option.some.inj hτ
    obtain ⟨a1, a2, a3⟩ := iha h h' α ea
    refine ⟨a1, ?_, a3⟩
    rw [Expr.ty, a2]
    exact if_pos (Or.inr rfl)
  | renormalize eps eps' _ iha => exact (iha h.2 h'.2).un rfl rfl (fun x => x) (fun _ _ => rfl) (fun _ _ => rfl)
  | @expand a a' _ iha =>
    intro τ hτ
    rcases ea : a.ty with _ | α
    · rw [Expr.ty, ea] at hτ; cases hτ
    rw [Expr.ty, ea] at hτ
    obtain rfl := Option.some.inj hτ
    obtain ⟨a1, a2, a3⟩ := iha h h' α ea
    refine ⟨?_, a2, a3⟩
    unfold Ty.HasItem at a1 ⊢
    rcases hb : α.batch with _ | n
    · exact Or.inl rfl
    · rw [hb] at a1; exact a1
  | @squeeze a a' _ iha =>
    intro τ hτ
    rcases ea : a.ty with _ | α
    · rw [Expr.ty, ea] at hτ; cases hτ
    rw [Expr.ty, ea] at hτ
    obtain rfl := Option.some.inj hτ
    obtain ⟨a1, a2, a3⟩ := iha h h' α ea
    refine ⟨hasItem_of_squeezed (ra := α.raw) a1, ?_, a3⟩
    rw [Expr.ty, a2]
    rfl
  | pick j a =>
    intro τ hτ
    rcases ea : a.ty with _ | α
    · rw [Expr.ty, ea] at hτ; cases hτ
    have hτ' := hτ
    rw [Expr.ty, ea] at hτ
    replace hτ : pickTy j α = some τ := hτ
    unfold pickTy at hτ
    split at hτ
    · split_ifs at hτ
      obtain rfl := Option.some.inj hτ
      exact ⟨trivial, hτ', fun o i _ => rfl⟩
    · cases hτ

theorem bsel_bpre {t : TT ℝ} (h : t.WF) {k : ℕ} (hk : ∀ n, t.batch = some n → n = 1 ∨ k < n) : Valid t.bpre (bsel t.batch k) := by
  have : (Ty.mk t.rawShape t.batch).HasItem k := by
    unfold Ty.HasItem
    rcases hb : t.batch with _ | n
    · trivial
    · exact hk n hb
  exact hasItem_valid this h.batch_pos

/-- Items in terms of entries. -/
theorem isItem_iff {k : ℕ} {t t' : TT ℝ} (h : t.WF) (h' : t'.WF) : IsItem k t t' ↔ t'.rawShape = t.rawShape ∧ t'.batch = none ∧
    (∀ n, t.batch = some n → n = 1 ∨ k < n) ∧
      ∀ i, Valid (restShape t.rawShape) i → t'.entry [] (restModes t.rawShape i) = t.entry (bsel t.batch k) (restModes t.rawShape i) := by
  obtain ⟨F, eF, sF, vF⟩ := full_ok h
  obtain ⟨F', eF', sF', vF'⟩ := full_ok h'
  constructor
  · rintro ⟨hr, hb, hk, G, G', eG, eG', sG, vG⟩
    obtain rfl : F = G := Except.ok.inj (eF.symm.trans eG)
    obtain rfl : F' = G' := Except.ok.inj (eF'.symm.trans eG')
    have hp : t'.bpre = [] := by simp [TT.bpre, hb]
    rw [hp, hr] at sF' vF'
    refine ⟨hr, hb, hk, fun i hi => ?_⟩
    rw [← vF' [] i trivial hi, ← vF _ i (bsel_bpre h hk) hi]
    exact vG i (by rw [sF']; exact hi)
  · rintro ⟨hr, hb, hk, hv⟩
    have hp : t'.bpre = [] := by simp [TT.bpre, hb]
    rw [hp, hr] at sF' vF'
    refine ⟨hr, hb, hk, F, F', eF, eF', by rw [sF, sF']; rfl, fun i hi => ?_⟩
    rw [sF'] at hi
    rw [vF _ i (bsel_bpre h hk) hi, ← hv i hi]
    exact vF' [] i trivial hi

theorem Rep.isItem {k : ℕ} {t t' : TT ℝ} {τ : Ty} {v v' : ℕ → List ℕ → ℝ} (hk : τ.HasItem k) (h : Rep t τ v) (h' : Rep t' ⟨τ.raw, none⟩ v')
    (hv : ∀ o i, Valid τ.shape i → v' o i = v k i) : IsItem k t t' := by
  refine (isItem_iff h.wf h'.wf).2 ⟨h'.raw.trans h.raw.symm, h'.batch, fun n hn => ?_, fun i hi => ?_⟩
  · unfold Ty.HasItem at hk
    rw [h.batch] at hn
    rw [hn] at hk
    exact hk
  · have hi : Valid τ.shape i := by rw [h.raw] at hi; exact hi
    rw [h.raw, h.batch, h.val k i hk hi, ← hv 0 i hi]
    exact h'.val 0 i trivial hi

end T3f
