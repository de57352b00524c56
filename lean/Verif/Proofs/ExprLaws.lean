import Verif.Props.C51Closure

/-!
# Types of composed expressions
-/

namespace T3f

theorem same_of {qr : QRRoutine} (hqr : qr.Correct) {e f : Expr} (he : e.Ok) (hf : f.Ok) (re : e.Runs qr) (rf : f.Runs qr)
    (h : ∀ τ σ, e.ty = some τ → f.ty = some σ →
      τ = σ ∧ ∀ o i, τ.HasItem o → Valid τ.shape i → e.value o i = f.value o i) : SameResult qr e f := by
  obtain ⟨τ, hτ⟩ := Option.ne_none_iff_exists'.1 ((C51_ok_iff hqr e he).1 re)
  obtain ⟨σ, hσ⟩ := Option.ne_none_iff_exists'.1 ((C51_ok_iff hqr f hf).1 rf)
  obtain ⟨rfl, hv⟩ := h τ σ hτ hσ
  exact C51_same_value hqr e f he hf τ hτ hσ hv

theorem ty_add {a b : Expr} {τ : Ty} (h : (Expr.add a b).ty = some τ) :
    ∃ α β, a.ty = some α ∧ b.ty = some β ∧ α.raw = β.raw ∧ BCompat α.batch β.batch ∧ τ = ⟨α.raw, bcast α.batch β.batch⟩ := by
  simp only [Expr.ty, Option.bind_eq_bind, Option.bind_eq_some_iff] at h
  obtain ⟨α, ha, β, hb, h⟩ := h
  unfold addTy at h
  split_ifs at h with hc
  simp only [Option.some.injEq] at h
  exact ⟨α, β, ha, hb, hc.1, addBatches_compat hc.2.2, h.symm⟩

theorem ty_sub {a b : Expr} {τ : Ty} (h : (Expr.sub a b).ty = some τ) :
    ∃ α β, a.ty = some α ∧ b.ty = some β ∧ α.raw = β.raw ∧ BCompat α.batch β.batch ∧ τ = ⟨α.raw, bcast α.batch β.batch⟩ :=
  ty_add h

theorem ty_mul {a b : Expr} {τ : Ty} (h : (Expr.mul a b).ty = some τ) :
    ∃ α β, a.ty = some α ∧ b.ty = some β ∧ α.raw = β.raw ∧ BCompat α.batch β.batch ∧ τ = ⟨α.raw, bcast α.batch β.batch⟩ := by
  simp only [Expr.ty, Option.bind_eq_bind, Option.bind_eq_some_iff] at h
  obtain ⟨α, ha, β, hb, h⟩ := h
  unfold mulTy at h
  split_ifs at h with hc
  simp only [Option.some.injEq] at h
  exact ⟨α, β, ha, hb, hc.1, hc.2, h.symm⟩

theorem ty_matmul {a b : Expr} {τ : Ty} (h : (Expr.matmul a b).ty = some τ) :
    ∃ I J L x y, a.ty = some ⟨[I, J], x⟩ ∧ b.ty = some ⟨[J, L], y⟩ ∧ BCompat x y ∧ τ = ⟨[I, L], squeezed (bcast x y)⟩ := by
  simp only [Expr.ty, Option.bind_eq_bind, Option.bind_eq_some_iff] at h
  obtain ⟨⟨ra, x⟩, ha, ⟨rb, y⟩, hb, h⟩ := h
  unfold matmulTy at h
  split at h
  · rename_i I J J' L h1 h2
    simp only at h1 h2
    subst h1 h2
    split_ifs at h with hc
    obtain ⟨rfl, hc⟩ := hc
    simp only [Option.some.injEq] at h
    exact ⟨I, J, L, x, y, ha, hb, hc, h.symm⟩
  · cases h

theorem ty_transpose {a : Expr} {τ : Ty} (h : (Expr.transpose a).ty = some τ) :
    ∃ I J x, a.ty = some ⟨[I, J], x⟩ ∧ τ = ⟨[J, I], x⟩ := by
  simp only [Expr.ty, Option.bind_eq_bind, Option.bind_eq_some_iff] at h
  obtain ⟨⟨ra, x⟩, ha, h⟩ := h
  unfold transposeTy at h
  split at h
  · rename_i I J h1
    simp only at h1
    subst h1
    simp only [Option.some.injEq] at h
    exact ⟨I, J, x, ha, h.symm⟩
  · cases h

/-! ## Broadcast sizes -/

theorem bcast_comm {a b : Option ℕ} (h : BCompat a b) : bcast a b = bcast b a := by
  rcases a with _ | m <;> rcases b with _ | n <;> simp only [bcast, BCompat] at *
  split_ifs <;> (try simp) <;> omega

theorem bcast_self (a : Option ℕ) : bcast a a = a := by
  rcases a with _ | m <;> simp only [bcast]
  split_ifs <;> simp

theorem bcast_assoc {a b c : Option ℕ} (hab : BCompat a b) (hbc : BCompat b c) (h1 : BCompat (bcast a b) c) :
    bcast (bcast a b) c = bcast a (bcast b c) := by
  rcases a with _ | m <;> rcases b with _ | n <;> rcases c with _ | k <;> simp only [bcast, BCompat] at *
  all_goals try split_ifs at *
  all_goals simp_all

theorem bcast_distrib {a b c : Option ℕ} (hbc : BCompat b c) (h1 : BCompat a (bcast b c)) (hab : BCompat a b) (hac : BCompat a c) :
    bcast a (bcast b c) = bcast (bcast a b) (bcast a c) := by
  rcases a with _ | m <;> rcases b with _ | n <;> rcases c with _ | k <;> simp only [bcast, BCompat] at *
  all_goals try split_ifs at *
  all_goals simp_all

theorem squeezed_bcast {a b : Option ℕ} (h : BCompat a b) : squeezed (bcast a b) = bcast (squeezed a) (squeezed b) := by
  rcases a with _ | m <;> rcases b with _ | n <;> simp only [squeezed_eq, bcast, BCompat, Option.some.injEq] at *
  all_goals split_ifs at *
  all_goals simp_all

theorem squeezed_squeezed (a : Option ℕ) : squeezed (squeezed a) = squeezed a := by
  rw [squeezed_eq (squeezed a), if_neg (squeezed_ne_one a)]

theorem compat_squeezed {a b : Option ℕ} (h : BCompat a b) : BCompat (squeezed a) (squeezed b) := by
  rcases a with _ | m <;> rcases b with _ | n <;> simp only [squeezed_eq, BCompat] at *
  all_goals split_ifs <;> simp_all

theorem compat_symm {a b : Option ℕ} (h : BCompat a b) : BCompat b a := by
  rcases a with _ | m <;> rcases b with _ | n <;> simp only [BCompat] at *
  omega

end T3f
