import Verif.Proofs.ExprLaws
import Verif.Props.C11Inner
import Verif.Props.C13Norm

/-!
# C52: algebraic laws

Every law is about two programs. Whenever both run, the dense forms of their results are equal, for objects of
any shape, any ranks and any batch sizes. (That both run is a condition: `add` is not symmetric in the batch
sizes it accepts, see C05.)
-/

namespace T3f

section
variable {qr : QRRoutine} (hqr : qr.Correct) (a b c : Expr)
include hqr

/-- **C52.** `a + b = b + a`. -/
theorem C52_add_comm (ha : a.Ok) (hb : b.Ok) (h1 : (Expr.add a b).Runs qr) (h2 : (Expr.add b a).Runs qr) :
    SameResult qr (.add a b) (.add b a) := by
  refine same_of hqr ⟨ha, hb⟩ ⟨hb, ha⟩ h1 h2 fun τ σ hτ hσ => ⟨?_, fun o i _ _ => add_comm _ _⟩
  obtain ⟨α, β, e1, e2, hr, hc, rfl⟩ := ty_add hτ
  obtain ⟨β', α', e3, e4, -, -, rfl⟩ := ty_add hσ
  rw [e1] at e4; rw [e2] at e3; cases e3; cases e4
  rw [hr, bcast_comm hc]

/-- **C52.** `(a + b) + c = a + (b + c)`. -/
theorem C52_add_assoc (ha : a.Ok) (hb : b.Ok) (hc : c.Ok) (h1 : (Expr.add (.add a b) c).Runs qr)
    (h2 : (Expr.add a (.add b c)).Runs qr) : SameResult qr (.add (.add a b) c) (.add a (.add b c)) := by
  refine same_of hqr ⟨⟨ha, hb⟩, hc⟩ ⟨ha, hb, hc⟩ h1 h2 fun τ σ hτ hσ => ⟨?_, fun o i _ _ => add_assoc _ _ _⟩
  obtain ⟨_, γ, e1, e2, hr, hc1, rfl⟩ := ty_add hτ
  obtain ⟨α, β, e3, e4, hr', hc2, rfl⟩ := ty_add e1
  obtain ⟨α', _, e5, e6, -, hc3, rfl⟩ := ty_add hσ
  obtain ⟨β', γ', e7, e8, -, hc4, rfl⟩ := ty_add e6
  rw [e3] at e5; rw [e4] at e7; rw [e2] at e8; cases e5; cases e7; cases e8
  rw [bcast_assoc hc2 hc4 hc1]

/-- **C52.** `a * b = b * a` (elementwise). -/
theorem C52_mul_comm (ha : a.Ok) (hb : b.Ok) (h1 : (Expr.mul a b).Runs qr) (h2 : (Expr.mul b a).Runs qr) :
    SameResult qr (.mul a b) (.mul b a) := by
  refine same_of hqr ⟨ha, hb⟩ ⟨hb, ha⟩ h1 h2 fun τ σ hτ hσ => ⟨?_, fun o i _ _ => mul_comm _ _⟩
  obtain ⟨α, β, e1, e2, hr, hc, rfl⟩ := ty_mul hτ
  obtain ⟨β', α', e3, e4, -, -, rfl⟩ := ty_mul hσ
  rw [e1] at e4; rw [e2] at e3; cases e3; cases e4
  rw [hr, bcast_comm hc]

/-- **C52.** `(a * b) * c = a * (b * c)` (elementwise). -/
theorem C52_mul_assoc (ha : a.Ok) (hb : b.Ok) (hc : c.Ok) (h1 : (Expr.mul (.mul a b) c).Runs qr)
    (h2 : (Expr.mul a (.mul b c)).Runs qr) : SameResult qr (.mul (.mul a b) c) (.mul a (.mul b c)) := by
  refine same_of hqr ⟨⟨ha, hb⟩, hc⟩ ⟨ha, hb, hc⟩ h1 h2 fun τ σ hτ hσ => ⟨?_, fun o i _ _ => mul_assoc _ _ _⟩
  obtain ⟨_, γ, e1, e2, hr, hc1, rfl⟩ := ty_mul hτ
  obtain ⟨α, β, e3, e4, hr', hc2, rfl⟩ := ty_mul e1
  obtain ⟨α', _, e5, e6, -, hc3, rfl⟩ := ty_mul hσ
  obtain ⟨β', γ', e7, e8, -, hc4, rfl⟩ := ty_mul e6
  rw [e3] at e5; rw [e4] at e7; rw [e2] at e8; cases e5; cases e7; cases e8
  rw [bcast_assoc hc2 hc4 hc1]

/-- **C52.** `a * (b + c) = a * b + a * c` (elementwise). -/
theorem C52_mul_add (ha : a.Ok) (hb : b.Ok) (hc : c.Ok) (h1 : (Expr.mul a (.add b c)).Runs qr)
    (h2 : (Expr.add (.mul a b) (.mul a c)).Runs qr) : SameResult qr (.mul a (.add b c)) (.add (.mul a b) (.mul a c)) := by
  refine same_of hqr ⟨ha, hb, hc⟩ ⟨⟨ha, hb⟩, ha, hc⟩ h1 h2 fun τ σ hτ hσ => ⟨?_, fun o i _ _ => mul_add _ _ _⟩
  obtain ⟨α, _, e1, e2, hr, hc1, rfl⟩ := ty_mul hτ
  obtain ⟨β, γ, e3, e4, hr', hc2, rfl⟩ := ty_add e2
  obtain ⟨_, _, e5, e6, -, hc3, rfl⟩ := ty_add hσ
  obtain ⟨α', β', e7, e8, -, hc4, rfl⟩ := ty_mul e5
  obtain ⟨α'', γ', e9, e10, -, hc5, rfl⟩ := ty_mul e6
  rw [e1] at e7 e9; rw [e3] at e8; rw [e4] at e10; cases e7; cases e8; cases e9; cases e10
  rw [bcast_distrib hc2 hc1 hc4 hc5]

/-- **C52.** `(a + b) * c = a * c + b * c` (elementwise). -/
theorem C52_add_mul (ha : a.Ok) (hb : b.Ok) (hc : c.Ok) (h1 : (Expr.mul (.add a b) c).Runs qr)
    (h2 : (Expr.add (.mul a c) (.mul b c)).Runs qr) : SameResult qr (.mul (.add a b) c) (.add (.mul a c) (.mul b c)) := by
  refine same_of hqr ⟨⟨ha, hb⟩, hc⟩ ⟨⟨ha, hc⟩, hb, hc⟩ h1 h2 fun τ σ hτ hσ => ⟨?_, fun o i _ _ => add_mul _ _ _⟩
  obtain ⟨_, γ, e1, e2, hr, hc1, rfl⟩ := ty_mul hτ
  obtain ⟨α, β, e3, e4, hr', hc2, rfl⟩ := ty_add e1
  obtain ⟨_, _, e5, e6, -, hc3, rfl⟩ := ty_add hσ
  obtain ⟨α', γ', e7, e8, -, hc4, rfl⟩ := ty_mul e5
  obtain ⟨β', γ'', e9, e10, -, hc5, rfl⟩ := ty_mul e6
  rw [e3] at e7; rw [e4] at e9; rw [e2] at e8 e10; cases e7; cases e8; cases e9; cases e10
  rw [bcast_comm hc1, bcast_distrib hc2 (compat_symm hc1) (compat_symm hc4) (compat_symm hc5), bcast_comm hc4, bcast_comm hc5]

/-- **C52.** `a - b = a + (-b)`. -/
theorem C52_sub_eq (ha : a.Ok) (hb : b.Ok) (h1 : (Expr.sub a b).Runs qr) (h2 : (Expr.add a (.neg b)).Runs qr) :
    SameResult qr (.sub a b) (.add a (.neg b)) := by
  refine same_of hqr ⟨ha, hb⟩ ⟨ha, hb⟩ h1 h2 fun τ σ hτ hσ => ⟨?_, fun o i _ _ => sub_eq_add_neg _ _⟩
  rw [show (Expr.add a (.neg b)).ty = (Expr.sub a b).ty from rfl, hτ] at hσ
  cases hσ; rfl

/-- **C52.** `x * (y * a) = (x y) * a`. -/
theorem C52_smul_smul (ha : a.Ok) (x y : ℝ) (h1 : (Expr.smul x (.smul y a)).Runs qr) (h2 : (Expr.smul (x * y) a).Runs qr) :
    SameResult qr (.smul x (.smul y a)) (.smul (x * y) a) := by
  refine same_of hqr ha ha h1 h2 fun τ σ hτ hσ => ⟨?_, fun o i _ _ => (mul_assoc _ _ _).symm⟩
  rw [show (Expr.smul (x * y) a).ty = (Expr.smul x (.smul y a)).ty from rfl, hτ] at hσ
  cases hσ; rfl

/-- **C52.** `x * (a + b) = x * a + x * b`. -/
theorem C52_smul_add (ha : a.Ok) (hb : b.Ok) (x : ℝ) (h1 : (Expr.smul x (.add a b)).Runs qr)
    (h2 : (Expr.add (.smul x a) (.smul x b)).Runs qr) : SameResult qr (.smul x (.add a b)) (.add (.smul x a) (.smul x b)) := by
  refine same_of hqr ⟨ha, hb⟩ ⟨ha, hb⟩ h1 h2 fun τ σ hτ hσ => ⟨?_, fun o i _ _ => mul_add _ _ _⟩
  rw [show (Expr.add (.smul x a) (.smul x b)).ty = (Expr.smul x (.add a b)).ty from rfl, hτ] at hσ
  cases hσ; rfl

/-- **C52.** `(a b) c = a (b c)` for matrix products. -/
theorem C52_matmul_assoc (ha : a.Ok) (hb : b.Ok) (hc : c.Ok) (h1 : (Expr.matmul (.matmul a b) c).Runs qr)
    (h2 : (Expr.matmul a (.matmul b c)).Runs qr) : SameResult qr (.matmul (.matmul a b) c) (.matmul a (.matmul b c)) := by
  refine same_of hqr ⟨⟨ha, hb⟩, hc⟩ ⟨ha, hb, hc⟩ h1 h2 fun τ σ hτ hσ => ?_
  obtain ⟨I, J, L, _, z, e1, e2, hc1, rfl⟩ := ty_matmul hτ
  obtain ⟨I', M, J', x, y, e3, e4, hc2, hτ'⟩ := ty_matmul e1
  obtain ⟨I'', M', L', x', _, e5, e6, hc3, rfl⟩ := ty_matmul hσ
  obtain ⟨M'', J'', L'', y', z', e7, e8, hc4, hσ'⟩ := ty_matmul e6
  have hin := e1
  cases hτ'; cases hσ'
  rw [e3] at e5; rw [e4] at e7; rw [e2] at e8; cases e5; cases e7; cases e8
  refine ⟨?_, fun o i _ _ => ?_⟩
  · rw [squeezed_bcast hc1, squeezed_squeezed, squeezed_bcast hc2, squeezed_bcast hc3, squeezed_squeezed, squeezed_bcast hc4,
      bcast_assoc (compat_squeezed hc2) (compat_squeezed hc4)]
    have := compat_squeezed hc1
    rwa [squeezed_squeezed, squeezed_bcast hc2] at this
  · simp only [Expr.value, innerDim, e3, e4, hin, List.getD_cons_zero, List.getD_cons_succ, Finset.sum_mul, Finset.mul_sum]
    rw [Finset.sum_comm]
    exact Finset.sum_congr rfl fun u _ => Finset.sum_congr rfl fun v _ => mul_assoc _ _ _

/-- **C52.** `(a + b) c = a c + b c` for matrix products. -/
theorem C52_add_matmul (ha : a.Ok) (hb : b.Ok) (hc : c.Ok) (h1 : (Expr.matmul (.add a b) c).Runs qr)
    (h2 : (Expr.add (.matmul a c) (.matmul b c)).Runs qr) :
    SameResult qr (.matmul (.add a b) c) (.add (.matmul a c) (.matmul b c)) := by
  refine same_of hqr ⟨⟨ha, hb⟩, hc⟩ ⟨⟨ha, hc⟩, hb, hc⟩ h1 h2 fun τ σ hτ hσ => ?_
  obtain ⟨I, J, L, _, z, e1, e2, hc1, rfl⟩ := ty_matmul hτ
  obtain ⟨⟨ra, x⟩, ⟨rb, y⟩, e3, e4, hr, hc2, hτ'⟩ := ty_add e1
  obtain ⟨_, _, e5, e6, -, hc3, rfl⟩ := ty_add hσ
  obtain ⟨I', J', L', x', z', e7, e8, hc4, rfl⟩ := ty_matmul e5
  obtain ⟨I'', J'', L'', y', z'', e9, e10, hc5, rfl⟩ := ty_matmul e6
  have hin := e1
  cases hτ'
  rw [e3] at e7; rw [e4] at e9; rw [e2] at e8 e10; cases e7; cases e8; cases e9; cases e10
  simp only at hr hc2 hc3
  refine ⟨?_, fun o i _ _ => ?_⟩
  · have hz : BCompat (squeezed z) (bcast (squeezed x) (squeezed y)) := by
      rw [← squeezed_bcast hc2]; exact compat_symm (compat_squeezed hc1)
    have := bcast_distrib (compat_squeezed hc2) hz (compat_symm (compat_squeezed hc4)) (compat_symm (compat_squeezed hc5))
    rw [squeezed_bcast hc1, squeezed_bcast hc2, squeezed_bcast hc4, squeezed_bcast hc5, bcast_comm (compat_symm hz), this,
      bcast_comm (compat_squeezed hc4), bcast_comm (compat_squeezed hc5)]
  · simp only [Expr.value, innerDim, e3, e4, hin, add_mul, Finset.sum_add_distrib]
    rfl

/-- **C52.** `a (b + c) = a b + a c` for matrix products. -/
theorem C52_matmul_add (ha : a.Ok) (hb : b.Ok) (hc : c.Ok) (h1 : (Expr.matmul a (.add b c)).Runs qr)
    (h2 : (Expr.add (.matmul a b) (.matmul a c)).Runs qr) :
    SameResult qr (.matmul a (.add b c)) (.add (.matmul a b) (.matmul a c)) := by
  refine same_of hqr ⟨ha, hb, hc⟩ ⟨⟨ha, hb⟩, ha, hc⟩ h1 h2 fun τ σ hτ hσ => ?_
  obtain ⟨I, J, L, x, _, e1, e2, hc1, rfl⟩ := ty_matmul hτ
  obtain ⟨⟨rb, y⟩, ⟨rc, z⟩, e3, e4, hr, hc2, hτ'⟩ := ty_add e2
  obtain ⟨_, _, e5, e6, -, hc3, rfl⟩ := ty_add hσ
  obtain ⟨I', J', L', x', y', e7, e8, hc4, rfl⟩ := ty_matmul e5
  obtain ⟨I'', J'', L'', x'', z', e9, e10, hc5, rfl⟩ := ty_matmul e6
  cases hτ'
  have ea := e1
  rw [e1] at e7 e9; rw [e3] at e8; rw [e4] at e10; cases e7; cases e8; cases e9; cases e10
  simp only at hr hc2 hc3
  refine ⟨?_, fun o i _ _ => ?_⟩
  · have hz : BCompat (squeezed x) (bcast (squeezed y) (squeezed z)) := by
      rw [← squeezed_bcast hc2]; exact compat_squeezed hc1
    have := bcast_distrib (compat_squeezed hc2) hz (compat_squeezed hc4) (compat_squeezed hc5)
    rw [squeezed_bcast hc1, squeezed_bcast hc2, squeezed_bcast hc4, squeezed_bcast hc5, this]
  · simp only [Expr.value, mul_add, Finset.sum_add_distrib]

/-- **C52.** `(x a) b = x (a b)` and `a (x b) = x (a b)` for matrix products. -/
theorem C52_smul_matmul (ha : a.Ok) (hb : b.Ok) (x : ℝ) (h : (Expr.matmul a b).Runs qr) :
    SameResult qr (.matmul (.smul x a) b) (.smul x (.matmul a b)) ∧
    SameResult qr (.matmul a (.smul x b)) (.smul x (.matmul a b)) := by
  have ht := (C51_ok_iff hqr (.matmul a b) ⟨ha, hb⟩).1 h
  have e1 : (Expr.matmul (.smul x a) b).ty = (Expr.matmul a b).ty := rfl
  have e2 : (Expr.matmul a (.smul x b)).ty = (Expr.matmul a b).ty := rfl
  have e3 : (Expr.smul x (.matmul a b)).ty = (Expr.matmul a b).ty := rfl
  have r1 := (C51_ok_iff hqr (.matmul (.smul x a) b) ⟨ha, hb⟩).2 (by rw [e1]; exact ht)
  have r2 := (C51_ok_iff hqr (.matmul a (.smul x b)) ⟨ha, hb⟩).2 (by rw [e2]; exact ht)
  have r3 := (C51_ok_iff hqr (.smul x (.matmul a b)) ⟨ha, hb⟩).2 (by rw [e3]; exact ht)
  constructor
  · refine same_of hqr ⟨ha, hb⟩ ⟨ha, hb⟩ r1 r3 fun τ σ hτ hσ => ⟨?_, fun o i _ _ => ?_⟩
    · rw [e1, ← e3, hσ] at hτ; cases hτ; rfl
    · simp only [Expr.value, Finset.mul_sum, Expr.ty, mul_assoc]
  · refine same_of hqr ⟨ha, hb⟩ ⟨ha, hb⟩ r2 r3 fun τ σ hτ hσ => ⟨?_, fun o i _ _ => ?_⟩
    · rw [e2, ← e3, hσ] at hτ; cases hτ; rfl
    · simp only [Expr.value, Finset.mul_sum]
      exact Finset.sum_congr rfl fun z _ => by ring

/-- **C52.** `(a b)ᵀ = bᵀ aᵀ`. -/
theorem C52_transpose_matmul (ha : a.Ok) (hb : b.Ok) (h1 : (Expr.transpose (.matmul a b)).Runs qr)
    (h2 : (Expr.matmul (.transpose b) (.transpose a)).Runs qr) :
    SameResult qr (.transpose (.matmul a b)) (.matmul (.transpose b) (.transpose a)) := by
  refine same_of hqr ⟨ha, hb⟩ ⟨hb, ha⟩ h1 h2 fun τ σ hτ hσ => ?_
  obtain ⟨I, L, _, e1, rfl⟩ := ty_transpose hτ
  obtain ⟨I', J, L', x, y, e2, e3, hc, hτ'⟩ := ty_matmul e1
  obtain ⟨L'', J', I'', y', x', e4, e5, hc', rfl⟩ := ty_matmul hσ
  obtain ⟨J1, L1, _, e6, h6⟩ := ty_transpose e4
  obtain ⟨I2, J2, _, e7, h7⟩ := ty_transpose e5
  have et := e4
  cases hτ'; cases h6; cases h7
  rw [e2] at e7; rw [e3] at e6; cases e6; cases e7
  refine ⟨by rw [bcast_comm hc], fun o i _ hi => ?_⟩
  obtain ⟨u, v, rfl, -, -⟩ := (valid_pair _ _ _).1 (show Valid [L.prod, I.prod] i from hi)
  simp only [Expr.value, innerDim, e2, et, List.reverse_cons, List.reverse_nil, List.nil_append, List.cons_append,
    List.getD_cons_zero, List.getD_cons_succ]
  exact Finset.sum_congr rfl fun z _ => mul_comm _ _

/-- **C52.** `aᵀᵀ = a`. -/
theorem C52_transpose_transpose (ha : a.Ok) (h1 : (Expr.transpose (.transpose a)).Runs qr) :
    SameResult qr (.transpose (.transpose a)) a := by
  have ht := (C51_ok_iff hqr (.transpose (.transpose a)) ha).1 h1
  obtain ⟨τ, hτ⟩ := Option.ne_none_iff_exists'.1 ht
  obtain ⟨I, J, x, e1, rfl⟩ := ty_transpose hτ
  obtain ⟨I', J', x', e2, h2⟩ := ty_transpose e1
  cases h2
  have h2 := (C51_ok_iff hqr a ha).2 (by rw [e2]; simp)
  refine same_of hqr ha ha h1 h2 fun τ σ hτ' hσ => ?_
  rw [hτ] at hτ'; rw [e2] at hσ; cases hτ'; cases hσ
  exact ⟨rfl, fun o i _ _ => by simp only [Expr.value, List.reverse_reverse]⟩

/-- **C52.** `(a + b)ᵀ = aᵀ + bᵀ`. -/
theorem C52_transpose_add (ha : a.Ok) (hb : b.Ok) (h1 : (Expr.transpose (.add a b)).Runs qr)
    (h2 : (Expr.add (.transpose a) (.transpose b)).Runs qr) :
    SameResult qr (.transpose (.add a b)) (.add (.transpose a) (.transpose b)) := by
  refine same_of hqr ⟨ha, hb⟩ ⟨ha, hb⟩ h1 h2 fun τ σ hτ hσ => ⟨?_, fun o i _ _ => rfl⟩
  obtain ⟨I, J, _, e1, rfl⟩ := ty_transpose hτ
  obtain ⟨α, β, e2, e3, hr, hc, h⟩ := ty_add e1
  obtain ⟨_, _, e4, e5, -, -, rfl⟩ := ty_add hσ
  obtain ⟨I1, J1, x1, e6, rfl⟩ := ty_transpose e4
  obtain ⟨I2, J2, x2, e7, rfl⟩ := ty_transpose e5
  rw [e2] at e6; rw [e3] at e7; cases e6; cases e7; cases h
  rfl

/-! ## Inner products -/

omit hqr in
theorem itemOf_squeezed {F : Tensor ℝ} {b : Option ℕ} (hs : F.shape = (squeezed b).toList) (o : ℕ) :
    itemOf F o = F.get (bsel (squeezed b) o) := by
  unfold itemOf
  rw [squeezed_bsel]
  rcases hb : squeezed b with _ | n <;> simp [hs, hb, lsel]

/-- `flat_inner` of the results of two programs, in terms of the dense computations they stand for. -/
theorem innerOf_ok (ha : a.Ok) (hb : b.Ok) {F : Tensor ℝ} (h : innerOf qr a b = Except.ok F) :
    ∃ α β, a.ty = some α ∧ b.ty = some β ∧ α.raw = β.raw ∧ BCompat α.batch β.batch ∧
      F.shape = (squeezed (bcast α.batch β.batch)).toList ∧
      ∀ o, (Ty.mk [] (bcast α.batch β.batch)).HasItem o →
        itemOf F o = ∑ n ∈ Finset.range α.shape.prod, a.value o (unravel α.shape n) * b.value o (unravel α.shape n) := by
  have h1 := C51_closure hqr a ha
  have h2 := C51_closure hqr b hb
  unfold innerOf at h
  cases ea : a.ty with
  | none => rw [ea] at h1; obtain ⟨e, he⟩ := h1; rw [he] at h; cases h
  | some α =>
  cases eb : b.ty with
  | none =>
      rw [ea] at h1; obtain ⟨s, -, hs, -⟩ := h1
      rw [eb] at h2; obtain ⟨e, he⟩ := h2; rw [hs, he] at h; cases h
  | some β =>
  rw [ea] at h1; rw [eb] at h2
  obtain ⟨s, S, es, ws, rs, bs, eS, sS, vS⟩ := h1
  obtain ⟨t, T, et, wt, rt, bt, eT, sT, vT⟩ := h2
  rw [es, et, R.ok_bind, R.ok_bind] at h
  have hm : s.isMatrix ↔ t.isMatrix := by
    by_contra hc; rw [C11_flat_inner_error s t (Or.inl hc)] at h; cases h
  have hB : BCompat s.batch t.batch := by
    by_contra hc; rw [C11_flat_inner_error s t (Or.inr (Or.inl hc))] at h; cases h
  have hn : s.ndims = t.ndims := by
    by_contra hc; rw [C11_flat_inner_error s t (Or.inr (Or.inr (Ne.symm hc)))] at h; cases h
  have hr : s.rawShape = t.rawShape := by
    by_contra hc; rw [C11_flat_inner_shape_mismatch s t ws wt hm hn hB hc] at h; cases h
  obtain ⟨F', S', T', sh, eF', eS', eT', sS', sT', sF', vF'⟩ := C11_flat_inner s t ws wt hr hB
  rw [h] at eF'; cases eF'
  rw [eS] at eS'; cases eS'
  rw [eT] at eT'; cases eT'
  rw [bs, bt] at hB sF' vF'
  have hsh : sh = α.shape := by
    rw [sS, bs] at sS'; exact (List.append_cancel_left sS').symm
  subst hsh
  refine ⟨α, β, rfl, rfl, by rw [← rs, ← rt, hr], hB, sF', fun o ho => ?_⟩
  have h0 : bcast α.batch β.batch ≠ some 0 :=
    bcast_ne_zero hB (by rw [← bs]; exact ws.batch_pos) (by rw [← bt]; exact wt.batch_pos)
  have hosq : (Ty.mk [] (squeezed (bcast α.batch β.batch))).HasItem o := by
    rw [squeezed_eq]; split_ifs
    · trivial
    · exact ho
  obtain ⟨o', ho', pa, pb, pc⟩ := bcast_low hB [] hosq h0
  rw [itemOf_squeezed sF', ← pc, vF' o' ho', pa, pb]
  obtain ⟨oa, ob⟩ := hasItem_bcast (ra := α.raw) (rb := β.raw) hB ho
  refine Finset.sum_congr rfl fun n hn => ?_
  have hv := unravel_valid (show n < α.shape.prod by simpa using hn)
  rw [vS o _ oa hv, vT o _ ob (by unfold Ty.shape at hv ⊢; rw [← rt, ← hr, rs]; exact hv)]

/-- `flat_inner` accepts the results of programs of equal shapes and compatible batch sizes. -/
theorem innerOf_runs (ha : a.Ok) (hb : b.Ok) (α β : Ty) (ea : a.ty = some α) (eb : b.ty = some β) (hr : α.raw = β.raw)
    (hc : BCompat α.batch β.batch) : ∃ F, innerOf qr a b = Except.ok F := by
  have h1 := C51_closure hqr a ha
  have h2 := C51_closure hqr b hb
  rw [ea] at h1; rw [eb] at h2
  obtain ⟨s, S, es, ws, rs, bs, -⟩ := h1
  obtain ⟨t, T, et, wt, rt, bt, -⟩ := h2
  obtain ⟨F, -, -, -, eF, -⟩ := C11_flat_inner s t ws wt (by rw [rs, rt, hr]) (by rw [bs, bt]; exact hc)
  exact ⟨F, by unfold innerOf; rw [es, et]; exact eF⟩

/-- **C52.** `flat_inner(a + b, c) = flat_inner(a, c) + flat_inner(b, c)`, item by item. -/
theorem C52_inner_add (ha : a.Ok) (hb : b.Ok) (hc : c.Ok) (F G H : Tensor ℝ) (hF : innerOf qr (.add a b) c = Except.ok F)
    (hG : innerOf qr a c = Except.ok G) (hH : innerOf qr b c = Except.ok H) :
    ∀ o < F.shape.headD 1, itemOf F o = itemOf G o + itemOf H o := by
  obtain ⟨_, γ, e1, e2, r1, c1, s1, v1⟩ := innerOf_ok hqr (.add a b) c ⟨ha, hb⟩ hc hF
  obtain ⟨α, γ', e3, e4, r2, c2, s2, v2⟩ := innerOf_ok hqr a c ha hc hG
  obtain ⟨β, γ'', e5, e6, r3, c3, s3, v3⟩ := innerOf_ok hqr b c hb hc hH
  obtain ⟨α', β', e7, e8, r4, c4, rfl⟩ := ty_add e1
  rw [e3] at e7; rw [e5] at e8; rw [e2] at e4 e6; cases e4; cases e6; cases e7; cases e8
  intro o ho
  have hit : (Ty.mk [] (bcast (bcast α.batch β.batch) γ.batch)).HasItem o := by
    rw [s1] at ho
    refine hasItem_squeezed (r := []) ?_
    simp only at ho
    rcases hb : squeezed (bcast (bcast α.batch β.batch) γ.batch) with _ | n
    · trivial
    · rw [hb] at ho; exact Or.inr ho
  obtain ⟨oab, oc⟩ := hasItem_bcast (ra := []) (rb := []) c1 hit
  obtain ⟨oa, ob⟩ := hasItem_bcast (ra := []) (rb := []) c4 oab
  have join : ∀ {x y : Option ℕ}, (Ty.mk [] x).HasItem o → (Ty.mk [] y).HasItem o → (Ty.mk [] (bcast x y)).HasItem o := by
    intro x y hx hy
    rcases x with _ | m <;> rcases y with _ | n <;> simp only [bcast, Ty.HasItem] at * <;> try tauto
    split_ifs <;> simp only <;> tauto
  rw [v1 o hit, v2 o (join oa oc), v3 o (join ob oc), show β.shape = α.shape by unfold Ty.shape; rw [r4], ← Finset.sum_add_distrib]
  exact Finset.sum_congr rfl fun n _ => by simp only [Expr.value]; exact add_mul _ _ _

/-- **C52.** `flat_inner(x a, b) = x flat_inner(a, b)`, item by item. -/
theorem C52_inner_smul (ha : a.Ok) (hb : b.Ok) (x : ℝ) (F G : Tensor ℝ) (hF : innerOf qr (.smul x a) b = Except.ok F)
    (hG : innerOf qr a b = Except.ok G) : F.shape = G.shape ∧ ∀ o < F.shape.headD 1, itemOf F o = x * itemOf G o := by
  obtain ⟨α, β, e1, e2, r1, c1, s1, v1⟩ := innerOf_ok hqr (.smul x a) b ha hb hF
  obtain ⟨α', β', e3, e4, r2, c2, s2, v2⟩ := innerOf_ok hqr a b ha hb hG
  rw [show (Expr.smul x a).ty = a.ty from rfl, e3] at e1; rw [e2] at e4; cases e1; cases e4
  refine ⟨by rw [s1, s2], fun o ho => ?_⟩
  have hit : (Ty.mk [] (bcast α.batch β.batch)).HasItem o := by
    rw [s1] at ho
    refine hasItem_squeezed (r := []) ?_
    rcases hb : squeezed (bcast α.batch β.batch) with _ | n
    · trivial
    · rw [hb] at ho; exact Or.inr ho
  rw [v1 o hit, v2 o hit, Finset.mul_sum]
  exact Finset.sum_congr rfl fun n _ => by simp only [Expr.value]; ring

/-- **C52.** `flat_inner(a, b) = flat_inner(b, a)`, item by item. -/
theorem C52_inner_comm (ha : a.Ok) (hb : b.Ok) (F G : Tensor ℝ) (hF : innerOf qr a b = Except.ok F)
    (hG : innerOf qr b a = Except.ok G) : F.shape = G.shape ∧ ∀ o < F.shape.headD 1, itemOf F o = itemOf G o := by
  obtain ⟨α, β, e1, e2, r1, c1, s1, v1⟩ := innerOf_ok hqr a b ha hb hF
  obtain ⟨β', α', e3, e4, r2, c2, s2, v2⟩ := innerOf_ok hqr b a hb ha hG
  rw [e1] at e4; rw [e2] at e3; cases e3; cases e4
  refine ⟨by rw [s1, s2, bcast_comm c1], fun o ho => ?_⟩
  have hit : (Ty.mk [] (bcast α.batch β.batch)).HasItem o := by
    rw [s1] at ho
    refine hasItem_squeezed (r := []) ?_
    rcases hb : squeezed (bcast α.batch β.batch) with _ | n
    · trivial
    · rw [hb] at ho; exact Or.inr ho
  rw [v1 o hit, v2 o (by rw [bcast_comm c2]; exact hit), show β.shape = α.shape by unfold Ty.shape; rw [r1]]
  exact Finset.sum_congr rfl fun n _ => mul_comm _ _

end

/-- **C52.** `‖t‖² = flat_inner(t, t)`, item by item, with both implementations of the norm. -/
theorem C52_norm_inner {qr : QRRoutine} (hqr : qr.Correct) (t : TT ℝ) (h : t.WF) (hm : t.ModesPos) (differentiable : Bool) :
    ∃ N F, frobeniusNormSquared qr t differentiable = Except.ok N ∧ flatInner t t = Except.ok F ∧
      N.shape = t.batch.toList ∧ ∀ o < N.shape.headD 1, itemOf N o = itemOf F o := by
  obtain ⟨N, A, s, eN, eA, sA, sN, vN⟩ := C13_frobenius_norm_squared hqr h hm differentiable
  have hc : BCompat t.batch t.batch := by rcases t.batch with _ | n <;> simp [BCompat]
  obtain ⟨F, A', B', s', eF, eA', eB', sA', -, sF, vF⟩ := C11_flat_inner t t h h rfl hc
  rw [eA] at eA' eB'; cases eA'; cases eB'
  rw [bcast_self] at sF vF
  obtain rfl : s = s' := by rw [sA] at sA'; exact List.append_cancel_left sA'
  refine ⟨N, F, eN, eF, sN, fun o ho => ?_⟩
  have ho' : o < t.batch.getD 1 := by
    rw [sN] at ho; rcases hb : t.batch with _ | n <;> simpa [hb] using ho
  rw [itemOf_squeezed sF, vF o ho']
  have hN : itemOf N o = N.get (bsel t.batch o) := by
    unfold itemOf
    rcases hb : t.batch with _ | n
    · simp [sN, hb, bsel]
    · rw [hb] at ho'
      simp only [sN, hb, bsel, Option.toList_some, List.cons_ne_nil, if_false]
      split_ifs with h1
      · subst h1; simp at ho'; rw [ho']
      · rfl
  have hvp : Valid t.batch.toList (bsel t.batch o) := (bcast_valid hc (by rw [bcast_self]; exact ho')).1
  rw [hN, vN _ hvp]
  exact Finset.sum_congr rfl fun n _ => sq _

/-! ## The laws apply -/

/-- `M : 4x2`, `N : 2x4`. -/
noncomputable def exM : Expr := .obj exMatrix.toReal
noncomputable def exN : Expr := .transpose exM

theorem exM_ok : exM.Ok :=
  ⟨TT.WF.toReal (by decide), by simp [TT.ModesPos, TT.toReal, exMatrix]⟩

example : exM.Ok ∧ exN.Ok := ⟨exM_ok, exM_ok⟩

example (qr : QRRoutine) (hqr : qr.Correct) :
    (Expr.matmul (.matmul exM exN) exM).Runs qr ∧ (Expr.matmul exM (.matmul exN exM)).Runs qr ∧
    (Expr.add (.matmul exM exN) (.matmul exM exN)).Runs qr ∧ (Expr.matmul (.add exM exM) exN).Runs qr ∧
    (Expr.matmul (.transpose exN) (.transpose exM)).Runs qr ∧ (Expr.mul exM (.add exM exM)).Runs qr := by
  have key : ∀ e : Expr, e.Ok → e.ty ≠ none → e.Runs qr := fun e h => (C51_ok_iff hqr e h).2
  refine ⟨key _ ?_ ?_, key _ ?_ ?_, key _ ?_ ?_, key _ ?_ ?_, key _ ?_ ?_, key _ ?_ ?_⟩
  all_goals first
    | (simp only [Expr.Ok, exN, exM_ok, and_self]; done)
    | simp [exM, exN, Expr.ty, addTy, mulTy, matmulTy, transposeTy, Ty.ndims, TT.toReal, exMatrix, AddBatches, BCompat, bcast,
        squeezed]

example (qr : QRRoutine) (hqr : qr.Correct) : (∃ F, innerOf qr (.add exM exM) exM = Except.ok F) ∧
    ∃ F, innerOf qr (.smul 3 exM) exM = Except.ok F := by
  refine ⟨innerOf_runs hqr _ _ ⟨exM_ok, exM_ok⟩ exM_ok ⟨exMatrix.rawShape, none⟩ ⟨exMatrix.rawShape, none⟩ ?_ rfl rfl trivial,
    innerOf_runs hqr _ _ exM_ok exM_ok ⟨exMatrix.rawShape, none⟩ ⟨exMatrix.rawShape, none⟩ rfl rfl rfl trivial⟩
  simp [exM, Expr.ty, addTy, Ty.ndims, TT.toReal, exMatrix, AddBatches, bcast]

end T3f
