import Verif.Proofs.ShapeRelCalls

/-!
# Two runs of a program in which a factorization may fail
-/

namespace T3f

/-- Both calls return related results, or both raise the same exception, or one of the two raises InvalidArgumentError. -/
def WR {α β : Type} (r : α → β → Prop) : R α → R β → Prop
  | .ok a, .ok b => r a b
  | .error e, .error f => e = f ∨ e = Err.tf ∨ f = Err.tf
  | .ok _, .error f => f = Err.tf
  | .error e, .ok _ => e = Err.tf

section
variable {α β γ δ : Type}

theorem RR.weak {r : α → β → Prop} {x : R α} {y : R β} (h : RR r x y) : WR r x y := by
  match x, y, h with
  | .ok a, .ok b, h => exact h
  | .error e, .error f, h => exact Or.inl h

theorem WR.left {r : α → β → Prop} (y : R β) : WR r (Except.error Err.tf) y := by
  cases y with
  | ok b => exact rfl
  | error f => exact Or.inr (Or.inl rfl)

theorem WR.right {r : α → β → Prop} (x : R α) : WR r x (Except.error Err.tf) := by
  cases x with
  | ok b => exact rfl
  | error f => exact Or.inr (Or.inr rfl)

theorem WR.bind {r : α → β → Prop} {s : γ → δ → Prop} {x : R α} {y : R β} {f : α → R γ} {g : β → R δ} (h : WR r x y) (k : ∀ a b, r a b → WR s (f a) (g b)) :
    WR s (x >>= f) (y >>= g) := by
  match x, y, h with
  | .ok a, .ok b, h => exact k a b h
  | .error e, .error f, h => exact h
  | .ok a, .error e, h => obtain rfl : e = Err.tf := h; exact WR.right _
  | .error e, .ok b, h => obtain rfl : e = Err.tf := h; exact WR.left _

theorem WR.mapM {q : α → β → Prop} {r : γ → δ → Prop} {f : α → R γ} {g : β → R δ} (h : ∀ a b, q a b → WR r (f a) (g b)) : ∀ {l : List α} {m : List β},
    List.Forall₂ q l m → WR (List.Forall₂ r) (l.mapM f) (m.mapM g)
  | [], [], _ => List.Forall₂.nil
  | a :: l, b :: m, .cons hab hlm => by
    rw [List.mapM_cons, List.mapM_cons]
    exact WR.bind (h a b hab) fun c d hcd => WR.bind (WR.mapM h hlm) fun cs ds hs => List.Forall₂.cons hcd hs

end

theorem WR.linalgInv {x y : Tensor ℝ} (h : SameT x y) : WR SameT (linalgInv x) (linalgInv y) := by
  unfold T3f.linalgInv
  rw [show x.shape = y.shape from h]
  refine WR.bind (r := Eq) (RR.refl _).weak ?_
  rintro ⟨pre, n⟩ _ rfl
  dsimp only
  split
  · split
    · exact (RR.pure (r := SameT) rfl).weak
    · exact WR.right _
  · exact WR.left _

theorem WR.linalgCholesky {x y : Tensor ℝ} (h : SameT x y) : WR SameT (linalgCholesky x) (linalgCholesky y) := by
  unfold T3f.linalgCholesky
  rw [show x.shape = y.shape from h]
  refine WR.bind (r := Eq) (RR.refl _).weak ?_
  rintro ⟨pre, n⟩ _ rfl
  dsimp only
  split
  · split
    · exact (RR.pure (r := SameT) rfl).weak
    · exact WR.right _
  · exact WR.left _

theorem WR.kronMap {f : Tensor ℝ → R (Tensor ℝ)} (hf : ∀ x y, SameT x y → WR SameT (f x) (f y)) {t u : TT ℝ} (h : SameTT t u) : WR SameTT (kronMap f t) (kronMap f u) := by
  unfold T3f.kronMap
  rw [h.kronCheck, h.ndims, h.isBatch, h.raw, h.ranks]
  refine WR.bind (r := Eq) (RR.refl _).weak fun _ _ _ => ?_
  unfold mapRange
  refine WR.bind (r := SameL) (WR.mapM (q := Eq) ?_ (forall₂_refl _)) fun cs ds hs => ?_
  · rintro k _ rfl
    refine WR.bind (RR.kronCore h k).weak fun a b hab => WR.bind (hf a b hab) fun c d hcd => RR.weak ?_
    rr
  · exact (RR.ite Iff.rfl (fun _ => RR.mkBatch hs rfl rfl rfl) fun _ => RR.mkTT hs rfl rfl).weak

theorem WR.retTT {x y : R (TT ℝ)} (h : WR SameTT x y) : WR (List.Forall₂ PyVal.SameMeta) (retTT x) (retTT y) :=
  WR.bind h fun _ _ hab => List.Forall₂.cons (hab.val none) .nil

theorem WR.call (qr qr' : QRRoutine) (svd svd' : SVDRoutine) (z z' : ℕ → List ℕ → ℝ) {env env' : List PyVal} (h : List.Forall₂ PyVal.SameMeta env env') (c : PyCall) :
    WR (List.Forall₂ PyVal.SameMeta) (c.run qr svd z env) (c.run qr' svd' z' env') := by
  by_cases hc : c.factors
  · cases c with
    | inv a => exact WR.bind (RR.getTT h a).weak fun _ _ h1 => WR.retTT (WR.kronMap (fun _ _ => WR.linalgInv) h1)
    | cholesky a => exact WR.bind (RR.getTT h a).weak fun _ _ h1 => WR.retTT (WR.kronMap (fun _ _ => WR.linalgCholesky) h1)
    | _ => exact hc.elim
  · exact (RR.call qr qr' svd svd' z z' h c hc).weak

theorem WR.calls (qr qr' : QRRoutine) (svd svd' : SVDRoutine) (z z' : ℕ → ℕ → List ℕ → ℝ) : ∀ (p : List PyCall) {env env' : List PyVal},
    List.Forall₂ PyVal.SameMeta env env' → WR (List.Forall₂ PyVal.SameMeta) (runCalls qr svd z p env) (runCalls qr' svd' z' p env')
  | [], _, _, h => h
  | c :: p, _, _, h => WR.bind (WR.call qr qr' svd svd' _ _ h c) fun _ _ hab => WR.calls qr qr' svd svd' z z' p (List.rel_append h hab)

end T3f
