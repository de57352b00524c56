import Verif.Proofs.RoundProps

/-! # The last core of a rounded tensor train depends on the last bound only -/

namespace T3f

theorem bind_ok_iff {α β : Type} {x : R α} {f : α → R β} {z : β} :
    (x >>= f) = Except.ok z ↔ ∃ a, x = Except.ok a ∧ f a = Except.ok z := by
  cases x with
  | error e => exact ⟨fun h => (nomatch h), fun ⟨_, h, _⟩ => (nomatch h)⟩
  | ok a => exact ⟨fun h => ⟨a, rfl, h⟩, fun ⟨_, h, h'⟩ => by cases h; exact h'⟩

theorem roundStep_getD {svd : SVDRoutine} {t : TT ℝ} {bounds : List ℕ} {i : ℕ} {s s' : List (Tensor ℝ) × List ℕ}
    (h : roundStep svd t bounds i s = Except.ok s') {k : ℕ} (h1 : i < k) :
    s'.1.getD k default = s.1.getD k default := by
  unfold roundStep at h
  simp only [bind_ok_iff] at h
  obtain ⟨_, -, _, -, _, -, _, -, _, -, _, -, _, -, _, -, _, -, _, -, _, -, _, -, _, -, _, -, _, -, _, -, h⟩ := h
  cases h
  rw [getD_set_ne _ _ _ (by omega), getD_set_ne _ _ _ (by omega)]

theorem roundStep_bound {svd : SVDRoutine} {t : TT ℝ} {b b' : List ℕ} {i : ℕ} (h : pyGet b i = pyGet b' i)
    (s : List (Tensor ℝ) × List ℕ) : roundStep svd t b i s = roundStep svd t b' i s := by
  unfold roundStep
  rw [h]

theorem forRange_getD {f : ℕ → List (Tensor ℝ) × List ℕ → R (List (Tensor ℝ) × List ℕ)} {k : ℕ}
    (hf : ∀ a, 0 < a → ∀ s s', f a s = Except.ok s' → s'.1.getD k default = s.1.getD k default) :
    ∀ (n a : ℕ) (s s' : List (Tensor ℝ) × List ℕ), 0 < a → forRange f a n s = Except.ok s' →
      s'.1.getD k default = s.1.getD k default := by
  intro n
  induction n with
  | zero => intro a s s' _ h; rw [forRange] at h; cases h; rfl
  | succ n ih =>
    intro a s s' ha h
    rw [forRange, bind_ok_iff] at h
    obtain ⟨s1, h1, h2⟩ := h
    rw [ih (a + 1) s1 s' (by omega) h2, hf a ha s s1 h1]

theorem mkTT_cores {cores : List (Tensor ℝ)} {sh : ShapeArg} {ranks : Option (List ℕ)} {x : TT ℝ}
    (h : mkTT cores sh ranks = Except.ok x) : x.cores = cores := by
  unfold mkTT at h
  simp only [bind_ok_iff] at h
  obtain ⟨_, -, b, -, h⟩ := h
  cases b
  · cases h
  · cases h; rfl

theorem mkBatch_cores {cores : List (Tensor ℝ)} {sh : ShapeArg} {ranks : Option (List ℕ)} {bs : Option ℕ} {x : TT ℝ}
    (h : mkBatch cores sh ranks bs = Except.ok x) : x.cores = cores := by
  unfold mkBatch at h
  simp only [bind_ok_iff] at h
  obtain ⟨_, -, b, -, h⟩ := h
  cases b
  · cases h
  · cases h; rfl

/-- What the last core is after the first step. -/
theorem roundWith_core {qr : QRRoutine} {svd : SVDRoutine} {t : TT ℝ} {bounds : List ℕ} {x : TT ℝ} (hd : 2 ≤ t.ndims)
    (h : roundWith qr svd t bounds = Except.ok x) :
    ∃ o s, orthogonalize qr t true = Except.ok o ∧
      roundStep svd t bounds (t.ndims - 1) (o.cores, List.replicate (t.ndims + 1) 1) = Except.ok s ∧
      x.core (t.ndims - 1) = s.1.getD (t.ndims - 1) default := by
  unfold roundWith at h
  simp only [bind_ok_iff] at h
  obtain ⟨o, ho, s', hs, _, -, _, -, _, -, first, -, h⟩ := h
  rw [show t.ndims - 1 = t.ndims - 2 + 1 by omega, forRange, bind_ok_iff] at hs
  obtain ⟨s, h1, h2⟩ := hs
  rw [← show t.ndims - 1 = t.ndims - 2 + 1 by omega] at h1 h2
  have h3 := forRange_getD (k := t.ndims - 1) (fun a ha s s' e => roundStep_getD e (by omega)) _ _ _ _ (by omega) h2
  refine ⟨o, s, ho, h1, ?_⟩
  have hc : x.cores = s'.1.set 0 first := by
    cases hb : t.batch with
    | none => rw [hb] at h; exact mkTT_cores h
    | some n => rw [hb] at h; exact mkBatch_cores h
  rw [TT.core, hc, getD_set_ne _ _ _ (by omega), h3]

theorem roundWith_last {qr : QRRoutine} {svd : SVDRoutine} {t : TT ℝ} {b b' : List ℕ} {x y : TT ℝ} (hd : 2 ≤ t.ndims)
    (h : roundWith qr svd t b = Except.ok x) (h' : roundWith qr svd t b' = Except.ok y)
    (hb : pyGet b (t.ndims - 1) = pyGet b' (t.ndims - 1)) : x.core (t.ndims - 1) = y.core (t.ndims - 1) := by
  obtain ⟨o, s, ho, hs, e⟩ := roundWith_core hd h
  obtain ⟨o', s', ho', hs', e'⟩ := roundWith_core hd h'
  obtain rfl : o = o' := Except.ok.inj (ho.symm.trans ho')
  rw [roundStep_bound hb, hs'] at hs
  obtain rfl : s' = s := Except.ok.inj hs
  rw [e, e']

end T3f
