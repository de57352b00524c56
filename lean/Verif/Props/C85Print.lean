import Verif.Proofs.Describe
import Verif.Spec.Examples

/-!
# C85 — what `print` says about a TT object
-/

namespace T3f

variable {K : Type}

/-- **C85, unambiguous.** Two objects (tensors, matrices, batches, variables or not, with known or unknown sizes) are printed alike exactly if both are
variables or both are not, they have the same batch size (or are not batches), the same raw shape and the same TT-ranks. -/
theorem C85_unambiguous [Zero K] (s s' : Sym K) (t t' : TT K) (h : s.Is t) (h' : s'.Is t') (v v' : Bool) (x x' : List Char)
    (e : s.str v = Except.ok x) (e' : s'.str v' = Except.ok x') :
    x = x' ↔ v = v' ∧ s.batch = s'.batch ∧ s.rawShape = s'.rawShape ∧ s.ttRanks = s'.ttRanks := by
  constructor
  · rintro rfl
    exact Describe.str_inj h h' e e'
  · rintro ⟨rfl, hb, hr, hk⟩
    have : s.str v = s'.str v := by
      clear e e' h h'
      obtain ⟨c, r, k, b⟩ := s
      obtain ⟨c', r', k', b'⟩ := s'
      subst hb hr hk
      rfl
    rw [e, e'] at this
    exact Except.ok.inj this

/-- **C85, failure.** Printing works in eager mode always, and while tracing for everything but TT-matrices with an unknown mode size, which raise
TypeError (also those with one core). -/
theorem C85_prints [Zero K] (s : Sym K) (t : TT K) (h : s.Is t) (v : Bool) :
    (s.KnownModes ∨ ¬ t.isMatrix → ∃ x, s.str v = Except.ok x) ∧
    (¬ (s.KnownModes ∨ ¬ t.isMatrix) → s.str v = Except.error Err.type) := by
  have hM := Static.Is.isMatrix h
  by_cases hm : t.isMatrix
  · obtain ⟨r0, r1, -, h1, h2⟩ := Describe.str_matrix h (hM.2 hm) v
    refine ⟨fun hc => ?_, fun hc => h2 (by tauto)⟩
    obtain ⟨m, n, -, -, e⟩ := h1 (by tauto)
    exact ⟨_, e⟩
  · obtain ⟨r, -, e⟩ := Describe.str_tensor h (by rwa [hM]) v
    exact ⟨fun _ => ⟨_, e⟩, fun hc => absurd (Or.inr hm) hc⟩

/-- **C85, eager mode.** -/
theorem C85_eager [Zero K] (t t' : TT K) (h : t.WF) (h' : t'.WF) (v v' : Bool) :
    ∃ x x', (knownSym t).str v = Except.ok x ∧ (knownSym t').str v' = Except.ok x' ∧
      (x = x' ↔ v = v' ∧ t.batch = t'.batch ∧ t.rawShape = t'.rawShape ∧ t.ttRanks = t'.ttRanks) := by
  obtain ⟨x, e⟩ := (C85_prints _ _ (Static.known_is h) v).1 (Or.inl (Static.known_modes t))
  obtain ⟨x', e'⟩ := (C85_prints _ _ (Static.known_is h') v').1 (Or.inl (Static.known_modes t'))
  refine ⟨x, x', e, e', (C85_unambiguous _ _ _ _ (Static.known_is h) (Static.known_is h') v v' x x' e e').trans ?_⟩
  have i1 : Function.Injective (List.map (some : ℕ → Option ℕ)) := List.map_injective_iff.2 (Option.some_injective _)
  have i2 : Function.Injective (List.map (List.map (some : ℕ → Option ℕ))) := List.map_injective_iff.2 i1
  exact and_congr_right fun _ => and_congr_right fun _ => and_congr i2.eq_iff i1.eq_iff

/-- **C85, sizes.** The size printed for a TT-matrix is the number of rows and columns of the represented matrix. -/
theorem C85_size [Zero K] (t : TT K) (h : t.WF) (v : Bool) (I J : List ℕ) (hr : t.rawShape = [I, J]) :
    ∃ p a b q, (knownSym t).str v = Except.ok (p ++ chars! " of size " ++ a ++ chars! " x " ++ b ++ chars! ", underlying tensor shape: " ++ q) ∧
      readNat a = I.prod ∧ readNat b = J.prod := by
  have his := Static.known_is h
  obtain ⟨r0, r1, e0, h1, -⟩ := Describe.str_matrix his ((Static.Is.isMatrix his).2 (by simp [TT.isMatrix, hr])) v
  obtain ⟨l0, l1, f0, f1, e⟩ := h1 (Static.known_modes t)
  simp only [knownSym, hr, List.map_cons, List.map_nil, List.cons.injEq, and_true] at e0
  have i1 : Function.Injective (List.map (some : ℕ → Option ℕ)) := List.map_injective_iff.2 (Option.some_injective _)
  have g0 : I = l0 := i1 (e0.1.trans f0)
  have g1 : J = l1 := i1 (e0.2.trans f1)
  have hk : ∃ p, kindStr (knownSym t).batch v true = p ++ chars! " of size " := by
    cases (knownSym t).batch <;> cases v
    · exact ⟨chars! "A TT-Matrix", rfl⟩
    · exact ⟨chars! "A TT-Matrix variable", rfl⟩
    · exact ⟨chars! "A " ++ (decimal _ ++ chars! " element batch of TT-matrices"), by simp [kindStr]; rfl⟩
    · exact ⟨chars! "A " ++ (decimal _ ++ chars! " element batch of TT-matrix variables"), by simp [kindStr]; rfl⟩
  obtain ⟨p, ep⟩ := hk
  refine ⟨p, decimal l0.prod, decimal l1.prod, shapeStr r0 ++
    (chars! " x " ++ (shapeStr r1 ++ (chars! ", TT-ranks: " ++ shapeStr (knownSym t).ttRanks))), ?_, by rw [Describe.read_decimal, g0], by rw [Describe.read_decimal, g1]⟩
  rw [e, ep]
  simp only [List.append_assoc]

/-! ### Cases -/

example : (knownSym exTensor).str false = Except.ok (chars! "A Tensor Train of shape (2, 3), TT-ranks: (1, 2, 1)") := by decide

example : (knownSym (⟨[zeros [7, 1, 10, 2, 3], zeros [7, 3, 2, 2, 1]], [[10, 2], [2, 2]], [1, 3, 1], some 7⟩ : TT ℤ)).str true = Except.ok
    (chars! "A 7 element batch of TT-matrix variables of size 20 x 4, underlying tensor shape: (10, 2) x (2, 2), TT-ranks: (1, 3, 1)") := by decide

example : (⟨[], [[none]], [some 1, some 1], none⟩ : Sym ℤ).str false = Except.ok (chars! "A Tensor Train of shape (None,), TT-ranks: (1, 1)") := by decide

end T3f
