import Verif.Props.C26Random
import Verif.Props.C54Accessors
import Verif.Props.C86KronOverflow

/-!
# C87: sizes that do not fit into machine integers

`shape` computes the numbers of rows and columns with 32 bit integers, `glorot_initializer`, `he_initializer` and `lecun_initializer` with 64 bit integers.
-/

namespace T3f

open MeasureTheory

section Shape

variable {K : Type} [CommRing K]

/-- C87: for a TT-matrix, `shape` gives the numbers with 32 bits that are congruent to the numbers of rows and columns, after the batch size. -/
theorem C87_shape (t : TT K) (h : t.WF) (I J : List ℕ) (hr : t.rawShape = [I, J]) :
    ∃ m n : ℤ, dynShape t = Except.ok (t.batch.toList.map Int.ofNat ++ [m, n]) ∧
      (-2 ^ 31 ≤ m ∧ m < 2 ^ 31 ∧ m ≡ (I.prod : ℕ) [ZMOD 2 ^ 32]) ∧ (-2 ^ 31 ≤ n ∧ n < 2 ^ 31 ∧ n ≡ (J.prod : ℕ) [ZMOD 2 ^ 32]) := by
  refine ⟨int32 I.prod, int32 J.prod, ?_, int32_spec _, int32_spec _⟩
  rw [dynShape_gen h, if_pos (by simp [TT.isMatrix, hr]), hr]
  rfl

/-- C87: `shape` of a TT-matrix is the shape given by `get_shape` exactly if there are fewer than `2 ^ 31` rows and columns. -/
theorem C87_shape_iff (t : TT K) (h : t.WF) (I J : List ℕ) (hr : t.rawShape = [I, J]) :
    ∃ s, t.getShape = Except.ok s ∧ s = t.batch.toList ++ [I.prod, J.prod] ∧
      (dynShape t = Except.ok (s.map Int.ofNat) ↔ I.prod < 2 ^ 31 ∧ J.prod < 2 ^ 31) := by
  refine ⟨t.batch.toList ++ [I.prod, J.prod], ?_, rfl, ?_⟩
  · have hm : t.isMatrix := by simp [TT.isMatrix, hr]
    unfold TT.getShape
    cases hb : t.batch <;> simp [hm, hr, pyGet, pure, Except.pure, bind, Except.bind]
  · obtain ⟨m, n, e, ⟨m1, m2, m3⟩, n1, n2, n3⟩ := C87_shape t h I J hr
    have m3 : m % 2 ^ 32 = ((I.prod : ℕ) : ℤ) % 2 ^ 32 := m3
    have n3 : n % 2 ^ 32 = ((J.prod : ℕ) : ℤ) % 2 ^ 32 := n3
    rw [e, Except.ok.injEq, List.map_append, List.append_cancel_left_eq]
    simp only [List.map_cons, List.map_nil, List.cons.injEq, and_true, Int.ofNat_eq_natCast]
    generalize I.prod = i at *
    generalize J.prod = j at *
    omega

example : exKronLarge.WF ∧ exKronLarge.rawShape = [List.replicate 32 2, List.replicate 32 2] ∧ (List.replicate 32 2).prod = 2 ^ 32 := by decide

end Shape

variable {Ω : Type} [MeasurableSpace Ω] {μ : Measure Ω} [IsProbabilityMeasure μ] {z : Ω → ℕ → List ℕ → ℝ}

/-- C87: the variance of the entries of an initializer for neural networks, with `m` rows and `n` columns, is computed from the number `w` with 64 bits
congruent to `m + n` for `glorot_initializer`, and to `m` for `he_initializer` and `lecun_initializer`. -/
theorem C87_nn (h : StandardDraws μ z) (a b : List ℤ) (h2 : 2 ≤ a.length) (hl : a.length = b.length)
    (ha : ∀ n ∈ a, 1 ≤ n) (hb : ∀ n ∈ b, 1 ≤ n) (rank : RankArg) (hr : GoodRank a.length rank) :
    let m : ℕ := (a.map Int.toNat).prod
    let n : ℕ := (b.map Int.toNat).prod
    ∀ (init : (ℕ → List ℕ → ℝ) → Option (List ℤ) → Option (List ℤ) → RankArg → R (TT ℝ)) (v : ℝ) (w : ℤ), 0 < w → w < 2 ^ 63 →
      (init = glorotInitializer ∧ w ≡ m + n [ZMOD 2 ^ 64] ∧ v = 2 / w) ∨ (init = heInitializer ∧ w ≡ m [ZMOD 2 ^ 64] ∧ v = 2 / w) ∨
        (init = lecunInitializer ∧ w ≡ m [ZMOD 2 ^ 64] ∧ v = 1 / w) →
    ∃ (t : Ω → TT ℝ) (F : Ω → Tensor ℝ),
      (∀ ω, init (z ω) (some a) (some b) rank = Except.ok (t ω) ∧ full (t ω) = Except.ok (F ω) ∧ (F ω).shape = [m, n]) ∧
      WhiteNoise μ (fun ω => (F ω).get) [m, n] v := by
  intro m n init v w h0 h1 hv
  obtain ⟨t, F, ht, hF⟩ := nn_variance h a b h2 hl ha hb rank hr init v w h0.le h1 hv
  exact ⟨t, F, fun ω => ⟨(ht ω).1, (ht ω).2.2.2.2.2.1, (ht ω).2.2.2.2.2.2⟩, hF⟩

/-- C87: `he_initializer` for column vectors with twenty-three modes of size 7: there are `m = 27368747340080916343` rows, but the variance of the entries
is `2 / 8922003266371364727`, about three times `2 / m`. -/
theorem C87_he_wrong (h : StandardDraws μ z) (rank : RankArg) (hr : GoodRank 23 rank) :
    ∃ (t : Ω → TT ℝ) (F : Ω → Tensor ℝ) (v : ℝ),
      (∀ ω, heInitializer (z ω) (some (List.replicate 23 7)) (some (List.replicate 23 1)) rank = Except.ok (t ω) ∧ full (t ω) = Except.ok (F ω) ∧
        (F ω).shape = [27368747340080916343, 1]) ∧
      WhiteNoise μ (fun ω => (F ω).get) [27368747340080916343, 1] v ∧ v = 2 / 8922003266371364727 ∧ 3 * (2 / 27368747340080916343) < v := by
  obtain ⟨t, F, ht, hF⟩ := C87_nn h (List.replicate 23 7) (List.replicate 23 1) (by decide) (by decide) (by decide) (by decide) rank hr heInitializer
    (2 / ((8922003266371364727 : ℤ) : ℝ)) 8922003266371364727 (by norm_num) (by norm_num) (Or.inr (Or.inl ⟨rfl, by decide, rfl⟩))
  have e1 : ((List.replicate 23 (7 : ℤ)).map Int.toNat).prod = 27368747340080916343 := by decide
  have e2 : ((List.replicate 23 (1 : ℤ)).map Int.toNat).prod = 1 := by decide
  rw [e1, e2] at hF
  rw [e1, e2] at ht
  exact ⟨t, F, _, ht, hF, by norm_num, by norm_num⟩

example : ∃ (Ω : Type) (_ : MeasurableSpace Ω) (μ : Measure Ω) (_ : IsProbabilityMeasure μ) (z : Ω → ℕ → List ℕ → ℝ), StandardDraws μ z ∧ GoodRank 23 (.num 2) := by
  obtain ⟨Ω, mΩ, μ, hμ, z, h⟩ := standardDraws_exist
  exact ⟨Ω, mΩ, μ, hμ, z, h, by decide⟩

end T3f
