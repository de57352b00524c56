import Verif.Model.Precision
import Verif.Spec.Precision
import Verif.Props.C06Arith
import Verif.Spec.Kron
import Mathlib.Data.Nat.Prime.Int

/-!
# C64: the number in `multiply` is rounded to single precision

`f` is the conversion of a Python float to `float32`. All arithmetic after the conversion is exact, so the errors below are due to the conversion alone.
-/

namespace T3f

variable {f : ℝ → ℝ}

/-- **C64.** The product of an object with a Python float `c` is its product with `c` rounded to single precision, even if the object has double precision. -/
theorem C64_python (f : ℝ → ℝ) (a : TT ℝ) (ha : a.WF) (c : ℝ) :
    ∃ t A T, multiplyNumber f a (.python c) = Except.ok t ∧ t.WF ∧ t.rawShape = a.rawShape ∧ t.ttRanks = a.ttRanks ∧ t.batch = a.batch ∧
      full a = Except.ok A ∧ full t = Except.ok T ∧ T.shape = A.shape ∧ ∀ i, Valid A.shape i → T.get i = f c * A.get i :=
  C08_multiply_scalar a ha (f c)

/-- **C64.** The product with a number that has a type is exact. -/
theorem C64_typed (f : ℝ → ℝ) (a : TT ℝ) (ha : a.WF) (c : ℝ) :
    ∃ t A T, multiplyNumber f a (.typed c) = Except.ok t ∧ t.WF ∧ t.rawShape = a.rawShape ∧ t.ttRanks = a.ttRanks ∧ t.batch = a.batch ∧
      full a = Except.ok A ∧ full t = Except.ok T ∧ T.shape = A.shape ∧ ∀ i, Valid A.shape i → T.get i = c * A.get i :=
  C08_multiply_scalar a ha c

/-- **C64.** Unless the object is zero, the product with a Python float is exact only if the float has single precision. -/
theorem C64_exact_iff (hf : ToFloat32 f) (a : TT ℝ) (ha : a.WF) (c : ℝ) (A : Tensor ℝ) (hA : full a = Except.ok A) (hne : ∃ i, Valid A.shape i ∧ A.get i ≠ 0) :
    (∃ t T, multiplyNumber f a (.python c) = Except.ok t ∧ full t = Except.ok T ∧ ∀ i, Valid A.shape i → T.get i = c * A.get i) ↔ IsFloat32 c := by
  obtain ⟨t, A', T, e, -, -, -, -, eA, eT, -, h⟩ := C64_python f a ha c
  obtain rfl : A' = A := Except.ok.inj (eA.symm.trans hA)
  constructor
  · rintro ⟨t', T', e', eT', h'⟩
    obtain rfl : t' = t := Except.ok.inj (e'.symm.trans e)
    obtain rfl : T' = T := Except.ok.inj (eT'.symm.trans eT)
    obtain ⟨i, hi, hi0⟩ := hne
    rw [← mul_right_cancel₀ hi0 ((h i hi).symm.trans (h' i hi))]
    exact hf.single c
  · intro hc
    exact ⟨t, T, e, eT, fun i hi => by rw [h i hi, hf.keep c hc]⟩

/-- A fraction whose denominator has a prime factor other than two does not have single precision. -/
theorem not_isFloat32 {p q : ℤ} {r : ℕ} (hr : r.Prime) (h2 : r ≠ 2) (hq : (r : ℤ) ∣ q) (hp : ¬ (r : ℤ) ∣ p) (hq0 : q ≠ 0) : ¬ IsFloat32 ((p : ℝ) / q) := by
  rintro ⟨m, e, -, h⟩
  have hq0' : (q : ℝ) ≠ 0 := Int.cast_ne_zero.2 hq0
  have hrp := Nat.prime_iff_prime_int.1 hr
  obtain ⟨k, rfl | rfl⟩ := e.eq_nat_or_neg
  · rw [zpow_natCast, div_eq_iff hq0'] at h
    have h' : p = m * 2 ^ k * q := by exact_mod_cast h
    exact hp (h' ▸ Dvd.dvd.mul_left hq _)
  · rw [zpow_neg, zpow_natCast, ← div_eq_mul_inv, div_eq_div_iff hq0' (by positivity)] at h
    have h' : p * 2 ^ k = m * q := by exact_mod_cast h
    rcases hrp.dvd_or_dvd (h' ▸ Dvd.dvd.mul_left hq _ : (r : ℤ) ∣ p * 2 ^ k) with h3 | h3
    · exact hp h3
    · have h4 : (r : ℤ) ∣ 2 := hrp.dvd_of_dvd_pow h3
      have h5 : r ∣ 2 := by exact_mod_cast h4
      exact h2 ((Nat.prime_dvd_prime_iff_eq hr Nat.prime_two).1 h5)

/-- **C64.** So the product of a nonzero object of double precision with a Python float such as `1/3` or `0.7` (a fraction whose denominator has a prime factor other than two) is
never that multiple. -/
theorem C64_fraction (hf : ToFloat32 f) (a : TT ℝ) (ha : a.WF) (A : Tensor ℝ) (hA : full a = Except.ok A) (hne : ∃ i, Valid A.shape i ∧ A.get i ≠ 0) (p q : ℤ) (hq0 : q ≠ 0)
    (r : ℕ) (hr : r.Prime) (h2 : r ≠ 2) (hq : (r : ℤ) ∣ q) (hp : ¬ (r : ℤ) ∣ p) :
    ∃ t T, multiplyNumber f a (.python ((p : ℝ) / q)) = Except.ok t ∧ full t = Except.ok T ∧ ∃ i, Valid A.shape i ∧ T.get i ≠ (p : ℝ) / q * A.get i := by
  obtain ⟨t, A', T, e, -, -, -, -, -, eT, -, -⟩ := C64_python f a ha ((p : ℝ) / q)
  refine ⟨t, T, e, eT, ?_⟩
  by_contra hcon
  push Not at hcon
  exact not_isFloat32 hr h2 hq hp hq0 ((C64_exact_iff hf a ha _ A hA hne).1 ⟨t, T, e, eT, hcon⟩)

/-- A number of single precision has a distance of at least `1 / (5 · 2²⁷)` from `0.1`. -/
theorem float32_tenth {x : ℝ} (hx : IsFloat32 x) : 1 / (5 * 2 ^ 27) ≤ |x - 1 / 10| := by
  obtain ⟨m, e, hm, rfl⟩ := hx
  obtain ⟨k, rfl | rfl⟩ := e.eq_nat_or_neg
  · rw [zpow_natCast]
    have h1 : |(m * 2 ^ k : ℝ) - 1 / 10| = |((m * 2 ^ k * 10 - 1 : ℤ) : ℝ)| / 10 := by
      rw [← abs_of_pos (show (0 : ℝ) < 10 by norm_num), ← abs_div, abs_of_pos (show (0 : ℝ) < 10 by norm_num)]
      congr 1
      push_cast
      ring
    have h2 : (1 : ℝ) ≤ |((m * 2 ^ k * 10 - 1 : ℤ) : ℝ)| := by
      rw [← Int.cast_abs]
      exact_mod_cast Int.one_le_abs (by omega)
    rw [h1, le_div_iff₀ (by norm_num)]
    exact le_trans (by norm_num) h2
  · rw [zpow_neg, zpow_natCast, ← div_eq_mul_inv]
    by_cases hk : 28 ≤ k
    · have hm' : |(m : ℝ)| ≤ 2 ^ 24 := by
        rw [← Int.cast_abs]
        exact_mod_cast hm.le
      have h1 : |(m : ℝ) / 2 ^ k| ≤ 1 / 16 := by
        rw [abs_div, abs_of_pos (show (0 : ℝ) < 2 ^ k by positivity), div_le_div_iff₀ (by positivity) (by norm_num)]
        calc |(m : ℝ)| * 16 ≤ 2 ^ 24 * 16 := by linarith
          _ = 2 ^ 28 := by norm_num
          _ ≤ 2 ^ k := pow_le_pow_right₀ (by norm_num) hk
          _ = 1 * 2 ^ k := (one_mul _).symm
      rw [abs_sub_comm]
      have h2 : (m : ℝ) / 2 ^ k ≤ 1 / 16 := (le_abs_self _).trans h1
      refine le_trans ?_ (le_abs_self _)
      norm_num at h2 ⊢
      linarith
    · have hp : (0 : ℝ) < 2 ^ k := by positivity
      have h1 : |(m : ℝ) / 2 ^ k - 1 / 10| = |((m * 10 - 2 ^ k : ℤ) : ℝ)| / (10 * 2 ^ k) := by
        rw [← abs_of_pos (show (0 : ℝ) < 10 * 2 ^ k by positivity), ← abs_div]
        congr 1
        push_cast
        field_simp
      have hne : m * 10 - 2 ^ k ≠ 0 := by
        intro h0
        have h5 : (5 : ℤ) ∣ 2 ^ k := ⟨m * 2, by linarith⟩
        have h6 : (5 : ℤ) ∣ 2 := (Nat.prime_iff_prime_int.1 Nat.prime_five).dvd_of_dvd_pow h5
        omega
      rw [h1, le_div_iff₀ (by positivity), ← Int.cast_abs]
      by_cases h27 : k = 27
      · subst h27
        have : 2 ≤ |m * 10 - 2 ^ 27| := by
          rcases abs_cases (m * 10 - 2 ^ 27) with h | h <;> omega
        have : (2 : ℝ) ≤ ((|m * 10 - 2 ^ 27| : ℤ) : ℝ) := by exact_mod_cast this
        exact le_trans (by norm_num) this
      · have : (1 : ℝ) ≤ ((|m * 10 - 2 ^ k| : ℤ) : ℝ) := by exact_mod_cast Int.one_le_abs hne
        refine le_trans ?_ this
        have h3 : (2 : ℝ) ^ k ≤ 2 ^ 26 := pow_le_pow_right₀ (by norm_num) (by omega)
        have : 1 / (5 * 2 ^ 27) * (10 * (2 : ℝ) ^ k) ≤ 1 / (5 * 2 ^ 27) * (10 * 2 ^ 26) := by gcongr
        exact this.trans (by norm_num)

/-- **C64.** Multiplying an object of double precision by `0.1` makes a relative error of more than `1e-8` in every element, as for an object of single precision. -/
theorem C64_tenth (hf : ToFloat32 f) (a : TT ℝ) (ha : a.WF) :
    ∃ t A T, multiplyNumber f a (.python (1 / 10)) = Except.ok t ∧ full a = Except.ok A ∧ full t = Except.ok T ∧
      ∀ i, Valid A.shape i → 1e-8 * |1 / 10 * A.get i| ≤ |T.get i - 1 / 10 * A.get i| := by
  obtain ⟨t, A, T, e, -, -, -, -, eA, eT, -, h⟩ := C64_python f a ha (1 / 10)
  refine ⟨t, A, T, e, eA, eT, fun i hi => ?_⟩
  rw [h i hi, ← sub_mul, abs_mul, abs_mul, ← mul_assoc]
  refine mul_le_mul_of_nonneg_right (le_trans ?_ (float32_tenth (hf.single _))) (abs_nonneg _)
  rw [abs_of_pos (by norm_num)]
  norm_num

/-- **C64.** Negation and subtraction are exact, because `-1` has single precision. -/
theorem C64_neg (hf : ToFloat32 f) (a : TT ℝ) : negNumber f a = neg a := by
  have : IsFloat32 (-1) := ⟨-1, 0, by norm_num, by norm_num⟩
  rw [negNumber, multiplyNumber, Number.converted, hf.keep _ this, neg]

/-! ## Cases -/

open Classical in
/-- Such conversions exist. -/
example : ∃ f, ToFloat32 f :=
  ⟨fun x => if IsFloat32 x then x else 0, fun x => by
    by_cases h : IsFloat32 x
    · simp only [if_pos h]; exact h
    · simp only [if_neg h]; exact ⟨0, 0, by norm_num, by norm_num⟩, fun x h => if_pos h⟩

/-- `1/3`. -/
example : Nat.Prime 3 ∧ 3 ≠ 2 ∧ ((3 : ℕ) : ℤ) ∣ 3 ∧ ¬ ((3 : ℕ) : ℤ) ∣ 1 := ⟨Nat.prime_three, by norm_num, by norm_num, by norm_num⟩

example : exMatrix.toReal.WF := TT.WF.toReal (by decide)

end T3f
