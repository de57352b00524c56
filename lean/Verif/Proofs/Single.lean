import Verif.Spec.Single
import Mathlib.Algebra.Order.Round
import Mathlib.Data.Int.Log
import Mathlib.Algebra.Order.Archimedean.Real.Basic
import Mathlib.Algebra.Order.Field.Power
import Mathlib.Tactic.Ring
import Mathlib.Tactic.Linarith
import Mathlib.Tactic.GCongr
import Mathlib.Tactic.FieldSimp

/-!
# Rounding to single precision
-/

namespace T3f

theorem isFloat32_of_le {m e : ℤ} (h : |m| ≤ 2 ^ 24) : IsFloat32 (m * (2 : ℝ) ^ e) := by
  rcases lt_or_eq_of_le h with h | h
  · exact ⟨m, e, h, rfl⟩
  · rcases eq_or_eq_neg_of_abs_eq h with rfl | rfl
    · exact ⟨2 ^ 23, e + 1, by norm_num, by rw [zpow_add₀ (by norm_num)]; push_cast; ring⟩
    · exact ⟨-2 ^ 23, e + 1, by norm_num, by rw [zpow_add₀ (by norm_num)]; push_cast; ring⟩

/-- The rounding to a multiple of `2 ^ (⌊log₂ |x|⌋ - 23)`. -/
noncomputable def round32 (x : ℝ) : ℝ := round (x / (2 : ℝ) ^ (Int.log 2 |x| - 23)) * (2 : ℝ) ^ (Int.log 2 |x| - 23)

theorem log_le {x : ℝ} (hx : x ≠ 0) : (2 : ℝ) ^ 23 * (2 : ℝ) ^ (Int.log 2 |x| - 23) ≤ |x| := by
  have := Int.zpow_log_le_self (b := 2) (by norm_num) (abs_pos.2 hx)
  push_cast at this
  rw [zpow_sub₀ (by norm_num)]
  calc _ = (2 : ℝ) ^ Int.log 2 |x| := by norm_num; ring
    _ ≤ |x| := this

theorem lt_log (x : ℝ) : |x| < (2 : ℝ) ^ 24 * (2 : ℝ) ^ (Int.log 2 |x| - 23) := by
  have := Int.lt_zpow_succ_log_self (b := 2) (by norm_num) |x|
  push_cast at this
  rw [zpow_add₀ (by norm_num)] at this
  rw [zpow_sub₀ (by norm_num)]
  calc |x| < _ := this
    _ = _ := by norm_num; ring

theorem round32_single (x : ℝ) : IsFloat32 (round32 x) := by
  refine isFloat32_of_le ?_
  set s : ℝ := (2 : ℝ) ^ (Int.log 2 |x| - 23) with hs
  have hs0 : 0 < s := by positivity
  have h1 : |x / s| < 2 ^ 24 := by
    rw [abs_div, abs_of_pos hs0, div_lt_iff₀ hs0]
    exact lt_log x
  have h2 := abs_sub_round (x / s)
  have h3 : |(round (x / s) : ℝ)| < ((2 ^ 24 + 1 : ℤ) : ℝ) := by
    have : |(round (x / s) : ℝ)| ≤ |x / s| + |x / s - round (x / s)| := by
      have := abs_sub_le (round (x / s) : ℝ) (x / s) 0
      simp only [sub_zero] at this
      rw [abs_sub_comm] at this
      linarith
    push_cast
    linarith
  rw [← Int.cast_abs] at h3
  have := Int.cast_lt.1 h3
  omega

theorem round32_nearest (x y : ℝ) (hy : IsFloat32 y) : |round32 x - x| ≤ |y - x| := by
  by_cases hx : x = 0
  · subst hx
    simp [round32]
  obtain ⟨m, e, hm, rfl⟩ := hy
  set e0 := Int.log 2 |x| - 23 with he0
  set s : ℝ := (2 : ℝ) ^ e0 with hs
  have hs0 : 0 < s := by positivity
  have key : ∀ z : ℤ, |round32 x - x| ≤ |z * s - x| := by
    intro z
    have h := round_le (x / s) z
    have e1 : ∀ w : ℝ, |w * s - x| = |x / s - w| * s := fun w => by
      rw [← abs_of_pos hs0, ← abs_mul, abs_of_pos hs0, ← abs_neg]
      congr 1
      field_simp
      ring
    rw [show round32 x = (round (x / s) : ℝ) * s from rfl, e1, e1]
    gcongr
  rcases le_or_gt e0 e with h | h
  · obtain ⟨n, rfl⟩ := Int.le.dest h
    have := key (m * 2 ^ n)
    rw [zpow_add₀ (by norm_num)]
    push_cast at this
    simpa [mul_assoc, mul_comm, mul_left_comm] using this
  · have h1 : |(m : ℝ) * (2 : ℝ) ^ e| ≤ 2 ^ 23 * s := by
      rw [abs_mul, abs_of_pos (show (0 : ℝ) < 2 ^ e by positivity), ← Int.cast_abs]
      have h2 : ((|m| : ℤ) : ℝ) ≤ 2 ^ 24 := by exact_mod_cast hm.le
      have h3 : (2 : ℝ) ^ e ≤ 2 ^ (e0 - 1) := zpow_le_zpow_right₀ (by norm_num) (by omega)
      calc ((|m| : ℤ) : ℝ) * (2 : ℝ) ^ e ≤ 2 ^ 24 * 2 ^ (e0 - 1) := by gcongr
        _ = 2 ^ 23 * s := by rw [zpow_sub₀ (by norm_num), hs]; ring
    have h2 := log_le hx
    rw [← he0, ← hs] at h2
    have k1 := key (2 ^ 23)
    have k2 := key (-2 ^ 23)
    push_cast at k1 k2
    have h3 : |x| - 2 ^ 23 * s ≤ |(m : ℝ) * (2 : ℝ) ^ e - x| := by
      have := abs_sub_abs_le_abs_sub x ((m : ℝ) * (2 : ℝ) ^ e)
      rw [abs_sub_comm x] at this
      linarith
    rcases le_total 0 x with hp | hp
    · rw [abs_of_nonneg hp] at h2 h3
      rw [abs_of_nonpos (show 8388608 * s - x ≤ 0 by linarith)] at k1
      linarith
    · rw [abs_of_nonpos hp] at h2 h3
      rw [abs_of_nonneg (show 0 ≤ -8388608 * s - x by linarith)] at k2
      linarith

theorem nearest_round32 : Nearest32 round32 := ⟨round32_single, round32_nearest⟩

namespace Nearest32

variable {rnd : ℝ → ℝ} (h : Nearest32 rnd)

include h

/-- Numbers of single precision are kept. -/
theorem keep {x : ℝ} (hx : IsFloat32 x) : rnd x = x := by
  have := h.nearest x x hx
  simp only [sub_self, abs_zero, abs_nonpos_iff] at this
  linarith

theorem err (x : ℝ) : |rnd x - x| ≤ 2⁻¹ ^ 24 * |x| := by
  by_cases hx : x = 0
  · subst hx
    rw [h.keep ⟨0, 0, by norm_num, by simp⟩]
    simp
  refine (h.nearest x _ (round32_single x)).trans ?_
  set s : ℝ := (2 : ℝ) ^ (Int.log 2 |x| - 23) with hs
  have hs0 : 0 < s := by positivity
  have h1 : |round32 x - x| = |x / s - round (x / s)| * s := by
    rw [show round32 x = (round (x / s) : ℝ) * s from rfl, ← abs_of_pos hs0, ← abs_mul, abs_of_pos hs0, ← abs_neg]
    congr 1
    field_simp
    ring
  have h2 := abs_sub_round (x / s)
  have h3 := log_le hx
  rw [← hs] at h3
  rw [h1]
  nlinarith

/-- A number closer than half a unit in the last place is rounded to. -/
theorem eq_of_close {x : ℝ} {m : ℤ} {e : ℤ} (hm : 2 ^ 23 < |m|) (hm' : |m| < 2 ^ 24) (hx : 2 * |m * (2 : ℝ) ^ e - x| < (2 : ℝ) ^ e) :
    rnd x = m * (2 : ℝ) ^ e := by
  have h1 := h.nearest x _ ⟨m, e, hm', rfl⟩
  obtain ⟨n, f, hn, hf⟩ := h.single x
  rw [hf] at h1 ⊢
  have hd : |(n : ℝ) * (2 : ℝ) ^ f - m * (2 : ℝ) ^ e| < (2 : ℝ) ^ e := by
    have := abs_sub_le ((n : ℝ) * (2 : ℝ) ^ f) x (m * (2 : ℝ) ^ e)
    rw [abs_sub_comm x] at this
    linarith
  have he0 : (0 : ℝ) < 2 ^ e := by positivity
  rcases le_or_gt e f with hle | hlt
  · obtain ⟨k, rfl⟩ := Int.le.dest hle
    rw [zpow_add₀ (by norm_num)] at hd ⊢
    have e1 : (n : ℝ) * ((2 : ℝ) ^ e * 2 ^ (k : ℤ)) - m * (2 : ℝ) ^ e = ((n * 2 ^ k - m : ℤ) : ℝ) * (2 : ℝ) ^ e := by push_cast; rw [zpow_natCast]; ring
    rw [e1, abs_mul, abs_of_pos he0, ← Int.cast_abs] at hd
    have h2 : ((|n * 2 ^ k - m| : ℤ) : ℝ) < ((1 : ℤ) : ℝ) := by
      push_cast at hd ⊢
      by_contra hcon
      push Not at hcon
      nlinarith
    have h3 : n * 2 ^ k - m = 0 := by
      have := Int.cast_lt.1 h2
      exact abs_eq_zero.1 (by have := abs_nonneg (n * 2 ^ k - m); omega)
    have h4 : ((n * 2 ^ k - m : ℤ) : ℝ) = 0 := by rw [h3]; simp
    push_cast at h4
    have h5 : (n : ℝ) * 2 ^ k = m := by linarith
    rw [← h5, zpow_natCast]
    ring
  · exfalso
    have h2 : |(n : ℝ) * (2 : ℝ) ^ f| ≤ 2 ^ 23 * 2 ^ e := by
      rw [abs_mul, abs_of_pos (show (0 : ℝ) < 2 ^ f by positivity), ← Int.cast_abs]
      have h2 : ((|n| : ℤ) : ℝ) ≤ 2 ^ 24 := by exact_mod_cast hn.le
      have h3 : (2 : ℝ) ^ f ≤ 2 ^ (e - 1) := zpow_le_zpow_right₀ (by norm_num) (by omega)
      calc ((|n| : ℤ) : ℝ) * (2 : ℝ) ^ f ≤ 2 ^ 24 * 2 ^ (e - 1) := by gcongr
        _ = 2 ^ 23 * 2 ^ e := by rw [zpow_sub₀ (by norm_num)]; ring
    have h3 : (2 ^ 23 + 1) * (2 : ℝ) ^ e ≤ |(m : ℝ) * (2 : ℝ) ^ e| := by
      rw [abs_mul, abs_of_pos he0, ← Int.cast_abs]
      have : ((2 ^ 23 + 1 : ℤ) : ℝ) ≤ ((|m| : ℤ) : ℝ) := by exact_mod_cast hm
      push_cast at this ⊢
      gcongr
      linarith
    have h4 := abs_sub_abs_le_abs_sub ((m : ℝ) * (2 : ℝ) ^ e) ((n : ℝ) * (2 : ℝ) ^ f)
    rw [abs_sub_comm] at h4
    nlinarith

end Nearest32

/-- Single precision arithmetic with the rounding `rnd`. -/
noncomputable def arith32 {rnd : ℝ → ℝ} (h : Nearest32 rnd) : Arith where
  u := 2⁻¹ ^ 24
  add x y := rnd (x + y)
  mul x y := rnd (x * y)
  fma x y z := rnd (x * y + z)
  nonneg := by positivity
  add_err x y := h.err _
  mul_err x y := h.err _
  fma_err x y z := h.err _

theorem arith32_single {rnd : ℝ → ℝ} (h : Nearest32 rnd) : (arith32 h).Single rnd := ⟨h, rfl, fun _ _ => rfl, fun _ _ => rfl, fun _ _ _ => rfl⟩

end T3f
