import Verif.Tf.Int
import Mathlib.Data.Int.ModEq
import Mathlib.Tactic.NormNum

/-! Integers of fixed size. -/

namespace T3f

theorem bmod_spec (n : ℤ) (m : ℕ) (hm : 0 < m) :
    -((m : ℤ) / 2) ≤ Int.bmod n m ∧ Int.bmod n m < ((m : ℤ) + 1) / 2 ∧ Int.bmod n m % m = n % m :=
  ⟨Int.le_bmod hm, Int.bmod_lt hm, Int.bmod_emod⟩

theorem int32_spec (n : ℕ) : -2 ^ 31 ≤ int32 n ∧ int32 n < 2 ^ 31 ∧ int32 n ≡ (n : ℕ) [ZMOD 2 ^ 32] := by
  obtain ⟨h1, h2, h3⟩ := bmod_spec n (2 ^ 32) (by norm_num)
  rw [Int.ModEq]
  unfold int32
  generalize Int.bmod n (2 ^ 32) = w at *
  push_cast at h1 h2 h3
  refine ⟨?_, ?_, h3⟩ <;> omega

theorem int32_of_lt {n : ℕ} (h : n < 2 ^ 31) : int32 n = n := by
  obtain ⟨h1, h2, h3⟩ := int32_spec n
  have h3 : int32 n % 2 ^ 32 = (n : ℤ) % 2 ^ 32 := h3
  omega

theorem int64_spec (n : ℤ) : -2 ^ 63 ≤ int64 n ∧ int64 n < 2 ^ 63 ∧ int64 n ≡ n [ZMOD 2 ^ 64] := by
  obtain ⟨h1, h2, h3⟩ := bmod_spec n (2 ^ 64) (by norm_num)
  rw [Int.ModEq]
  unfold int64
  generalize Int.bmod n (2 ^ 64) = w at *
  push_cast at h1 h2 h3
  refine ⟨?_, ?_, h3⟩ <;> omega

theorem int64_eq {n w : ℤ} (h0 : -2 ^ 63 ≤ w) (h1 : w < 2 ^ 63) (h : w ≡ n [ZMOD 2 ^ 64]) : int64 n = w := by
  obtain ⟨h1, h2, h3⟩ := int64_spec n
  have h3 : int64 n % 2 ^ 64 = n % 2 ^ 64 := h3
  have h : w % 2 ^ 64 = n % 2 ^ 64 := h
  omega

theorem int64_add (m n : ℤ) : int64 (int64 m + int64 n) = int64 (m + n) := by
  refine int64_eq (int64_spec _).1 (int64_spec _).2.1 ((int64_spec _).2.2.trans ?_)
  exact ((int64_spec m).2.2.add (int64_spec n).2.2).symm

end T3f
