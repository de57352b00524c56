import Verif.Proofs.BatchItem
import Verif.Spec.Batches
import Verif.Model.Matmul

/-!
# Squeezed batches
-/

namespace T3f

variable {K : Type} [CommRing K]

/-- Batch position without special treatment of batches of size one. -/
def lsel : Option ℕ → ℕ → List ℕ
  | none, _ => []
  | some _, o => [o]

theorem bsel_eq_lsel {b : Option ℕ} (h : b ≠ some 1) (o : ℕ) : bsel b o = lsel b o := by
  rcases b with _ | n
  · rfl
  · simp only [bsel, lsel]; rw [if_neg (by rintro rfl; exact h rfl)]

theorem squeezed_ne_one (b : Option ℕ) : squeezed b ≠ some 1 := by
  rcases b with _ | n
  · simp [squeezed]
  · unfold squeezed; split <;> simp_all

theorem bproj_toList (b : Option ℕ) (o : ℕ) : bproj b.toList [o] = bsel b o := by
  rcases b with _ | n <;> simp [bproj, bsel]

theorem squeezed_eq (b : Option ℕ) : squeezed b = if b = some 1 then none else b := by
  rcases b with _ | n
  · rfl
  · unfold squeezed; split <;> simp_all

theorem squeeze_bsel {t : TT K} (h : t.WF) :
    ∃ T, squeezeBatchDim t = Except.ok T ∧ T.WF ∧ T.rawShape = t.rawShape ∧ T.ttRanks = t.ttRanks ∧
      T.ndims = t.ndims ∧ T.batch = squeezed t.batch ∧
      ∀ o m, Valid t.bpre (bsel t.batch o) → T.ValidModes m T.ndims →
        T.entry (lsel T.batch o) m = t.entry (bsel t.batch o) m := by
  obtain ⟨T, eT, wT, rT, kT, nT, bT, vT⟩ := squeezeBatchDim_spec h
  have hb : T.batch = squeezed t.batch := by rw [bT, squeezed_eq]
  refine ⟨T, eT, wT, rT, kT, nT, hb, fun o m ho hm => ?_⟩
  have := vT [o] m (by rw [TT.bpre, bproj_toList]; exact ho) hm
  rwa [TT.bpre, TT.bpre, bproj_toList, bproj_toList, bsel_eq_lsel (by rw [hb]; exact squeezed_ne_one _)] at this

/-- After squeezing, two compatible batch sizes are equal or one is missing. -/
theorem squeezed_cases {a b : Option ℕ} (h : BCompat a b) :
    squeezed a = none ∨ squeezed b = none ∨ squeezed a = squeezed b := by
  rcases a with _ | m
  · exact Or.inl rfl
  · rcases b with _ | n
    · exact Or.inr (Or.inl rfl)
    · simp only [BCompat] at h
      rcases h with rfl | rfl | rfl
      · exact Or.inr (Or.inr rfl)
      · exact Or.inl rfl
      · exact Or.inr (Or.inl rfl)

theorem resBatch_squeezed {a b : Option ℕ} (h : BCompat a b) :
    resBatch (squeezed a) (squeezed b) = squeezed (bcast a b) := by
  rcases a with _ | m <;> rcases b with _ | n <;> simp only [bcast, BCompat] at *
  · rfl
  · rw [show squeezed none = none from rfl, resBatch]; split
    · rfl
    · rename_i h; simpa using Eq.symm (by simpa using h)
  · rfl
  · rw [squeezed_eq, squeezed_eq, squeezed_eq]
    rcases h with rfl | rfl | rfl
    · by_cases hm : m = 1 <;> simp [hm, resBatch]
    · by_cases hm : n = 1 <;> simp [hm, resBatch]
    · by_cases hm : m = 1 <;> simp [hm, resBatch]

theorem bcast_valid {a b : Option ℕ} (h : BCompat a b) {o : ℕ} (ho : o < (bcast a b).getD 1) :
    Valid a.toList (bsel a o) ∧ Valid b.toList (bsel b o) := by
  rcases a with _ | m <;> rcases b with _ | n <;> simp only [bcast, BCompat] at *
  · exact ⟨trivial, trivial⟩
  · simp at ho; simp [bsel]; split <;> omega
  · simp at ho; simp [bsel]; split <;> omega
  · simp only [bsel, Option.toList, valid_cons, valid_nil_iff, and_true]
    split_ifs at ho ⊢ <;> simp at ho <;> omega

theorem lsel_valid {b : Option ℕ} {o : ℕ} (h : o < b.getD 1) : Valid b.toList (lsel b o) := by
  rcases b with _ | n
  · trivial
  · simpa [lsel] using h

theorem squeezed_getD (b : Option ℕ) : (squeezed b).getD 1 = b.getD 1 := by
  rw [squeezed_eq]; split_ifs with h <;> simp [h]

theorem squeezed_bsel (b : Option ℕ) (o : ℕ) : bsel (squeezed b) o = lsel (squeezed b) o :=
  bsel_eq_lsel (squeezed_ne_one b) o

theorem bcast_ne_zero {a b : Option ℕ} (h : BCompat a b) (ha : a ≠ some 0) (hb : b ≠ some 0) :
    bcast a b ≠ some 0 := by
  rcases a with _ | m <;> rcases b with _ | n <;> simp_all [bcast, BCompat]
  split_ifs <;> simp <;> omega

theorem squeezed_ne_zero {b : Option ℕ} (h : b ≠ some 0) : squeezed b ≠ some 0 := by
  rw [squeezed_eq]; split_ifs <;> simp_all

theorem bsel_length (b : Option ℕ) (o : ℕ) : (bsel b o).length = b.toList.length := by
  rcases b with _ | n <;> rfl

theorem lsel_length (b : Option ℕ) (o : ℕ) : (lsel b o).length = b.toList.length := by
  rcases b with _ | n <;> rfl

/-- Every batch position has the form `lsel`. -/
theorem valid_lsel {b : Option ℕ} {p : List ℕ} (h : Valid b.toList p) :
    ∃ o, o < b.getD 1 ∧ p = lsel b o := by
  rcases b with _ | n
  · exact ⟨0, by simp, by simpa [valid_nil_iff, lsel] using h⟩
  · obtain ⟨o, rfl, ho⟩ := valid_toList_some h
    exact ⟨o, ho, rfl⟩

end T3f
