import Verif.Proofs.Dense

/-! # Reading the result of `full` -/

namespace T3f

variable {K : Type} [CommRing K]

theorem full_ok {t : TT K} (h : t.WF) : ∃ F, full t = Except.ok F ∧
    F.shape = t.bpre ++ restShape t.rawShape ∧
    ∀ p i, Valid t.bpre p → Valid (restShape t.rawShape) i →
      F.get (p ++ i) = t.entry p (restModes t.rawShape i) := by
  obtain ⟨F, e, s, v⟩ := full_dense h
  have s' : F.shape = t.bpre ++ restShape t.rawShape := s
  refine ⟨F, e, s', fun p i hp hi => ?_⟩
  rw [v _ (by rw [s']; exact valid_append hp hi), dense_get t p i hp.length_eq]

theorem full_get {t : TT K} (h : t.WF) {F : Tensor K} (e : full t = Except.ok F) :
    F.shape = t.bpre ++ restShape t.rawShape ∧
    ∀ p i, Valid t.bpre p → Valid (restShape t.rawShape) i →
      F.get (p ++ i) = t.entry p (restModes t.rawShape i) := by
  obtain ⟨F', e', s, v⟩ := full_ok h
  obtain rfl : F' = F := by rw [e] at e'; cases e'; rfl
  exact ⟨s, v⟩

omit [CommRing K] in
theorem bpre_none {t : TT K} (h : t.batch = none) : t.bpre = [] := by simp [TT.bpre, h]
omit [CommRing K] in
theorem bpre_some {t : TT K} {n : ℕ} (h : t.batch = some n) : t.bpre = [n] := by simp [TT.bpre, h]

omit [CommRing K] in
theorem restShape_tensor (row : List ℕ) : restShape [row] = row := rfl
omit [CommRing K] in
theorem restShape_matrix (row0 row1 : List ℕ) : restShape [row0, row1] = [row0.prod, row1.prod] := rfl
omit [CommRing K] in
theorem restModes_tensor (row i : List ℕ) : restModes [row] i = tIdx i := rfl
omit [CommRing K] in
theorem restModes_matrix (row0 row1 : List ℕ) (x y : ℕ) :
    restModes [row0, row1] [x, y] = mIdx (unravel row0 x) (unravel row1 y) := rfl

theorem full_matrix {t : TT K} (h : t.WF) {I J : List ℕ} (hr : t.rawShape = [I, J]) :
    ∃ F, full t = Except.ok F ∧ F.shape = t.bpre ++ [I.prod, J.prod] ∧
      ∀ p x y, Valid t.bpre p → x < I.prod → y < J.prod →
        F.get (p ++ [x, y]) = t.entry p (mIdx (unravel I x) (unravel J y)) := by
  obtain ⟨F, e, s, v⟩ := full_ok h
  rw [hr] at s v
  exact ⟨F, e, s, fun p x y hp hx hy => v p [x, y] hp ⟨hx, hy, trivial⟩⟩

theorem full_tensor {t : TT K} (h : t.WF) {I : List ℕ} (hr : t.rawShape = [I]) :
    ∃ F, full t = Except.ok F ∧ F.shape = t.bpre ++ I ∧
      ∀ p i, Valid t.bpre p → Valid I i → F.get (p ++ i) = t.entry p (tIdx i) := by
  obtain ⟨F, e, s, v⟩ := full_ok h
  rw [hr] at s v
  exact ⟨F, e, s, v⟩

end T3f
