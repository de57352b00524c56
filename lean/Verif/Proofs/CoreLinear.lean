import Verif.Spec.Training
import Verif.Proofs.FullGet
import Verif.Proofs.Sums

/-! # The elements are linear in every core -/

namespace T3f

/-- A chain of matrices is linear in the matrix at `k`. -/
theorem lprod_linear {ι : Type} (S : Finset ι) (w : ι → ℝ) (r : ℕ → ℕ) (B : ι → ℕ → ℕ → ℕ → ℝ) (C : ℕ → ℕ → ℕ → ℝ) (k : ℕ)
    (hB : ∀ n ∈ S, ∀ j, j ≠ k → B n j = C j) (hC : ∀ a b, a < r k → b < r (k + 1) → C k a b = ∑ n ∈ S, w n * B n k a b) :
    ∀ d, k < d → ∀ b < r d, lprod r C d b = ∑ n ∈ S, w n * lprod r (B n) d b := by
  intro d
  induction d with
  | zero => intro h; omega
  | succ d ih =>
    intro hkd b hb
    rcases Nat.lt_succ_iff_lt_or_eq.1 hkd with h | rfl
    · simp only [lprod]
      rw [Finset.sum_congr rfl fun a ha => by rw [ih h a (Finset.mem_range.1 ha), Finset.sum_mul], Finset.sum_comm]
      refine Finset.sum_congr rfl fun n hn => ?_
      rw [Finset.mul_sum]
      refine Finset.sum_congr rfl fun a _ => ?_
      rw [hB n hn d (by omega), mul_assoc]
    · simp only [lprod]
      rw [Finset.sum_congr rfl fun a ha => by rw [hC a b (Finset.mem_range.1 ha) hb, Finset.mul_sum], Finset.sum_comm]
      refine Finset.sum_congr rfl fun n hn => ?_
      rw [Finset.mul_sum]
      refine Finset.sum_congr rfl fun a _ => ?_
      rw [lprod_congr' (B := C) fun j hj => hB n hn j (by omega)]
      ring

variable {t : TT ℝ} {k : ℕ}

theorem withCore_core_self (hk : k < t.ndims) (C : Tensor ℝ) : (t.withCore k C).core k = C := by
  unfold TT.core TT.withCore
  simp only [List.getD_eq_getElem?_getD, List.getElem?_set_self hk, Option.getD_some]

theorem withCore_core_ne {j : ℕ} (hj : j ≠ k) (C : Tensor ℝ) : (t.withCore k C).core j = t.core j := by
  unfold TT.core TT.withCore
  simp only [List.getD_eq_getElem?_getD, List.getElem?_set_ne hj.symm]

theorem withCore_ndims (C : Tensor ℝ) : (t.withCore k C).ndims = t.ndims := by
  simp [TT.withCore, TT.ndims]

theorem withCore_wf (h : t.WF) (hk : k < t.ndims) {C : Tensor ℝ} (hC : C.shape = (t.core k).shape) : (t.withCore k C).WF where
  pos := by rw [withCore_ndims]; exact h.pos
  ranks_len := by rw [withCore_ndims]; exact h.ranks_len
  rank_first := h.rank_first
  rank_last := by rw [withCore_ndims]; exact h.rank_last
  rank_pos := by rw [withCore_ndims]; exact h.rank_pos
  rows := h.rows
  rows_len := by rw [withCore_ndims]; exact h.rows_len
  core_shape := by
    rw [withCore_ndims]
    intro j hj
    rcases eq_or_ne j k with rfl | hjk
    · rw [withCore_core_self hk, hC]; exact h.core_shape j hj
    · rw [withCore_core_ne hjk]; exact h.core_shape j hj
  batch_pos := h.batch_pos

theorem withCore_self (hk : k < t.ndims) : t.withCore k (t.core k) = t := by
  unfold TT.withCore TT.core
  have : t.cores.set k (t.cores.getD k default) = t.cores := by
    have hk' : k < t.cores.length := hk
    rw [List.getD_eq_getElem _ _ hk', List.set_getElem_self]
  rw [this]

theorem withCore_withCore (C D : Tensor ℝ) : (t.withCore k C).withCore k D = t.withCore k D := by
  simp [TT.withCore]

/-- The elements as a linear combination. -/
theorem entry_linear {ι : Type} (S : Finset ι) (w : ι → ℝ) (hk : k < t.ndims) (hr : t.rank t.ndims = 1) (C : Tensor ℝ) (E : ι → Tensor ℝ) (p : List ℕ)
    (m : ℕ → List ℕ)
    (hC : ∀ a b, a < t.rank k → b < t.rank (k + 1) → C.get (p ++ a :: (m k ++ [b])) = ∑ n ∈ S, w n * (E n).get (p ++ a :: (m k ++ [b]))) :
    (t.withCore k C).entry p m = ∑ n ∈ S, w n * (t.withCore k (E n)).entry p m := by
  unfold TT.entry
  simp only [withCore_ndims]
  refine lprod_linear S w t.rank (fun n => (t.withCore k (E n)).slice p m) _ k (fun n _ j hj => ?_) (fun a b ha hb => ?_) t.ndims hk 0 (by rw [hr]; omega)
  · funext a b
    simp only [TT.slice, withCore_core_ne hj]
  · simp only [TT.slice, withCore_core_self hk]
    exact hC a b ha hb

theorem entry_addScaled (hk : k < t.ndims) (hr : t.rank t.ndims = 1) (D : Tensor ℝ) (s : ℝ) (p : List ℕ) (m : ℕ → List ℕ) :
    (t.withCore k ((t.core k).addScaled s D)).entry p m = t.entry p m + s * (t.withCore k D).entry p m := by
  have := entry_linear (t := t) (Finset.univ : Finset Bool) (fun n => if n then s else 1) hk hr ((t.core k).addScaled s D)
    (fun n => if n then D else t.core k) p m (fun a b _ _ => by simp [Tensor.addScaled]; ring)
  rw [this]
  simp [withCore_self hk]
  ring

/-- A tensor is the combination of the unit tensors. -/
theorem get_unit (D : Tensor ℝ) {s i : List ℕ} (hi : Valid s i) :
    D.get i = ∑ n ∈ Finset.range s.prod, D.get (unravel s n) * (unitAt s (unravel s n)).get i := by
  rw [Finset.sum_eq_single_of_mem (ravel s i) (Finset.mem_range.2 (ravel_lt hi))]
  · simp [unravel_ravel hi, unitAt]
  · intro n hn hne
    have : i ≠ unravel s n := fun e => hne (by rw [e, ravel_unravel (Finset.mem_range.1 hn)])
    simp [unitAt, this]

theorem entry_unit (h : t.WF) (hk : k < t.ndims) (D : Tensor ℝ) {p : List ℕ} {m : ℕ → List ℕ} (hp : Valid t.bpre p) (hm : Valid (t.modes k) (m k)) :
    (t.withCore k D).entry p m = ∑ n ∈ Finset.range (t.core k).shape.prod,
      D.get (unravel (t.core k).shape n) * (t.withCore k (unitAt (t.core k).shape (unravel (t.core k).shape n))).entry p m := by
  refine entry_linear _ _ hk h.rank_last D _ p m fun a b ha hb => get_unit D ?_
  rw [h.core_shape k hk]
  exact valid_append hp ⟨ha, valid_append hm ⟨hb, trivial⟩⟩

end T3f
