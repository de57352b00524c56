import Verif.Proofs.TypedSums
import Verif.Props.C83Dtypes

/-!
# C83: data types of approximate sums
-/

namespace T3f.Dt

variable {d : DType}

/-- **C83.** `approximate.add_n`: the sum of objects of one data type has this data type, and its values are those of the sum without data types (C35, C74); if two of the objects differ
in their data type, TensorFlow raises, wherever in the list they are. -/
theorem C83_add_n (qr : QRRoutine) (svd : SVDRoutine) (ts : List (TT ℝ)) (hw : ∀ t ∈ ts, t.erase.WF) (hu : ∀ t ∈ ts, ∃ d, t.Uniform d) (m : MaxRank) :
    (∀ d, (∀ t ∈ ts, t.Uniform d) → Follows d (addN qr svd ts m) (T3f.addN qr svd (ts.map TT.erase) m)) ∧
      ((¬ ∃ d, ∀ t ∈ ts, t.Uniform d) → Rejects Err.tf (addN qr svd ts m) (T3f.addN qr svd (ts.map TT.erase) m)) := by
  constructor
  · intro d hd
    have : ts = (ts.map TT.erase).map (tagT d) := by
      rw [List.map_map]
      exact (List.map_id ts).symm.trans (List.map_congr_left fun t ht => eq_tagT (hd t ht))
    have h := follows_tagT (addN_tag d qr svd (ts := ts.map TT.erase) (fun t ht => by
      obtain ⟨s, hs, rfl⟩ := List.mem_map.1 ht
      exact ne_nil_of_wf (hw s hs)) m)
    rw [← this] at h
    exact h
  · refine fun hn => addN_mixed (fun t ht => ⟨fun h0 => ?_, hu t ht⟩) hn
    exact ne_nil_of_wf (hw t ht) (by unfold TT.erase; rw [h0]; rfl)

/-- **C83.** `approximate.reduce_sum_batch` keeps the data type of the batch. Coefficients of Python or NumPy are converted to it; tensors of another data type are rejected with ValueError. -/
theorem C83_reduce_sum_batch (qr : QRRoutine) (svd : SVDRoutine) (t : TT ℝ) (ht : t.Uniform d) (hw : t.erase.WF) (m : MaxRank) (x : T3f.Tensor ℝ) (f : DType) :
    Follows d (reduceSumBatch qr svd t m none) (T3f.reduceSumBatch qr svd t.erase m none) ∧
      Follows d (reduceSumBatch qr svd t m (some (.python x))) (T3f.reduceSumBatch qr svd t.erase m (some x)) ∧
      (f = d → Follows d (reduceSumBatch qr svd t m (some (.tensor ⟨f, x⟩))) (T3f.reduceSumBatch qr svd t.erase m (some x))) ∧
      (f ≠ d → reduceSumBatch qr svd t m (some (.tensor ⟨f, x⟩)) = Except.error Err.value) := by
  revert hw
  rw [eq_tagT ht, tagT_erase]
  intro hw
  have n := ne_nil_of_wf hw
  refine ⟨follows_tagT (reduceSumBatch_tag d qr svd n m none none trivial), follows_tagT (reduceSumBatch_tag d qr svd n m (some x) (some (.python x)) rfl), fun h => ?_, fun h => ?_⟩
  · subst h
    exact follows_tagT (reduceSumBatch_tag f qr svd n m (some x) (some (.tensor ⟨f, x⟩)) (if_pos rfl))
  · unfold reduceSumBatch weightBatch
    simp only [tagT_dtype_of d n, ok_bind, convertToTensor, h, if_false]
    rfl

/-- Three objects of which the last has another data type. -/
example : (∀ t ∈ [exTyped .float32, exTyped .float32, exTyped .float64], t.erase.WF ∧ ∃ d, t.Uniform d) ∧
    ¬ ∃ d, ∀ t ∈ [exTyped .float32, exTyped .float32, exTyped .float64], t.Uniform d := by
  refine ⟨?_, ?_⟩
  · intro t ht
    simp only [List.mem_cons, List.not_mem_nil, or_false] at ht
    rcases ht with rfl | rfl | rfl <;> exact ⟨(exTyped_ok _).1, _, tagT_uniform _ _⟩
  · rintro ⟨d, h⟩
    have h1 := h (exTyped .float32) (by simp) (tag .float32 (exMatrix.toReal.cores.headD default)) (by simp [exTyped, tagT, TT.toReal, exMatrix])
    have h2 := h (exTyped .float64) (by simp) (tag .float64 (exMatrix.toReal.cores.headD default)) (by simp [exTyped, tagT, TT.toReal, exMatrix])
    cases h1
    cases h2

example (d : DType) : (tagT d exBatch.toReal).Uniform d ∧ (tagT d exBatch.toReal).erase.WF ∧ (tagT d exBatch.toReal).batch = some 2 :=
  ⟨tagT_uniform _ _, by rw [tagT_erase]; exact TT.WF.toReal (by decide), rfl⟩

end T3f.Dt
