import Verif.Model.Weights
import Verif.Spec.Layer
import Verif.Proofs.Variables

/-! # Proofs about `set_weights` -/

namespace T3f

theorem setAll_spec (ps : List (ℕ × Tensor ℝ)) : ∀ (σ : Store ℝ), (ps.map Prod.fst).Nodup → (∀ p ∈ ps, p.1 < σ.length) →
    (ps.foldl (fun σ p => σ.set p.1 p.2) σ).length = σ.length ∧ (∀ p ∈ ps, (ps.foldl (fun σ p => σ.set p.1 p.2) σ).getD p.1 default = p.2) ∧
      ∀ a, a ∉ ps.map Prod.fst → (ps.foldl (fun σ p => σ.set p.1 p.2) σ)[a]? = σ[a]? := by
  induction ps with
  | nil => exact fun σ _ _ => ⟨rfl, by simp, fun _ _ => rfl⟩
  | cons q ps ih =>
    intro σ hd hl
    rw [List.map_cons, List.nodup_cons] at hd
    obtain ⟨h1, h2, h3⟩ := ih (σ.set q.1 q.2) hd.2 (fun p hp => by rw [List.length_set]; exact hl p (by simp [hp]))
    rw [List.foldl_cons]
    refine ⟨by rw [h1, List.length_set], fun p hp => ?_, fun a ha => ?_⟩
    · rcases List.mem_cons.1 hp with rfl | hp
      · rw [List.getD_eq_getElem?_getD, h3 _ hd.1, ← List.getD_eq_getElem?_getD, getD_set _ _ _ _ (hl p (by simp)), if_pos rfl]
      · exact h2 p hp
    · rw [List.map_cons, List.mem_cons, not_or] at ha
      rw [h3 a ha.2, List.getElem?_set_ne (Ne.symm ha.1)]

theorem KerasDense.weights_eq {σ : Store ℝ} {layer : KerasDense} {as : List ℕ} (hv : layer.matrix.IsVariable σ as) : layer.weights = as ++ layer.b.toList := by
  rw [KerasDense.weights, hv.cores, List.filterMap_map]
  congr 1
  exact List.filterMap_some

end T3f
