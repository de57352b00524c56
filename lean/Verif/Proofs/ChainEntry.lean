import Verif.Proofs.Constructor
import Verif.Proofs.Sums
import Verif.Proofs.Dense

/-! # Entries of an object built from a chain of cores -/

namespace T3f

variable {K : Type} [CommRing K]
  {bs : Option ℕ} {cores : List (Tensor K)} {r : ℕ → ℕ} {M : ℕ → List ℕ} {nm : ℕ}

theorem Chain.entry_eq (h : Chain bs cores r M nm) (p : List ℕ) (m : ℕ → List ℕ) :
    (chainTT bs cores r M nm).entry p m =
      lprod r (fun k a b => (cores.getD k default).get (p ++ a :: (m k ++ [b]))) cores.length 0 := by
  rw [TT.entry]
  refine lprod_congr (k := cores.length) (fun j hj => chainTT_rank j hj.le) (fun _ _ _ _ _ _ => rfl) ?_
  rw [chainTT_rank _ le_rfl, h.rd]; omega

theorem Chain.validModes (h : Chain bs cores r M nm) {m : ℕ → List ℕ}
    (hv : (chainTT bs cores r M nm).ValidModes m (chainTT bs cores r M nm).ndims) {k : ℕ}
    (hk : k < cores.length) : Valid (M k) (m k) := by
  rw [← h.modes_eq k hk]; exact hv k hk

/-- Build a chain by computing its cores one after the other. -/
theorem Chain.build (f : ℕ → R (Tensor K)) (d : ℕ) (bs : Option ℕ) (r : ℕ → ℕ) (M : ℕ → List ℕ) (nm : ℕ)
    (P : ℕ → Tensor K → Prop) (hd : 0 < d) (r0 : r 0 = 1) (rd : r d = 1) (rpos : ∀ k ≤ d, 0 < r k)
    (nm12 : nm = 1 ∨ nm = 2) (Mlen : ∀ k < d, (M k).length = nm) (bpos : bs ≠ some 0)
    (hf : ∀ k < d, ∃ C, f k = Except.ok C ∧ C.shape = bs.toList ++ r k :: (M k ++ [r (k + 1)]) ∧ P k C) :
    ∃ cores, mapRange d f = Except.ok cores ∧ cores.length = d ∧ Chain bs cores r M nm ∧
      ∀ k < d, P k (cores.getD k default) := by
  obtain ⟨cores, e, l, h⟩ := mapRange_ok d f
    (fun k C => C.shape = bs.toList ++ r k :: (M k ++ [r (k + 1)]) ∧ P k C) hf
  subst l
  exact ⟨cores, e, rfl, ⟨hd, r0, rd, rpos, nm12, Mlen, fun k hk => (h k hk).1, bpos⟩,
    fun k hk => (h k hk).2⟩

end T3f
