import Verif.Proofs.AutodiffGrad
import Verif.Proofs.BatchOps
import Verif.Props.C02Constructor

/-! # Gradients for points whose orthogonalizations have different ranks -/

namespace T3f

variable {x left right : TT ℝ}

theorem mapRange_inv {α : Type} [Inhabited α] {n : ℕ} {f : ℕ → R α} {l : List α} (h : mapRange n f = Except.ok l) :
    l.length = n ∧ ∀ k < n, f k = Except.ok (l.getD k default) := by
  by_cases hc : ∀ k < n, ∃ a, f k = Except.ok a
  · choose! g hg using hc
    obtain ⟨l', e, hl, hv⟩ := mapRange_ok n f (fun k a => f k = Except.ok a) fun k hk => ⟨g k, hg k hk, hg k hk⟩
    obtain rfl : l' = l := Except.ok.inj (e.symm.trans h)
    exact ⟨hl, hv⟩
  · push Not at hc
    obtain ⟨k, hk, hk', hs⟩ := exists_first (fun k => ∃ a, f k = Except.ok a) (by
      obtain ⟨k, hk, h⟩ := hc
      exact ⟨k, hk, fun ⟨a, ha⟩ => h a ha⟩)
    cases he : f k with
    | ok a => exact absurd ⟨a, he⟩ hk'
    | error e =>
      rw [mapRange_first_error n k f e hk hs he] at h
      cases h

/-- The blocks of the point do not fit. -/
theorem pointDeltas_error {qr : QRRoutine} (F : TFrame x left right) (h : x.WF) (hb : x.batch = none) (hd : 2 ≤ x.ndims)
    (hk : ∃ k, 0 < k ∧ k < x.ndims ∧ right.rank k ≠ left.rank k) :
    ∃ ds, pointDeltas right = Except.ok ds ∧ ∃ e, deltasToTangent qr ds x (some left) (some right) = Except.error e := by
  have hpos := h.pos
  have hrl : right.cores.length = x.ndims := F.nr
  refine ⟨right.core 0 :: (right.cores.drop 1).map fun cc => zeros cc.shape, by rw [pointDeltas, F.cr hpos]; rfl, ?_⟩
  obtain ⟨ds, hds⟩ : ∃ ds, right.core 0 :: (right.cores.drop 1).map (fun cc => zeros cc.shape) = ds := ⟨_, rfl⟩
  rw [hds]
  have hlen : ds.length = x.ndims := by rw [← hds]; simp; omega
  have hsh : ∀ k < x.ndims, (ds.getD k default).shape = right.rank k :: (x.modes k ++ [right.rank (k + 1)]) := fun k hk => by
    have hkl : k < right.cores.length := by omega
    rw [← F.sr hk, ← hds]
    cases k with
    | zero => rfl
    | succ k =>
      rw [List.getD_cons_succ, List.getD_eq_getElem _ _ (by simp; omega)]
      simp [zeros, TT.core, hkl]
  cases hok : deltasToTangent qr ds x (some left) (some right) with
  | error e => exact ⟨e, rfl⟩
  | ok y =>
    exfalso
    rw [deltasToTangent, show frameOr qr x true (some left) = Except.ok left from rfl, R.ok_bind,
      show frameOr qr left false (some right) = Except.ok right from rfl, R.ok_bind, pyGet_of_lt ds 0 default (by omega), R.ok_bind, h.pyCore (by omega), R.ok_bind] at hok
    simp only [deltas_batch h hb (out := none) (hsh 0 hpos)] at hok
    cases hc : mapRange x.ndims (deltaTangentCore ds x left right none) with
    | error e => rw [hc] at hok; cases hok
    | ok cores =>
      rw [hc, R.ok_bind] at hok
      obtain ⟨hl, hv⟩ := mapRange_inv hc
      obtain ⟨k, h0, h1, hne⟩ := hk
      by_cases hmid : ∃ k, 0 < k ∧ k + 1 < x.ndims ∧ right.rank k ≠ left.rank k
      · obtain ⟨k, h0, h1, hne⟩ := hmid
        have := hv k (by omega)
        rw [deltaTangentCore_error F h hlen h0 h1 hne] at this
        cases this
      · push Not at hmid
        obtain rfl : k = x.ndims - 1 := by
          by_contra hc'
          exact hne (hmid k h0 (by omega))
        have hrk : ∀ k, k + 1 < x.ndims → right.rank k = left.rank k := fun k h1 => by
          rcases Nat.eq_zero_or_pos k with rfl | h0
          · rw [F.wr.rank_first, F.wl.rank_first]
          · exact hmid k h0 h1
        have hcore : ∀ k, k + 1 < x.ndims → (cores.getD k default).shape =
            addRk right.rank left.rank x.ndims k :: (x.modes k ++ [addRk right.rank left.rank x.ndims (k + 1)]) := fun k h1 => by
          obtain ⟨C, eC, sC, _⟩ := deltaTangentCore_ok F h hd (out := none) hlen (k := k) (by omega)
            (by rw [hsh k (by omega), hrk k h1]; rfl) (fun _ h1 => hrk k h1)
          have := (hv k (by omega)).symm.trans eC
          rw [Except.ok.inj this, sC]; rfl
        have hlast : (cores.getD (x.ndims - 1) default).shape.getD 0 0 = right.rank (x.ndims - 1) + right.rank (x.ndims - 1) := by
          have hlt : x.ndims - 1 < x.ndims := by omega
          have hax := left_axes F
          have := hv (x.ndims - 1) hlt
          rw [deltaTangentCore, F.wl.pyCore (by rw [F.nl]; exact hlt), F.wr.pyCore (by rw [F.nr]; exact hlt)] at this
          simp only [R.ok_bind, tileCore, R.pure_eq] at this
          rw [pyGet_of_lt ds _ default (by omega), R.ok_bind, tangentCore, if_neg (by omega), if_pos rfl] at this
          obtain ⟨C, eC, sC, _⟩ := concat_ok (right.core (x.ndims - 1)) (ds.getD (x.ndims - 1) default) [] (x.modes (x.ndims - 1) ++ [right.rank (x.ndims - 1 + 1)])
            (right.rank (x.ndims - 1)) (right.rank (x.ndims - 1)) (F.sr hlt) (hsh _ hlt) (left.leftRankDim + (none : Option ℕ).toList.length) (by simp [hax.1])
          rw [Except.ok.inj (this.symm.trans eC), sC]; rfl
        have hcs : ¬ Consistent 0 (cores.map (·.shape)) := fun hcs => by
          have hlk := hcs.link (x.ndims - 2) (by rw [List.length_map]; omega)
          have hget : ∀ k < x.ndims, (cores.map (·.shape)).getD k [] = (cores.getD k default).shape := fun k hk => by
            rw [List.getD_eq_getElem _ [] (by rw [List.length_map]; omega), List.getElem_map, List.getD_eq_getElem _ default (by omega)]
          rw [show x.ndims - 2 + 1 = x.ndims - 1 by omega, hget _ (by omega), hget _ (by omega), hlast, hcore _ (by omega)] at hlk
          rw [show x.ndims - 2 + 1 = x.ndims - 1 by omega] at hlk
          rw [addRk, addRk, if_neg (by omega : ¬ (x.ndims - 1 = 0 ∨ x.ndims - 1 = x.ndims))] at hlk
          simp only [List.getLastD_cons, List.getLastD_concat] at hlk
          omega
        have hh : cores.head? = some (cores.getD 0 default) := by
          cases cores with
          | nil => simp at hl; omega
          | cons a l => rfl
        rw [mkFromCores, (C02_tensor_train cores _ hh (by rw [hcore 0 (by omega)]; simp)).2 hcs] at hok
        cases hok

/-- With one core, the ranks of the result are not one. -/
theorem pointDeltas_one {qr : QRRoutine} (F : TFrame x left right) (h : x.WF) (hb : x.batch = none) (hd : x.ndims = 1) :
    ∃ ds, pointDeltas right = Except.ok ds ∧ deltasToTangent qr ds x (some left) (some right) = Except.error Err.value := by
  have hpos := h.pos
  have hrl : right.cores.length = x.ndims := F.nr
  have hax := left_axes F
  refine ⟨[right.core 0], ?_, ?_⟩
  · rw [pointDeltas, F.cr hpos]
    have : right.cores.drop 1 = [] := List.drop_eq_nil_of_le (by omega)
    rw [this]; rfl
  · have hr1 : right.rank 1 = 1 := by have := F.wr.rank_last; rw [F.nr, hd] at this; exact this
    have hl1 : left.rank 1 = 1 := by have := F.wl.rank_last; rw [F.nl, hd] at this; exact this
    have hml : (x.modes 0).length = x.rawShape.length := by simp [TT.modes]
    have sl : (left.core 0).shape = 1 :: (x.modes 0 ++ [1]) := by
      have := F.wl.core_shape 0 (by rw [F.nl]; exact hpos)
      rw [F.pl, F.ml, F.wl.rank_first, hl1] at this; exact this
    have sr : (right.core 0).shape = 1 :: (x.modes 0 ++ [1]) := by
      have := F.sr hpos
      rw [F.wr.rank_first, hr1] at this; exact this
    rw [deltasToTangent, show frameOr qr x true (some left) = Except.ok left from rfl, R.ok_bind,
      show frameOr qr left false (some right) = Except.ok right from rfl, R.ok_bind, pyGet_of_lt [right.core 0] 0 default (by simp), R.ok_bind,
      h.pyCore hpos, R.ok_bind]
    simp only [deltas_batch h hb (out := none) (deltas := [right.core 0]) (a := 1) (b := 1) (by rw [List.getD_cons_zero, sr]; rfl)]
    obtain ⟨C, eC, sC, _⟩ := concat_ok (right.core 0) (left.core 0) (1 :: x.modes 0) [] 1 1 (by rw [sr]; rfl) (by rw [sl]; rfl)
      (left.rightRankDim + (none : Option ℕ).toList.length) (by simp [hax.2, hml])
    have hcore : deltaTangentCore [right.core 0] x left right none 0 = Except.ok C := by
      rw [deltaTangentCore, F.wl.pyCore (by rw [F.nl]; exact hpos), F.wr.pyCore (by rw [F.nr]; exact hpos)]
      simp only [R.ok_bind, tileCore, R.pure_eq]
      rw [pyGet_of_lt [right.core 0] 0 default (by simp), R.ok_bind, tangentCore, if_pos rfl]
      exact eC
    have hm : mapRange x.ndims (deltaTangentCore [right.core 0] x left right none) = Except.ok [C] := by
      rw [hd]
      simp only [mapRange, List.range_one, List.mapM_cons, List.mapM_nil, pure_bind, hcore, R.ok_bind]
      rfl
    rw [hm, R.ok_bind, mkFromCores]
    refine (C02_tensor_train [C] C rfl (by rw [sC]; simp)).2 fun hcs => ?_
    have := hcs.last
    simp only [List.map_cons, List.map_nil, List.length_cons, List.length_nil, Nat.zero_add, Nat.sub_self, List.getD_cons_zero, sC] at this
    rw [List.getLastD_concat] at this
    omega

end T3f
