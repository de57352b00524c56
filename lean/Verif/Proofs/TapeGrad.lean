import Verif.Proofs.TapeRL
import Verif.Proofs.AutodiffError
import Verif.Proofs.RoundLast
import Verif.Proofs.Descent

/-! # The backward pass of `gradients` through the norm based on QR decompositions -/

namespace T3f

open Taped

/-- The first core of a sum begins with the first core of the left operand. -/
theorem add_first {a b c : TT ℝ} (ha : a.WF) (hb : b.WF) (hr : a.rawShape = b.rawShape) (hba : a.batch = none) (hbb : b.batch = none)
    (h : add a b = Except.ok c) : ∀ v, v.length = a.rawShape.length → ∀ y < a.rank 1, (c.core 0).get (0 :: (v ++ [y])) = (a.core 0).get (0 :: (v ++ [y])) := by
  have hn := ndims_of_rows ha hb hr
  have hpos := ha.pos
  have hmod := modes_of_rows hr
  have hm : (a.isMatrix ↔ b.isMatrix) := by unfold TT.isMatrix; rw [hr]
  have hbc : isBatchBroadcastingPossible a b = true := by simp [isBatchBroadcastingPossible, hba]
  have hsA : (a.core 0).shape = (1 :: a.modes 0) ++ a.rank 1 :: [] := by
    rw [ha.core_shape 0 hpos, TT.bpre, hba, ha.rank_first]; simp
  have hsB : (b.core 0).shape = (1 :: a.modes 0) ++ b.rank 1 :: [] := by
    rw [hb.core_shape 0 (by omega), TT.bpre, hbb, hb.rank_first, hmod]; simp
  have hlen : (a.modes 0).length = a.rawShape.length := by simp [TT.modes]
  obtain ⟨C, eC, -, vC⟩ := concat_ok (a.core 0) (b.core 0) (1 :: a.modes 0) [] (a.rank 1) (b.rank 1) hsA hsB (a.rawShape.length + 1) (by simp [hlen])
  simp only [add, require_pos hm, require_pos hr, require_pos hbc, R.ok_bind, TT.isBatch, hba, hbb,
    Option.isSome_none, Bool.or_self, Bool.false_eq_true, if_false] at h
  have key : c.core 0 = C := by
    by_cases hmx : a.isMatrix
    · rw [if_pos hmx, addMatrixCores_eq ha hb hn hmx] at h
      revert h
      generalize hX : mapRange a.ndims _ = X
      intro h
      cases X with
      | error e => cases h
      | ok cores =>
        rw [R.ok_bind] at h
        have h0 := (mapRange_inv hX).2 0 hpos
        rw [addCore, if_pos rfl] at h0
        rw [show a.rawShape.length + 1 = 3 by rw [show a.rawShape.length = 2 from hmx], h0] at eC
        cases hk : addRanks a b with
        | error e => rw [hk] at h; cases h
        | ok rk =>
          rw [hk, R.ok_bind] at h
          rw [TT.core, mkTT_cores h]
          exact Except.ok.inj eC
    · rw [if_neg hmx, addTensorCores_eq ha hb hn hmx] at h
      revert h
      generalize hX : mapRange a.ndims _ = X
      intro h
      cases X with
      | error e => cases h
      | ok cores =>
        rw [R.ok_bind] at h
        have h0 := (mapRange_inv hX).2 0 hpos
        rw [addCore, if_pos rfl] at h0
        rw [show a.rawShape.length + 1 = 2 by rw [ha.rows.resolve_right hmx], h0] at eC
        cases hk : addRanks a b with
        | error e => rw [hk] at h; cases h
        | ok rk =>
          rw [hk, R.ok_bind] at h
          rw [TT.core, mkTT_cores h]
          exact Except.ok.inj eC
  intro v hv y hy
  rw [key]
  have := vC (0 :: v) y [] (by simp [hv, hlen])
  rw [if_pos hy] at this
  exact this

variable {x left right : TT ℝ}

theorem lprod_one (t : TT ℝ) (h : t.WF) (g : ℕ → List ℕ) (a : ℕ) : lprod t.rank (t.slice [] g) 1 a = (t.core 0).get (0 :: (g 0 ++ [a])) := by
  rw [lprod, h.rank_first, Finset.sum_range_one]
  simp [lprod, TT.slice]

/-- The first core of the right orthonormal representation is a combination of that of the left orthonormal representation. -/
theorem first_in_span (F : TFrame x left right) (hd : 2 ≤ x.ndims) :
    ∃ S : ℕ → ℝ, ∀ v, Valid (x.modes 0) v →
      (right.core 0).get (0 :: (v ++ [0])) = ∑ b ∈ Finset.range (left.rank 1), (left.core 0).get (0 :: (v ++ [b])) * S b := by
  have hind := rorth_indep (A := fun g => right.slice [] g) (F := right.fl []) (M := x.modes) (N := x.N) (r := right.rank) (d := x.ndims) (fun k => rfl)
    (fun g k a b => by
      by_cases hv : Valid (x.modes k) (g k)
      · left; rw [TT.slice, TT.fl, F.mr, unravel_ravel hv]
      · right; exact hv) F.rd (x.ndims - 1) 1 (by omega) (fun j h1 h2 => F.ro j (by omega) h2)
  obtain ⟨B, hB⟩ := dual_of_indep (J := {g : ℕ → List ℕ // ∀ j, 1 ≤ j → j < x.ndims → Valid (x.modes j) (g j)})
    (fun g a => rprod right.rank (right.slice [] g.1) (x.ndims - 1) 1 a) (right.rank 1)
    (fun w hw => hind w (fun g hg => hw ⟨g, hg⟩) (fun g g' k hk => by funext a b; simp only [TT.slice, hk])) (a' := 0) (F.wr.rank_pos 1 (by rw [F.nr]; omega))
  refine ⟨fun b => B.sum fun g c => c * rprod left.rank (left.slice [] g.1) (x.ndims - 1) 1 b, fun v hv => ?_⟩
  have he : ∀ g : {g : ℕ → List ℕ // ∀ j, 1 ≤ j → j < x.ndims → Valid (x.modes j) (g j)},
      ∑ a ∈ Finset.range (right.rank 1), (right.core 0).get (0 :: (v ++ [a])) * rprod right.rank (right.slice [] g.1) (x.ndims - 1) 1 a =
      ∑ b ∈ Finset.range (left.rank 1), (left.core 0).get (0 :: (v ++ [b])) * rprod left.rank (left.slice [] g.1) (x.ndims - 1) 1 b := by
    intro g
    have hg : ∀ j < x.ndims, Valid (x.modes j) (Function.update g.1 0 v j) := fun j hj => by
      rcases Nat.eq_zero_or_pos j with rfl | h0
      · rw [Function.update_self]; exact hv
      · rw [Function.update_of_ne (by omega)]; exact g.2 j h0 hj
    have e1 := F.er _ hg
    rw [← F.el _ hg, entry_split F.wr (k := 1) (by rw [F.nr]; omega), entry_split F.wl (k := 1) (by rw [F.nl]; omega), F.nr, F.nl] at e1
    simp only [lprod_one _ F.wr, lprod_one _ F.wl, Function.update_self] at e1
    rw [Finset.sum_congr rfl fun a _ => by rw [show rprod right.rank (right.slice [] (Function.update g.1 0 v)) (x.ndims - 1) 1 a =
        rprod right.rank (right.slice [] g.1) (x.ndims - 1) 1 a from
          rprod_congr' fun j hj => by funext a b; simp only [TT.slice]; rw [Function.update_of_ne (by omega)]]] at e1
    rw [e1]
    exact Finset.sum_congr rfl fun a _ => by rw [show rprod left.rank (left.slice [] (Function.update g.1 0 v)) (x.ndims - 1) 1 a =
        rprod left.rank (left.slice [] g.1) (x.ndims - 1) 1 a from
          rprod_congr' fun j hj => by funext a b; simp only [TT.slice]; rw [Function.update_of_ne (by omega)]]
  calc (right.core 0).get (0 :: (v ++ [0]))
      = ∑ a ∈ Finset.range (right.rank 1), (right.core 0).get (0 :: (v ++ [a])) *
          (B.sum fun g c => c * rprod right.rank (right.slice [] g.1) (x.ndims - 1) 1 a) := by
        rw [Finset.sum_congr rfl fun a ha => by rw [hB a (Finset.mem_range.1 ha)]]
        simp only [mul_ite, mul_one, mul_zero, Finset.sum_ite_eq', Finset.mem_range]
        rw [if_pos (F.wr.rank_pos 1 (by rw [F.nr]; omega))]
    _ = B.sum fun g c => c * ∑ a ∈ Finset.range (right.rank 1), (right.core 0).get (0 :: (v ++ [a])) *
          rprod right.rank (right.slice [] g.1) (x.ndims - 1) 1 a := by
        simp only [Finsupp.sum, Finset.mul_sum]
        rw [Finset.sum_comm]
        exact Finset.sum_congr rfl fun g _ => Finset.sum_congr rfl fun a _ => by ring
    _ = _ := by
        simp only [he]
        simp only [Finsupp.sum, Finset.mul_sum]
        rw [Finset.sum_comm]
        exact Finset.sum_congr rfl fun g _ => Finset.sum_congr rfl fun a _ => by ring

/-- The columns of the first core of the point with augmented ranks are dependent, also if further columns follow. -/
theorem augmented_dependent (F : TFrame x left right) (hd : 2 ≤ x.ndims) {D : ℕ → Tensor ℝ} {y z : TT ℝ} (T : IsTangent left right D y)
    (hD : D 0 = right.core 0) (hb : y.batch = none) (hz : z.WF) (hk : y.rank 1 ≤ z.rank 1)
    (hc : ∀ v, Valid (x.modes 0) v → ∀ a < y.rank 1, (z.core 0).get (0 :: (v ++ [a])) = (y.core 0).get (0 :: (v ++ [a]))) (hm : z.modes = x.modes) :
    ¬ z.LeftIndependent [] 1 := by
  obtain ⟨S, hS⟩ := first_in_span F hd
  have hyp : y.bpre = [] := by simp [TT.bpre, hb]
  have hV := T.vals 0 (by rw [F.nl]; omega)
  rw [hyp, hD] at hV
  have hrk : y.rank 1 = right.rank 1 + left.rank 1 := by
    rw [T.rank 1 (by rw [F.nl]; omega), addRk, if_neg (by rw [F.nl]; omega)]
  have hr1 : 0 < right.rank 1 := F.wr.rank_pos 1 (by rw [F.nr]; omega)
  intro hind
  have := hind (fun a => if a = 0 then 1 else if a < right.rank 1 then 0 else if a < right.rank 1 + left.rank 1 then -S (a - right.rank 1) else 0)
    (fun g hg => ?_) 0 (by omega)
  · simp at this
  · have hv : Valid (x.modes 0) (g 0) := by rw [← hm]; exact hg 0 (by omega)
    have hv' : Valid (left.modes 0) (g 0) := by rw [F.ml]; exact hv
    simp only [lprod_one _ hz]
    obtain ⟨e, he⟩ : ∃ e, z.rank 1 = right.rank 1 + left.rank 1 + e := ⟨z.rank 1 - y.rank 1, by omega⟩
    rw [he, Finset.sum_range_add, Finset.sum_range_add, Finset.sum_eq_single 0]
    · have e1 := hV.first rfl [] trivial (g 0) hv' 0 hr1
      rw [List.nil_append] at e1
      rw [if_pos rfl, one_mul, hc _ hv 0 (by omega), e1, hS _ hv]
      rw [Finset.sum_eq_zero (s := Finset.range e) fun i hi => ?_, add_zero, ← Finset.sum_add_distrib]
      · refine Finset.sum_eq_zero fun b hb => ?_
        have hb := Finset.mem_range.1 hb
        have e2 := hV.first' rfl [] trivial (g 0) hv' b hb
        rw [List.nil_append] at e2
        rw [if_neg (by omega), if_neg (by omega), if_pos (by omega), hc _ hv _ (by omega), e2, show right.rank 1 + b - right.rank 1 = b by omega]
        ring
      · rw [if_neg (by omega), if_neg (by omega), if_neg (by omega), zero_mul]
    · intro a ha h0
      rw [if_neg h0, if_pos (Finset.mem_range.1 ha), zero_mul]
    · intro h0
      exact absurd (Finset.mem_range.2 hr1) h0

/-- A function whose value is computed from a default norm, so that the tape begins with the decomposition of the first core of its argument. -/
theorem backward_norm_dependent {α : Type} {qr : QRRoutine} (hqr : qr.Correct) {z : TT ℝ} (hz : z.WF) (hm : z.ModesPos) (hd : 2 ≤ z.ndims)
    (hb : z.batch = none) (hdep : ¬ z.LeftIndependent [] 1) (f : Tensor ℝ → Taped α) :
    ∃ e, (frobeniusNormSquaredT qr z false >>= f).backward = Except.error e := by
  obtain ⟨N, nodes, s, e, -, -, -, hc⟩ := normT_run hqr hz hm
  unfold backward
  rw [run_bind, e, R.ok_bind]
  cases hf : (f N).run with
  | error er => exact ⟨er, rfl⟩
  | ok q =>
    rw [R.ok_bind, R.ok_bind]
    cases hg : gradNodes (nodes ++ [Node.sqrt s] ++ q.2) with
    | error er => exact ⟨er, rfl⟩
    | ok u =>
      exfalso
      have hall := (gradNodes_ok_iff _).1 hg
      exact hdep (hc.1 (fun n hn => hall n (by simp [hn])) 0 (by omega) [] (by rw [TT.bpre, hb]; trivial))

/-- The point with augmented ranks, when it can be built. -/
theorem augmented_point {α : Type} {qr : QRRoutine} (hqr : qr.Correct) (h : x.WF) (hb : x.batch = none) (hm : x.ModesPos) (func : TT ℝ → Taped α) :
    (∃ e, gradientsT qr func x = Except.error e) ∨ (2 ≤ x.ndims ∧ ∃ left right D y, TFrame x left right ∧ IsTangent left right D y ∧ D 0 = right.core 0 ∧
      y.batch = none ∧ gradientsT qr func x = (func y).backward) := by
  obtain ⟨left, right, ef, F⟩ := tangentFrame_ok hqr h hb hm
  obtain ⟨el, er⟩ := tangentFrame_inv ef
  have hpos := h.pos
  by_cases hd : 2 ≤ x.ndims
  · by_cases hk : ∃ k, 0 < k ∧ k < x.ndims ∧ right.rank k ≠ left.rank k
    · obtain ⟨ds, e1, e, e2⟩ := pointDeltas_error (qr := qr) F h hb hd hk
      exact Or.inl ⟨e, by unfold gradientsT; rw [el, R.ok_bind, er, R.ok_bind, e1, R.ok_bind, e2]; rfl⟩
    · push Not at hk
      have hrk : ∀ k ≤ x.ndims, right.rank k = left.rank k := fun k hle => by
        rcases Nat.eq_zero_or_pos k with rfl | h0
        · rw [F.wr.rank_first, F.wl.rank_first]
        · rcases hle.lt_or_eq with hlt | rfl
          · exact hk k h0 hlt
          · rw [F.rd, ← F.nl, F.wl.rank_last]
      obtain ⟨ds, e1, ⟨hl, hs⟩, -⟩ := pointDeltas_ok F h hrk
      obtain ⟨y, e2, T, yb⟩ := deltasToTangent_ok (qr := qr) F h hb hd (fun k _ hk => hrk k (by omega)) (lo := some left) (ro := some right) rfl rfl
        (out := none) (by simp) hl (fun k hk => by rw [hs k hk]; rfl)
      refine Or.inr ⟨hd, left, right, _, y, F, T, ?_, yb, ?_⟩
      · have e1' := e1
        rw [pointDeltas, F.cr hpos, R.ok_bind] at e1'
        rw [← Except.ok.inj e1']; rfl
      · unfold gradientsT; rw [el, R.ok_bind, er, R.ok_bind, e1, R.ok_bind, e2]; rfl
  · obtain ⟨ds, e1, e2⟩ := pointDeltas_one (qr := qr) F h hb (by omega)
    exact Or.inl ⟨Err.value, by unfold gradientsT; rw [el, R.ok_bind, er, R.ok_bind, e1, R.ok_bind, e2]; rfl⟩

theorem gradientsT_norm {α : Type} {qr : QRRoutine} (hqr : qr.Correct) (h : x.WF) (hb : x.batch = none) (hm : x.ModesPos) (f : Tensor ℝ → Taped α) :
    ∃ e, gradientsT qr (fun y => frobeniusNormSquaredT qr y false >>= f) x = Except.error e := by
  rcases augmented_point hqr h hb hm (fun y => frobeniusNormSquaredT qr y false >>= f) with hh | ⟨hd, left, right, D, y, F, T, hD, yb, e⟩
  · exact hh
  · rw [e]
    have hmy : y.modes = x.modes := (modes_of_rows T.rows).trans F.ml
    exact backward_norm_dependent hqr T.wf (fun row hr => hm row (by rw [← F.rl, ← T.rows]; exact hr)) (by rw [T.nd, F.nl]; exact hd) yb
      (augmented_dependent F hd T hD yb T.wf le_rfl (fun _ _ _ _ => rfl) hmy) f

theorem gradientsT_distance {qr : QRRoutine} (hqr : qr.Correct) (h : x.WF) (hb : x.batch = none) (hm : x.ModesPos) {w : TT ℝ} (hw : w.WF)
    (hwb : w.batch = none) : ∃ e, gradientsT qr (halfDistanceT qr w false) x = Except.error e := by
  rcases augmented_point hqr h hb hm (halfDistanceT qr w false) with hh | ⟨hd, left, right, D, y, F, T, hD, yb, e⟩
  · exact hh
  · rw [e]
    have hmy : y.modes = x.modes := (modes_of_rows T.rows).trans F.ml
    have hnd : 2 ≤ y.ndims := by rw [T.nd, F.nl]; exact hd
    cases hs : sub y w with
    | error er => exact ⟨er, by unfold halfDistanceT; rw [hs]; rfl⟩
    | ok z =>
      have e2 : (halfDistanceT qr w false y) = (frobeniusNormSquaredT qr z false >>= fun c => pure (0.5 * c.get [])) := by
        unfold halfDistanceT; rw [hs, plain_bind]
      rw [e2]
      have hr : w.rawShape = y.rawShape := by
        by_contra hne
        obtain ⟨t, et, wt, rt, -⟩ := multiplyScalar_spec hw (-1)
        rw [sub, et, R.ok_bind, add] at hs
        have hne' : ¬ y.rawShape = t.rawShape := fun hh => hne (rt.symm.trans hh.symm)
        by_cases hm' : (y.isMatrix ↔ t.isMatrix)
        · rw [require_pos hm', R.ok_bind, require, if_neg hne'] at hs
          cases hs
        · rw [require, if_neg hm'] at hs
          cases hs
      obtain ⟨c, ec, wc, rc, bc, nc, kc, -⟩ := sub_single T.wf hw hnd hr yb hwb
      obtain rfl : c = z := Except.ok.inj (ec.symm.trans hs)
      obtain ⟨t, et, wt, rt, bt, -⟩ := multiplyScalar_spec hw (-1)
      rw [sub, et, R.ok_bind] at hs
      have hf := add_first T.wf wt (hr.symm.trans rt.symm) yb (bt.trans hwb) hs
      refine backward_norm_dependent hqr wc (fun row hr => hm row (by rw [← F.rl, ← T.rows, ← rc]; exact hr)) (by rw [nc]; exact hnd) bc
        (augmented_dependent F hd T hD yb wc (kc 1 (by omega)) (fun v hv a ha => hf v ?_ a ha) ((modes_of_rows rc).trans hmy)) _
      rw [hv.length_eq, T.rows, F.rl]; simp [TT.modes]

end T3f
