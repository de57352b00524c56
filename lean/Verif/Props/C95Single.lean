import Verif.Proofs.RatSVD
import Verif.Props.C95Bounds

/-!
# C95: a single number as bound

A tensor of shape `(6, 3, 3, 2)` for which `max_tt_rank=2` gives a larger error than `max_tt_rank=1`. The singular value decompositions of all cuts
are rational; they are verified by evaluation in the kernel.
-/

namespace T3f

/-- A tensor of TT-ranks `(6, 3, 2)`. -/
def exClimb : TT ℤ where
  cores := [.ofList [1, 6, 6] [1, 0, 0, 0, 0, 0, 0, 1, 0, 0, 0, 0, 0, 0, 1, 0, 0, 0, 0, 0, 0, 1, 0, 0, 0, 0, 0, 0, 1, 0, 0, 0, 0, 0, 0, 1],
    .ofList [6, 3, 3] [6, 0, 0, 0, 0, 1, 0, 0, 0,  0, 0, 0, 6, 0, 0, 0, 0, 0,  0, 0, 0, 0, 0, 0, 7, 0, 0,
      0, 6, 0, 0, 0, 0, 0, 0, 0,  0, 0, 0, 0, 6, 0, 0, 0, 0,  0, 0, 0, 0, 0, 0, 0, 7, 0],
    .ofList [3, 3, 2] [8820, 0, 0, 8400, 0, 0,  0, 8820, 9261, 0, 0, 0,  0, 0, 0, 0, 0, 127600], .ofList [2, 2, 1] [1, 0, 0, 1]]
  rawShape := [[6, 3, 3, 2]]
  ttRanks := [1, 6, 3, 2, 1]
  batch := none

namespace Climb

/-- Unit vectors. -/
def dl (p x : List ℕ) : ℚ := if x = p then 1 else 0

/-- Left singular vectors at the second cut, and three further unit vectors. -/
def lb (l : ℕ) (x : List ℕ) : ℚ :=
  match l with
  | 0 => 6 / 11 * dl [3, 0] x + 6 / 11 * dl [4, 1] x + 7 / 11 * dl [5, 2] x
  | 1 => 6 / 11 * dl [0, 0] x + 6 / 11 * dl [1, 1] x + 7 / 11 * dl [2, 2] x
  | 2 => dl [0, 1] x
  | 3 => dl [0, 2] x
  | 4 => dl [1, 0] x
  | _ => dl [1, 2] x

/-- Right singular vectors at the second cut, and an orthonormal completion. -/
def rb (l : ℕ) (x : List ℕ) : ℚ :=
  match l with
  | 0 => 21 / 29 * dl [1, 0] x + 20 / 29 * dl [0, 1] x
  | 1 => 21 / 29 * dl [0, 0] x + 20 / 29 * dl [1, 1] x
  | 2 => dl [2, 1] x
  | 3 => 20 / 29 * dl [1, 0] x - 21 / 29 * dl [0, 1] x
  | 4 => 20 / 29 * dl [0, 0] x - 21 / 29 * dl [1, 1] x
  | _ => dl [2, 0] x

/-- The tensor with these singular values at the second cut. -/
def val (p q r : ℚ) (i : List ℕ) : ℚ := p * lb 0 (i.take 2) * rb 0 (i.drop 2) + q * lb 1 (i.take 2) * rb 1 (i.drop 2) + r * lb 2 (i.take 2) * rb 2 (i.drop 2)

/-- The whole tensor. -/
def whole : List ℕ → ℚ := val 140679 133980 127600

/-- Its part with the last index one. -/
def slice (i : List ℕ) : ℚ := if i.getD 3 0 = 1 then whole i else 0

/-- The result with rank one: a single element. -/
def spot : List ℕ → ℚ := val 0 0 127600

/-- After truncating the second cut to rank two. -/
def block : List ℕ → ℚ := val 140679 133980 0

/-- The result with rank two. -/
def rows (i : List ℕ) : ℚ := if i.getD 0 0 = 2 ∨ i.getD 0 0 = 5 then block i else 0

def sigma (l : List ℚ) (k : ℕ) : ℚ := l.getD k 0

def left3 (l : ℕ) (x : List ℕ) : ℚ := if l = 0 then whole (x ++ [1]) / 185020 else whole (x ++ [0]) / 140679

def right3 (l : ℕ) : List ℕ → ℚ := dl [1 - l]

def left2 (l : ℕ) : List ℕ → ℚ := lb ([2, 0, 1, 3, 4, 5].getD l 0)

def right2 (l : ℕ) : List ℕ → ℚ := dl ([[2, 1], [0, 1], [1, 1], [0, 0], [1, 0], [2, 0]].getD l [])

def left1 (l : ℕ) : List ℕ → ℚ := dl [l]

def right1 (l : ℕ) : List ℕ → ℚ := dl ([[1, 2, 1], [0, 0, 0], [0, 1, 0], [0, 2, 0], [2, 0, 0], [2, 1, 0]].getD l [])

def order (l : ℕ) : ℕ := [5, 2, 3, 4, 0, 1].getD l 0

def left1' (l : ℕ) : List ℕ → ℚ := dl [order l]

def right1' (l : ℕ) (x : List ℕ) : ℚ := if x.getD 0 0 = order l % 3 then rb (if 3 ≤ order l then 0 else 1) (x.drop 1) else 0

set_option maxRecDepth 20000

theorem svd3 : CutSVD [6, 3, 3, 2] 3 (fun i => (whole i : ℝ)) 2 (fun l i => (left3 l i : ℝ)) (fun l => (sigma [185020, 140679] l : ℝ))
    (fun l i => (right3 l i : ℝ)) :=
  ratSVD rfl (by decide +kernel) (by decide +kernel) (by decide +kernel) (by decide +kernel) (by decide +kernel)

theorem svd2 : CutSVD [6, 3, 3, 2] 2 (fun i => (slice i : ℝ)) 6 (fun l i => (left2 l i : ℝ)) (fun l => (sigma [127600, 97020, 92400] l : ℝ))
    (fun l i => (right2 l i : ℝ)) :=
  ratSVD rfl (by decide +kernel) (by decide +kernel) (by decide +kernel) (by decide +kernel) (by decide +kernel)

theorem svd1 : CutSVD [6, 3, 3, 2] 1 (fun i => (spot i : ℝ)) 6 (fun l i => (left1 l i : ℝ)) (fun l => (sigma [127600] l : ℝ))
    (fun l i => (right1 l i : ℝ)) :=
  ratSVD rfl (by decide +kernel) (by decide +kernel) (by decide +kernel) (by decide +kernel) (by decide +kernel)

theorem svd2' : CutSVD [6, 3, 3, 2] 2 (fun i => (whole i : ℝ)) 6 (fun l i => (lb l i : ℝ)) (fun l => (sigma [140679, 133980, 127600] l : ℝ))
    (fun l i => (rb l i : ℝ)) :=
  ratSVD rfl (by decide +kernel) (by decide +kernel) (by decide +kernel) (by decide +kernel) (by decide +kernel)

theorem svd1' : CutSVD [6, 3, 3, 2] 1 (fun i => (block i : ℝ)) 6 (fun l i => (left1' l i : ℝ))
    (fun l => (sigma [89523, 85260, 76734, 76734, 73080, 73080] l : ℝ)) (fun l i => (right1' l i : ℝ)) :=
  ratSVD rfl (by decide +kernel) (by decide +kernel) (by decide +kernel) (by decide +kernel) (by decide +kernel)

/-- Equal tensors have the same gaps. -/
theorem _root_.T3f.Gaps.congr_left {s : List ℕ} {b : ℕ → ℕ} {ks : List ℕ} {X X' Y : List ℕ → ℝ} (h : Gaps s b ks X Y)
    (e : ∀ i, Valid s i → X' i = X i) : Gaps s b ks X' Y := by
  cases h with
  | done h1 => exact .done fun i hi => (e i hi).trans (h1 i hi)
  | cut h0 hk hs hg hh ht =>
    refine .cut h0 hk { hs with value := fun i j hi hj => ?_ } hg hh ht
    rw [e]
    · exact hs.value i j hi hj
    · have := valid_append hi hj
      rwa [List.take_append_drop] at this

theorem low : Gaps [6, 3, 3, 2] (fun _ => 1) [3, 2, 1] (fun i => (whole i : ℝ)) (fun i => (spot i : ℝ)) := by
  refine .cut (by omega) (by simp) svd3 (fun _ => by norm_num [sigma]) (Z := fun i => (slice i : ℝ)) (ratHead (by decide +kernel))
    (.cut (by omega) (by simp) svd2 (fun _ => by norm_num [sigma]) (Z := fun i => (spot i : ℝ)) (ratHead (by decide +kernel))
      (.cut (by omega) (by simp) svd1 (fun _ => by norm_num [sigma]) (ratHead (by decide +kernel)) (.done fun _ _ => rfl)))

theorem high : Gaps [6, 3, 3, 2] (fun _ => 2) [3, 2, 1] (fun i => (whole i : ℝ)) (fun i => (rows i : ℝ)) := by
  refine .cut (by omega) (by simp) svd3 (fun h => by omega) (Z := fun i => (whole i : ℝ)) (ratHead (by decide +kernel))
    (.cut (by omega) (by simp) svd2' (fun _ => by norm_num [sigma]) (Z := fun i => (block i : ℝ)) (ratHead (by decide +kernel))
      (.cut (by omega) (by simp) svd1' (fun _ => by norm_num [sigma]) (ratHead (by decide +kernel)) (.done fun _ _ => rfl)))

theorem entries : ∀ n < 108, (exClimb.entry [] (tIdx (unravel [6, 3, 3, 2] n)) : ℚ) = whole (unravel [6, 3, 3, 2] n) := by decide +kernel

theorem low_dist : ∑ n ∈ Finset.range 108, (whole (unravel [6, 3, 3, 2] n) - spot (unravel [6, 3, 3, 2] n)) ^ 2 = 37741221441 := by decide +kernel

theorem high_dist : ∑ n ∈ Finset.range 108, (whole (unravel [6, 3, 3, 2] n) - rows (unravel [6, 3, 3, 2] n)) ^ 2 = 38739346312 := by decide +kernel

theorem dist_eq {T X : Tensor ℝ} {f g : List ℕ → ℚ} (hT : ∀ i, Valid [6, 3, 3, 2] i → T.get i = f i) (hX : ∀ i, Valid [6, 3, 3, 2] i → X.get i = g i) {c : ℚ}
    (h : ∑ n ∈ Finset.range 108, (f (unravel [6, 3, 3, 2] n) - g (unravel [6, 3, 3, 2] n)) ^ 2 = c) : T.distSq X [] [6, 3, 3, 2] = c := by
  rw [← h, Rat.cast_sum]
  refine Finset.sum_congr rfl fun n hn => ?_
  have hv : Valid [6, 3, 3, 2] (unravel [6, 3, 3, 2] n) := unravel_valid (Finset.mem_range.1 hn)
  rw [List.nil_append, hT _ hv, hX _ hv]
  push_cast
  rfl

end Climb

theorem exClimb_full : ∃ T, full exClimb.toReal = Except.ok T ∧ T.shape = [6, 3, 3, 2] ∧ ∀ i, Valid [6, 3, 3, 2] i → T.get i = Climb.whole i := by
  have hw : exClimb.toReal.WF := TT.WF.toReal (by decide)
  obtain ⟨T, eT, sT, vT⟩ := full_ok hw
  refine ⟨T, eT, sT, fun i hi => ?_⟩
  have h := vT [] i trivial hi
  have h1 : exClimb.toReal.entry [] (tIdx i) = ((exClimb.entry [] (tIdx i) : ℤ) : ℝ) := TT.entry_mapEntries (Int.castRingHom ℝ) exClimb [] (tIdx i)
  have h2 := Climb.entries _ (ravel_lt hi)
  rw [unravel_ravel hi] at h2
  refine h.trans (Eq.trans ?_ (h1.trans ?_))
  · rfl
  · rw [← h2]; push_cast; rfl

/-- **C95 (finding).** The same with a single number: for this tensor of shape `(6, 3, 3, 2)` the squared error of `round` is `37741221441` with
`max_tt_rank=1` and `38739346312` with `max_tt_rank=2`, whatever routines compute the decompositions. -/
theorem C95_single {qr : QRRoutine} (hqr : qr.Correct) {svd : SVDRoutine} (hsvd : svd.Correct) :
    exClimb.toReal.WF ∧ ∃ T x x' X X', full exClimb.toReal = Except.ok T ∧ T.shape = [6, 3, 3, 2] ∧
      ttRound qr svd exClimb.toReal (.num 1) none = Except.ok x ∧ full x = Except.ok X ∧ T.distSq X [] [6, 3, 3, 2] = 37741221441 ∧
      ttRound qr svd exClimb.toReal (.num 2) none = Except.ok x' ∧ full x' = Except.ok X' ∧ T.distSq X' [] [6, 3, 3, 2] = 38739346312 := by
  have hw : exClimb.toReal.WF := TT.WF.toReal (by decide)
  have hm : exClimb.toReal.ModesPos := by simp [TT.ModesPos, TT.toReal, exClimb]
  have hnb : ¬ exClimb.toReal.isBatch := by simp [TT.isBatch, TT.toReal, exClimb]
  obtain ⟨T, eT, sT, vT⟩ := exClimb_full
  have key : ∀ (r : ℕ) (Y : List ℕ → ℝ), 1 ≤ r → Gaps [6, 3, 3, 2] (fun _ => r) [3, 2, 1] T.get Y →
      ∃ x X, ttRound qr svd exClimb.toReal (.num r) none = Except.ok x ∧ full x = Except.ok X ∧ ∀ i, Valid [6, 3, 3, 2] i → X.get i = Y i := by
    intro r Y hr hg
    obtain ⟨x, X, e, eX, -, -, hx⟩ := C70_round_gaps hqr hsvd hw hm (s := [6, 3, 3, 2]) rfl (m := .num r) (b := fun _ => r)
      (Or.inl ⟨r, hr, Or.inl rfl, fun _ => rfl⟩) (fun h => absurd h hnb) (eps := none) (by simp) eT
      (Y := fun _ => Y) (fun p hp => by
        have hp : Valid [] p := hp
        match p, hp with
        | [], _ => exact hg)
    exact ⟨x, X, e, eX, fun i hi => hx [] i trivial hi⟩
  obtain ⟨x, X, e, eX, hX⟩ := key 1 _ le_rfl (Climb.low.congr_left vT)
  obtain ⟨x', X', e', eX', hX'⟩ := key 2 _ (by omega) (Climb.high.congr_left vT)
  refine ⟨hw, T, x, x', X, X', eT, sT, e, eX, ?_, e', eX', ?_⟩
  · rw [Climb.dist_eq vT hX Climb.low_dist]; norm_num
  · rw [Climb.dist_eq vT hX' Climb.high_dist]; norm_num

example : (∃ qr : QRRoutine, qr.Correct) ∧ (∃ svd : SVDRoutine, svd.Correct) := ⟨qrRoutine_exists, svdRoutine_exists⟩

end T3f
