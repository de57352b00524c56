import Verif.Proofs.Add
import Verif.Proofs.TangentAbs
import Verif.Model.Riemannian

/-! # The cores of a tangent vector -/

namespace T3f

variable {K : Type} [CommRing K]

/-- The matrices of the chain `L₀ … L_{i-1} Dᵢ V_{i+1} … V_{d-1}`. -/
def blockMat (L V D : ℕ → ℕ → ℕ → K) (i j : ℕ) : ℕ → ℕ → K := if j < i then L j else if j = i then D j else V j

theorem lprod_tangent {rL rV rC : ℕ → ℕ} {L V D C : ℕ → ℕ → ℕ → K} {d : ℕ} (hd : 0 < d) (h0 : rL 0 = 1) (hC0 : rC 0 = 1) (hVd : rV d = 1)
    (hC : ∀ k, 1 ≤ k → k < d → rC k = rV k + rL k)
    (hfirst : ∀ y < rV 1, C 0 0 y = D 0 0 y) (hfirst' : ∀ y < rL 1, 1 < d → C 0 0 (rV 1 + y) = L 0 0 y)
    (hV : ∀ k, 1 ≤ k → k < d → ∀ x < rV k, ∀ y < rV (k + 1), C k x y = V k x y)
    (hD : ∀ k, 1 ≤ k → k < d → ∀ x < rL k, ∀ y < rV (k + 1), C k (rV k + x) y = D k x y)
    (hz : ∀ k, 1 ≤ k → k + 1 < d → ∀ x < rV k, ∀ y < rL (k + 1), C k x (rV (k + 1) + y) = 0)
    (hL : ∀ k, 1 ≤ k → k + 1 < d → ∀ x < rL k, ∀ y < rL (k + 1), C k (rV k + x) (rV (k + 1) + y) = L k x y) :
    lprod rC C d 0 = ∑ i ∈ Finset.range d, lprod (blockRank rL rV i) (blockMat L V D i) d 0 := by
  have main : ∀ k, 1 ≤ k → k ≤ d → (∀ y < rV k, lprod rC C k y = ∑ i ∈ Finset.range k, lprod (blockRank rL rV i) (blockMat L V D i) k y) ∧
      (k < d → ∀ y < rL k, lprod rC C k (rV k + y) = lprod rL L k y) := by
    intro k hk hkd
    induction k with
    | zero => omega
    | succ k ih =>
      rcases Nat.eq_zero_or_pos k with rfl | hpos
      · refine ⟨fun y hy => ?_, fun h1 y hy => ?_⟩
        · simp [lprod, hC0, hfirst y hy, blockRank, blockMat, h0]
        · simp [lprod, hC0, hfirst' y hy h1, h0]
      · obtain ⟨ia, ib⟩ := ih hpos (by omega)
        have split : ∀ y, lprod rC C (k + 1) y = ∑ x ∈ Finset.range (rV k), lprod rC C k x * C k x y +
            ∑ x ∈ Finset.range (rL k), lprod rC C k (rV k + x) * C k (rV k + x) y := by
          intro y
          rw [lprod, hC k hpos (by omega), sum_range_add_blocks]
        refine ⟨fun y hy => ?_, fun h1 y hy => ?_⟩
        · rw [split, Finset.sum_range_succ]
          congr 1
          · rw [Finset.sum_congr rfl fun x hx => by
              rw [ia x (Finset.mem_range.1 hx), hV k hpos (by omega) x (Finset.mem_range.1 hx) y hy, Finset.sum_mul], Finset.sum_comm]
            refine Finset.sum_congr rfl fun i hi => ?_
            have hi := Finset.mem_range.1 hi
            rw [lprod, blockRank_gt hi, blockMat, if_neg (by omega), if_neg (by omega)]
          · rw [lprod, blockRank_le le_rfl]
            refine Finset.sum_congr rfl fun x hx => ?_
            have hx := Finset.mem_range.1 hx
            rw [ib (by omega) x hx, hD k hpos (by omega) x hx y hy]
            congr 1
            · refine lprod_congr (fun j hj => (blockRank_le (by omega)).symm) (fun j hj a b _ _ => ?_) hx
              rw [blockMat, if_pos hj]
            · rw [blockMat, if_neg (by omega), if_pos rfl]
        · rw [split, lprod, Finset.sum_eq_zero fun x hx => by rw [hz k hpos (by omega) x (Finset.mem_range.1 hx) y hy, mul_zero], zero_add]
          refine Finset.sum_congr rfl fun x hx => ?_
          have hx := Finset.mem_range.1 hx
          rw [ib (by omega) x hx, hL k hpos (by omega) x hx y hy]
  exact (main d hd le_rfl).1 0 (by omega)

/-- The elements of core `k` of a tangent vector: `[D | L]` for the first core, `[V; D]` for the last core, `[[V, 0], [D, L]]` for the others. -/
def IsTangentCore (d : ℕ) (rV : ℕ → ℕ) (bl nm k : ℕ) (lc rc D T : Tensor K) : Prop :=
  ∀ p m x y, p.length = bl → m.length = nm → T.get (p ++ x :: (m ++ [y])) =
    if k = 0 then
      if y < rV 1 then D.get (p ++ x :: (m ++ [y])) else lc.get (p ++ x :: (m ++ [y - rV 1]))
    else if k = d - 1 then
      if x < rV k then rc.get (p ++ x :: (m ++ [y])) else D.get (p ++ (x - rV k) :: (m ++ [y]))
    else if x < rV k then (if y < rV (k + 1) then rc.get (p ++ x :: (m ++ [y])) else 0)
    else if y < rV (k + 1) then D.get (p ++ (x - rV k) :: (m ++ [y])) else lc.get (p ++ (x - rV k) :: (m ++ [y - rV (k + 1)]))

theorem tangentCore_ok {bs : Option ℕ} {d nm k : ℕ} (hd : 2 ≤ d) {rL rV : ℕ → ℕ} {M : List ℕ} (hM : M.length = nm) (hk : k < d)
    {lc rc D : Tensor ℝ} {zs : R (List ℕ)}
    (hlc : lc.shape = bs.toList ++ rL k :: (M ++ [rL (k + 1)])) (hrc : rc.shape = bs.toList ++ rV k :: (M ++ [rV (k + 1)]))
    (hD : D.shape = bs.toList ++ rL k :: (M ++ [rV (k + 1)]))
    (hL0 : rL 0 = 1) (hVd : rV d = 1)
    (hzs : zs = Except.ok (bs.toList ++ rV k :: (M ++ [rL (k + 1)])))
    {axL axR : ℕ} (hL : axL = bs.toList.length) (hR : axR = bs.toList.length + nm + 1) :
    ∃ C, tangentCore axL axR d k zs lc rc D = Except.ok C ∧
      C.shape = bs.toList ++ addRk rV rL d k :: (M ++ [addRk rV rL d (k + 1)]) ∧
      IsTangentCore d rV bs.toList.length nm k lc rc D C := by
  have hassoc : ∀ (P : List ℕ) (r : ℕ) (M : List ℕ) (r' : ℕ), P ++ r :: (M ++ [r']) = (P ++ r :: M) ++ r' :: [] := by
    intros; simp
  have hlenR : ∀ r : ℕ, axR = (bs.toList ++ r :: M).length := by
    intro r; rw [hR]; simp [hM]; omega
  by_cases h0 : k = 0
  · subst h0
    obtain ⟨C, eC, sC, vC⟩ := concat_ok D lc (bs.toList ++ rL 0 :: M) [] (rV 1) (rL 1)
      (by rw [hD, hassoc]) (by rw [hlc, hassoc]) axR (hlenR _)
    refine ⟨C, by simp only [tangentCore, if_true]; exact eC, ?_, ?_⟩
    · rw [sC, ← hassoc]
      simp [addRk, hL0, show ¬ (1 = d) by omega]
    · intro p m x y hp hm
      rw [if_pos rfl]
      simp only [hassoc]
      rw [vC _ _ _ (by simp [hp, hm, hM])]
  · by_cases h1 : k = d - 1
    · obtain ⟨C, eC, sC, vC⟩ := concat_ok rc D bs.toList (M ++ [rV (k + 1)]) (rV k) (rL k) hrc hD axL hL
      refine ⟨C, by rw [tangentCore, if_neg h0, if_pos h1]; exact eC, ?_, ?_⟩
      · rw [sC]
        simp [addRk, h0, show k + 1 = d by omega, hVd, show ¬ (k = d) by omega]
      · intro p m x y hp hm
        rw [if_neg h0, if_pos h1, vC _ _ _ hp]
    · obtain ⟨U, eU, sU, vU⟩ := concat_ok rc (zeros (bs.toList ++ rV k :: (M ++ [rL (k + 1)])))
        (bs.toList ++ rV k :: M) [] (rV (k + 1)) (rL (k + 1))
        (by rw [hrc, hassoc]) (by rw [zeros, hassoc]) axR (hlenR _)
      obtain ⟨L, eL, sL, vL⟩ := concat_ok D lc
        (bs.toList ++ rL k :: M) [] (rV (k + 1)) (rL (k + 1))
        (by rw [hD, hassoc]) (by rw [hlc, hassoc]) axR (hlenR _)
      obtain ⟨C, eC, sC, vC⟩ := concat_ok U L bs.toList (M ++ [rV (k + 1) + rL (k + 1)]) (rV k) (rL k)
        (by rw [sU]; simp) (by rw [sL]; simp) axL hL
      refine ⟨C, by rw [tangentCore, if_neg h0, if_neg h1, hzs]; simp only [R.ok_bind, eU, eL, eC], ?_, ?_⟩
      · rw [sC]
        simp [addRk, h0, show ¬ (k + 1 = d) by omega, show ¬ (k = d) by omega]
      · intro p m x y hp hm
        rw [if_neg h0, if_neg h1, vC _ _ _ hp]
        simp only [hassoc]
        rw [vU _ _ _ (by simp [hp, hm, hM]), vL _ _ _ (by simp [hp, hm, hM])]
        rfl

/-- The entries of a tangent vector given by its cores. -/
theorem tangent_entry {d nm bl : ℕ} (hd : 2 ≤ d) {rL rV : ℕ → ℕ} {c lc rc D : ℕ → Tensor K} (hL0 : rL 0 = 1) (hVd : rV d = 1)
    (h : ∀ k < d, IsTangentCore d rV bl nm k (lc k) (rc k) (D k) (c k))
    {p : List ℕ} {m : ℕ → List ℕ} (hp : p.length = bl) (hm : ∀ k < d, (m k).length = nm) :
    lprod (addRk rV rL d) (sl c p m) d 0 =
      ∑ i ∈ Finset.range d, lprod (blockRank rL rV i) (blockMat (sl lc p m) (sl rc p m) (sl D p m) i) d 0 := by
  refine lprod_tangent (by omega) hL0 (by simp [addRk]) hVd (fun k h1 h2 => ?_) (fun y hy => ?_) (fun y hy h1 => ?_) (fun k h1 h2 x hx y hy => ?_)
    (fun k h1 h2 x hx y hy => ?_) (fun k h1 h2 x hx y hy => ?_) (fun k h1 h2 x hx y hy => ?_)
  · simp [addRk]; omega
  · simp only [sl]; rw [h 0 (by omega) p _ _ _ hp (hm 0 (by omega)), if_pos rfl, if_pos hy]
  · simp only [sl]; rw [h 0 (by omega) p _ _ _ hp (hm 0 (by omega)), if_pos rfl, if_neg (by omega), Nat.add_sub_cancel_left]
  · simp only [sl]; rw [h k h2 p _ _ _ hp (hm k h2), if_neg (by omega), if_pos hx, if_pos hx, if_pos hy, ite_self]
  · simp only [sl]
    rw [h k h2 p _ _ _ hp (hm k h2), if_neg (by omega), if_neg (show ¬ rV k + x < rV k by omega), if_neg (show ¬ rV k + x < rV k by omega),
      if_pos hy, Nat.add_sub_cancel_left, ite_self]
  · simp only [sl]; rw [h k (by omega) p _ _ _ hp (hm k (by omega)), if_neg (by omega), if_neg (by omega), if_pos hx, if_neg (by omega)]
  · simp only [sl]; rw [h k (by omega) p _ _ _ hp (hm k (by omega)), if_neg (by omega), if_neg (by omega), if_neg (by omega), if_neg (by omega)]
    simp

end T3f
