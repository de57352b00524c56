import Verif.Proofs.RoundNaive
import Verif.Proofs.RoundPaths
import Verif.Proofs.Single
import Verif.Proofs.CostGreedy
import Verif.Model.Rounded
import Verif.Model.Multiply
import Verif.Model.Add

/-!
# A difference of two tensors with one element
-/

namespace T3f

/-- The tensor of shape (1, 1) with the element `x`. -/
def one11 (x : ℝ) : TT ℝ := ⟨[⟨[1, 1, 1], fun _ => x⟩, ⟨[1, 1, 1], fun _ => 1⟩], [[1, 1]], [1, 1, 1], none⟩

/-- The sum of two such tensors. -/
def two11 (x y : ℝ) : TT ℝ :=
  ⟨[⟨[1, 1, 2], fun i => if i.getD 2 0 < 1 then x else y⟩, ⟨[2, 1, 1], fun i => if i.getD 0 0 < 1 then 1 else 1⟩], [[1, 1]], [1, 2, 1], none⟩

theorem add_one11 (x y : ℝ) : T3f.add (one11 x) (one11 y) = Except.ok (two11 x y) := rfl

theorem neg_one11 (y : ℝ) : multiplyScalar (one11 y) (-1) = Except.ok (one11 (-y)) := by
  unfold multiplyScalar
  simp [one11, pyGet, mkLike, smul, Tensor.map]
  rfl

theorem sub_one11 (x y : ℝ) : T3f.sub (one11 x) (one11 y) = Except.ok (two11 x (-y)) := by
  unfold T3f.sub
  rw [neg_one11]
  rfl

theorem along_two {F : FloatRoutines} {S : Strategy} (hS : S.Valid) {spec : List (List Char) × List Char} (hl : spec.1.length = 2) (a b : Tensor ℝ) :
    (F.along S).einsum spec [a, b] = T3f.einsum spec [a, b] >>= fun _ => F.einsum spec [a, b] := by
  unfold FloatRoutines.along
  simp only
  have := hS (lookupLabel (einDims spec.1 [a, b])) spec.1 spec.2
  rw [hl] at this
  generalize S (lookupLabel (einDims spec.1 [a, b])) spec.1 spec.2 = p at this
  match p, this with
  | [(i, j)], h => rfl
  | (i, j) :: q :: p, h => exact absurd h.2.2 (by simp [ValidPath])

theorem two11_steps (F : FloatRoutines) (x y : ℝ) {G Q : Tensor ℝ}
    (h1 : F.einsum (ein! "aib,cid->bd") [(two11 x y).cores.getD 0 default, (two11 x y).cores.getD 0 default] = Except.ok G)
    (h2 : F.einsum (ein! "ac,aib,cid->bd") [G, (two11 x y).cores.getD 1 default, (two11 x y).cores.getD 1 default] = Except.ok Q)
    (hs : Q.shape = [1, 1]) : ∃ D, frobeniusNormSquaredDiffF F (two11 x y) = Except.ok D ∧ D.shape = [] ∧ D.get [] = Q.get [0, 0] := by
  have e : innerLoopF F (two11 x y) (two11 x y) 2 ['i'] [] [] [] = Except.ok Q := by
    show (F.einsum (ein! "aib,cid->bd") [(two11 x y).cores.getD 0 default, (two11 x y).cores.getD 0 default] >>= fun res =>
      (F.einsum (ein! "ac,aib,cid->bd") [res, (two11 x y).cores.getD 1 default, (two11 x y).cores.getD 1 default] >>= pure)) = _
    rw [h1]
    show (F.einsum (ein! "ac,aib,cid->bd") _ >>= pure) = _
    rw [h2]
    rfl
  obtain ⟨s, g⟩ := Q
  simp only at hs
  subst hs
  have e2 : ∀ r, innerLoopF F (two11 x y) (two11 x y) 2 ['i'] [] [] [] = r → frobeniusNormSquaredDiffF F (two11 x y) =
      r >>= fun res => squeezeAxis res (res.shape.length - 1) >>= fun r1 => squeezeAxis r1 (r1.shape.length - 1) := by
    rintro r rfl
    rfl
  exact ⟨_, (e2 _ e).trans rfl, rfl, rfl⟩

theorem two11_norm (A : Arith) (x y : ℝ) {S : Strategy} (hS : S.Valid) :
    ∃ D, frobeniusNormSquaredDiffF ((naiveRoutines A).along S) (two11 x y) = Except.ok D ∧ D.shape = [] ∧
      (D.get [] = A.add (A.mul (A.mul x x) (A.mul 1 1)) (A.add (A.mul (A.mul x y) (A.mul 1 1))
          (A.add (A.mul (A.mul y x) (A.mul 1 1)) (A.mul (A.mul y y) (A.mul 1 1)))) ∨
        D.get [] = A.add (A.mul 1 (A.add (A.mul (A.mul x x) 1) (A.mul (A.mul y x) 1))) (A.mul 1 (A.add (A.mul (A.mul x y) 1) (A.mul (A.mul y y) 1))) ∨
        D.get [] = A.add (A.mul 1 (A.add (A.mul (A.mul x x) 1) (A.mul (A.mul x y) 1))) (A.mul 1 (A.add (A.mul (A.mul y x) 1) (A.mul (A.mul y y) 1)))) := by
  have h1 : ((naiveRoutines A).along S).einsum (ein! "aib,cid->bd") [(two11 x y).cores.getD 0 default, (two11 x y).cores.getD 0 default] = _ :=
    (along_two hS rfl _ _).trans rfl
  obtain ⟨G, hG⟩ : ∃ G, ((naiveRoutines A).along S).einsum (ein! "aib,cid->bd") [(two11 x y).cores.getD 0 default, (two11 x y).cores.getD 0 default] =
    Except.ok G := ⟨_, h1⟩
  have hG' := h1.symm.trans hG
  have h2 : ∀ p, ValidPath 3 p → ∃ Q, (T3f.einsum (ein! "ac,aib,cid->bd") [G, (two11 x y).cores.getD 1 default, (two11 x y).cores.getD 1 default] >>= fun _ =>
      alongPath (naiveRoutines A).einsum ['b', 'd'] p (ein! "ac,aib,cid->bd").1 [G, (two11 x y).cores.getD 1 default, (two11 x y).cores.getD 1 default]) = Except.ok Q ∧
      Q.shape = [1, 1] ∧ (Q.get [0, 0] = A.add (A.mul (A.mul x x) (A.mul 1 1)) (A.add (A.mul (A.mul x y) (A.mul 1 1))
          (A.add (A.mul (A.mul y x) (A.mul 1 1)) (A.mul (A.mul y y) (A.mul 1 1)))) ∨
        Q.get [0, 0] = A.add (A.mul 1 (A.add (A.mul (A.mul x x) 1) (A.mul (A.mul y x) 1))) (A.mul 1 (A.add (A.mul (A.mul x y) 1) (A.mul (A.mul y y) 1))) ∨
        Q.get [0, 0] = A.add (A.mul 1 (A.add (A.mul (A.mul x x) 1) (A.mul (A.mul x y) 1))) (A.mul 1 (A.add (A.mul (A.mul y x) 1) (A.mul (A.mul y y) 1)))) := by
    intro p hp
    obtain rfl := Except.ok.inj hG'
    rcases validPath_three hp with rfl | rfl | rfl
    · exact ⟨_, rfl, rfl, Or.inr (Or.inl rfl)⟩
    · exact ⟨_, rfl, rfl, Or.inr (Or.inr rfl)⟩
    · exact ⟨_, rfl, rfl, Or.inl rfl⟩
  obtain ⟨Q, e, hs, hQ⟩ := h2 _ (hS (lookupLabel (einDims (ein! "ac,aib,cid->bd").1
    [G, (two11 x y).cores.getD 1 default, (two11 x y).cores.getD 1 default])) (ein! "ac,aib,cid->bd").1 ['b', 'd'])
  obtain ⟨D, h3, h4, h5⟩ := two11_steps ((naiveRoutines A).along S) x y hG e hs
  exact ⟨D, h3, h4, by rwa [h5]⟩

/-! ## Numbers -/

section

variable {rnd : ℝ → ℝ} (h : Nearest32 rnd)

include h

theorem Nearest32.int {m : ℤ} (hm : |m| < 2 ^ 24) : rnd m = m := h.keep ⟨m, 0, hm, by simp⟩

theorem Nearest32.mul16 {m : ℤ} (hm : |m| < 2 ^ 24) : rnd (m * 16) = m * 16 := h.keep ⟨m, 4, hm, by norm_num⟩

theorem Nearest32.near16 {x : ℝ} {m : ℤ} (hm : 2 ^ 23 < |m|) (hm' : |m| < 2 ^ 24) (hx : |m * (16 : ℝ) - x| < 8) : rnd x = m * 16 := by
  have := h.eq_of_close (x := x) (e := 4) hm hm' (by
    rw [show ((2 : ℝ) ^ (4 : ℤ)) = 16 by norm_num]
    linarith)
  rw [this]
  norm_num

theorem squares32 : rnd (11591 * 11591) = 134351280 ∧ rnd (11591 * -11590) = -134339696 ∧ rnd (-11590 * 11591) = -134339696 ∧
    rnd (-11590 * -11590) = 134328096 := by
  refine ⟨?_, ?_, ?_, ?_⟩
  · rw [h.near16 (m := 8396955) (by norm_num) (by norm_num) (by norm_num [abs_lt])]; norm_num
  · rw [h.near16 (m := -8396231) (by norm_num) (by norm_num) (by norm_num [abs_lt])]; norm_num
  · rw [h.near16 (m := -8396231) (by norm_num) (by norm_num) (by norm_num [abs_lt])]; norm_num
  · rw [h.near16 (m := 8395506) (by norm_num) (by norm_num) (by norm_num [abs_lt])]; norm_num

end

theorem two11_negative {A : Arith} {rnd : ℝ → ℝ} (h : A.Single rnd) {S : Strategy} (hS : S.Valid) :
    ∃ D, frobeniusNormSquaredDiffF ((naiveRoutines A).along S) (two11 11591 (-11590)) = Except.ok D ∧ D.shape = [] ∧ D.get [] = -16 := by
  obtain ⟨D, h1, h2, h3⟩ := two11_norm A 11591 (-11590) hS
  obtain ⟨s1, s2, s3, s4⟩ := squares32 h.near
  have k16 : ∀ m : ℤ, |m| < 2 ^ 24 → ∀ x : ℝ, x = m * 16 → rnd x = x := fun m hm x hx => by rw [hx, h.near.mul16 hm]
  have o : rnd 1 = 1 := by simpa using h.near.int (m := 1) (by norm_num)
  have a1 : rnd 134351280 = 134351280 := k16 8396955 (by norm_num) _ (by norm_num)
  have a2 : rnd (-134339696) = -134339696 := k16 (-8396231) (by norm_num) _ (by norm_num)
  have a4 : rnd 134328096 = 134328096 := k16 8395506 (by norm_num) _ (by norm_num)
  have b1 : rnd (134351280 + -134339696) = 11584 := by rw [k16 724 (by norm_num) _ (by norm_num)]; norm_num
  have b2 : rnd (-134339696 + 134328096) = -11600 := by rw [k16 (-725) (by norm_num) _ (by norm_num)]; norm_num
  have b3 : rnd (-134339696 + -11600) = -134351296 := by rw [k16 (-8396956) (by norm_num) _ (by norm_num)]; norm_num
  have b4 : rnd (134351280 + -134351296) = -16 := by rw [k16 (-1) (by norm_num) _ (by norm_num)]; norm_num
  have c1 : rnd 11584 = 11584 := k16 724 (by norm_num) _ (by norm_num)
  have c2 : rnd (-11600) = -11600 := k16 (-725) (by norm_num) _ (by norm_num)
  have c3 : rnd (11584 + -11600) = -16 := by rw [k16 (-1) (by norm_num) _ (by norm_num)]; norm_num
  refine ⟨D, h1, h2, ?_⟩
  rcases h3 with h3 | h3 | h3 <;>
    simp only [h3, h.add, h.mul, s1, s2, s3, s4, mul_one, one_mul, o, a1, a2, a4, b1, b2, b3, b4, c1, c2, c3]

end T3f
