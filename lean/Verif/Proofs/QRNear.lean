import Verif.Proofs.OrthoErr
import Verif.Proofs.Blk
import Verif.Tf.RoundedFactor
import Verif.Tf.Rounding

/-! # Inexact factors and products of blocks -/

namespace T3f

open Matrix

theorem matNorm_fn {n m : ℕ} (A : Matrix (Fin n) (Fin m) ℝ) (f : ℕ → ℕ → ℝ) (h : ∀ i j, A i j = f i j) : matNorm A = fn n m f := by
  unfold matNorm fn
  rw [Finset.sum_range]
  congr 1
  refine Finset.sum_congr rfl fun i _ => ?_
  rw [Finset.sum_range]
  exact Finset.sum_congr rfl fun j _ => by rw [h]

theorem bn_flat (a N b : ℕ) (f : ℕ → ℕ → ℝ) : bn a N b (fun n α β => f (α * N + n) β) = fn (a * N) b f := by
  rw [bn_tall]
  exact fn_congr fun y _ b _ => by simp only [tallM]; rw [Nat.div_add_mod']

/-- QR decomposition of a tall block by a routine that is not exact. -/
theorem qr_tall_near {qr : QRRoutine} {ε : ℝ} {M : ℕ} (hqr : qr.Backward ε M) {bs : Option ℕ} {X : Tensor ℝ} {a N b : ℕ}
    {f : List ℕ → ℕ → ℕ → ℕ → ℝ} (h : Blk X bs.toList a N b f) (hs : X.shape = bs.toList ++ [a * N, b]) (hM : a * N * b ≤ M) :
    ∃ (Q T : Tensor ℝ) (g P : List ℕ → ℕ → ℕ → ℕ → ℝ) (t : List ℕ → ℕ → ℕ → ℝ), linalgQR qr X = Except.ok (Q, T) ∧
      Q.shape = bs.toList ++ [a * N, min (a * N) b] ∧ Blk Q bs.toList a N (min (a * N) b) g ∧ T.shape = bs.toList ++ [min (a * N) b, b] ∧
      (∀ p γ β, T.get (p ++ [γ, β]) = t p γ β) ∧
      ∀ p, Valid bs.toList p →
        (∀ γ < min (a * N) b, ∀ γ' < min (a * N) b,
          ∑ α ∈ Finset.range a, ∑ n ∈ Finset.range N, P p n α γ * P p n α γ' = δ γ γ') ∧
        bn a N b (fun n α β => (∑ γ ∈ Finset.range (min (a * N) b), P p n α γ * t p γ β) - f p α n β) ≤ ε * bn a N b (fun n α β => f p α n β) ∧
        bn a N (min (a * N) b) (fun n α γ => g p α n γ - P p n α γ) ≤ ε := by
  set k := min (a * N) b with hk
  let Q := ofMats bs.toList (a * N) k fun p => qr.q (a * N) b (X.mat p (a * N) b)
  let T := ofMats bs.toList k b fun p => qr.r (a * N) b (X.mat p (a * N) b)
  choose Pm hP1 hP2 hP3 using fun p => hqr (a * N) b hM (X.mat p (a * N) b)
  let P := ofMats bs.toList (a * N) k Pm
  have hQs : Q.shape = bs.toList ++ [a * N, k] := rfl
  refine ⟨Q, T, fun p α n β => Q.get (p ++ [α * N + n, β]), fun p n α β => P.get (p ++ [α * N + n, β]), fun p γ β => T.get (p ++ [γ, β]), ?_, hQs,
    blk_of_tall hQs, rfl, fun _ _ _ => rfl, fun p hp => ?_⟩
  · unfold linalgQR
    rw [hs, matShape_pre, R.ok_bind]
    rfl
  · have h1 := hP1 p
    have h2 := hP2 p
    have h3 := hP3 p
    rw [← ofMats_mat (pre := bs.toList) (p := p) (a * N) k Pm hp.length_eq] at h1 h2 h3
    rw [← ofMats_mat (pre := bs.toList) (p := p) k b (fun p => qr.r (a * N) b (X.mat p (a * N) b)) hp.length_eq] at h2
    rw [← ofMats_mat (pre := bs.toList) (p := p) (a * N) k (fun p => qr.q (a * N) b (X.mat p (a * N) b)) hp.length_eq] at h3
    refine ⟨fun γ hγ γ' hγ' => ?_, ?_, ?_⟩
    · have := congrFun (congrFun h1 ⟨γ, hγ⟩) ⟨γ', hγ'⟩
      rw [Matrix.mul_apply, Matrix.one_apply] at this
      simp only [Tensor.mat, Matrix.of_apply, Matrix.transpose_apply, Fin.mk.injEq] at this
      rw [δ, ← this]
      exact (sum_fin_mul fun x => P.get (p ++ [x, γ]) * P.get (p ++ [x, γ'])).symm
    · rw [matNorm_fn (X.mat p (a * N) b) (fun y β => X.get (p ++ [y, β])) (fun _ _ => rfl),
        matNorm_fn _ (fun y β => (∑ γ ∈ Finset.range k, P.get (p ++ [y, γ]) * T.get (p ++ [γ, β])) - X.get (p ++ [y, β])) (fun i j => by
          rw [Matrix.sub_apply, Matrix.mul_apply, Finset.sum_range]; rfl), ← bn_flat, ← bn_flat] at h2
      calc _ = bn a N b (fun n α β => (∑ γ ∈ Finset.range k, P.get (p ++ [α * N + n, γ]) * T.get (p ++ [γ, β])) - X.get (p ++ [α * N + n, β])) :=
            bn_congr fun n hn α hα β hβ => by rw [h.tall hs hp hα hn hβ]
        _ ≤ _ := h2
        _ = _ := by
            congr 1
            exact bn_congr fun n hn α hα β hβ => h.tall hs hp hα hn hβ
    · rw [matNorm_fn _ (fun y β => Q.get (p ++ [y, β]) - P.get (p ++ [y, β])) (fun i j => by rw [Matrix.sub_apply]; rfl), ← bn_flat] at h3
      exact h3

/-- The error of a matrix product. -/
theorem matmulF_pre {F : FloatRoutines} {A : Arith} (hF : F.Follows A) {bs : Option ℕ} {S Z : Tensor ℝ} {m k n : ℕ}
    (hS : S.shape = bs.toList ++ [m, k]) (hZ : Z.shape = bs.toList ++ [k, n]) :
    ∃ C, F.matmul S Z = Except.ok C ∧ C.shape = bs.toList ++ [m, n] ∧
      ∀ p, Valid bs.toList p → ∀ x < m, ∀ y < n, |C.get (p ++ [x, y]) - ∑ l ∈ Finset.range k, S.get (p ++ [x, l]) * Z.get (p ++ [l, y])| ≤
        ((1 + A.u) ^ k - 1) * ∑ l ∈ Finset.range k, |S.get (p ++ [x, l])| * |Z.get (p ++ [l, y])| := by
  obtain ⟨C, eC, sC, vC⟩ := matmul_pre hS hZ
  obtain ⟨B, eB, sB, vB⟩ := matmul_pre (A := absT S) (B := absT Z) hS hZ
  have := hF.matmul S Z
  unfold Accurate at this
  rw [show (fun l : List (Tensor ℝ) => T3f.matmul (l.getD 0 default) (l.getD 1 default)) [S, Z] = Except.ok C from eC] at this
  obtain ⟨D, eD, sD, vD⟩ := this
  refine ⟨D, eD, by rw [sD, sC], fun p hp x hx y hy => ?_⟩
  have h1 := vD B eB (p ++ [x, y]) (by
    rw [sC]
    exact valid_append hp ((valid_pair _ _ _).2 ⟨x, y, rfl, hx, hy⟩))
  rw [vC p hp, vB p hp, show S.shape.getLastD 0 = k by rw [hS]; simp] at h1
  exact h1

theorem bn_err_mul {a N b c : ℕ} {γ : ℝ} (hγ : 0 ≤ γ) {E D : ℕ → ℕ → ℕ → ℝ} {R : ℕ → ℕ → ℝ}
    (h : ∀ n < N, ∀ x < c, ∀ β < b, |E n x β| ≤ γ * ∑ α ∈ Finset.range a, |R x α| * |D n α β|) : bn c N b E ≤ γ * (fn c a R * bn a N b D) := by
  have e1 : bn c N b E ≤ bn c N b (fun n x β => γ * ∑ α ∈ Finset.range a, |R x α| * |D n α β|) := by
    unfold bn fro3
    refine Real.sqrt_le_sqrt (Finset.sum_le_sum fun x hx => Finset.sum_le_sum fun n hn => Finset.sum_le_sum fun β hβ => ?_)
    rw [← sq_abs]
    exact pow_le_pow_left₀ (abs_nonneg _) (h n (Finset.mem_range.1 hn) x (Finset.mem_range.1 hx) β (Finset.mem_range.1 hβ)) 2
  refine e1.trans ?_
  have e2 : bn c N b (fun n x β => γ * ∑ α ∈ Finset.range a, |R x α| * |D n α β|) =
      γ * bn c N b (fun n x β => ∑ α ∈ Finset.range a, |R x α| * |D n α β|) := by
    simp only [bn_tall]
    exact fn_smul _ _ hγ _
  rw [e2]
  refine mul_le_mul_of_nonneg_left ?_ hγ
  refine (bn_mul_left_le a N b c (fun n α β => |D n α β|) (fun x α => |R x α|)).trans (le_of_eq ?_)
  rw [fn_abs, bn_tall, bn_tall, ← fn_abs _ _ (tallM N D)]
  rfl

/-- Multiplying a wide block from the left, with rounding. -/
theorem Blk.mulF_left {F : FloatRoutines} {A : Arith} (hF : F.Follows A) {bs : Option ℕ} {X T : Tensor ℝ} {a N b k : ℕ} {f : List ℕ → ℕ → ℕ → ℕ → ℝ}
    (h : Blk X bs.toList a N b f) (hs : X.shape = bs.toList ++ [a, N * b]) (hT : T.shape = bs.toList ++ [k, a]) :
    ∃ Y y, F.matmul T X = Except.ok Y ∧ Y.shape = bs.toList ++ [k, N * b] ∧ Blk Y bs.toList k N b y ∧
      ∀ p, Valid bs.toList p → bn k N b (fun n γ β => y p γ n β - ∑ l ∈ Finset.range a, T.get (p ++ [γ, l]) * f p l n β) ≤
        ((1 + A.u) ^ a - 1) * (fn k a (fun γ l => T.get (p ++ [γ, l])) * bn a N b fun n l β => f p l n β) := by
  obtain ⟨Y, e, s, v⟩ := matmulF_pre hF hT hs
  refine ⟨Y, _, e, s, blk_of_wide s, fun p hp => bn_err_mul ?_ fun n hn γ hγ β hβ => ?_⟩
  · have := one_le_pow₀ (n := a) (show (1 : ℝ) ≤ 1 + A.u by linarith [A.nonneg])
    linarith
  · have := v p hp γ hγ (n * b + β) (mul_add_lt hn hβ)
    have e1 : ∀ l ∈ Finset.range a, X.get (p ++ [l, n * b + β]) = f p l n β := fun l hl => h.wide hs hp (Finset.mem_range.1 hl) hn hβ
    have e2 : ∑ l ∈ Finset.range a, T.get (p ++ [γ, l]) * X.get (p ++ [l, n * b + β]) = ∑ l ∈ Finset.range a, T.get (p ++ [γ, l]) * f p l n β :=
      Finset.sum_congr rfl fun l hl => by rw [e1 l hl]
    have e3 : ∑ l ∈ Finset.range a, |T.get (p ++ [γ, l])| * |X.get (p ++ [l, n * b + β])| = ∑ l ∈ Finset.range a, |T.get (p ++ [γ, l])| * |f p l n β| :=
      Finset.sum_congr rfl fun l hl => by rw [e1 l hl]
    rw [e2, e3] at this
    exact this

end T3f
