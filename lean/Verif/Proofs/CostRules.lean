import Verif.Proofs.CostForms
import Verif.Model.CostTangent
import Verif.Proofs.Dense

/-!
# Rules for bounding the count, and erasure of the count
-/

namespace T3f

open Counted

variable {α β : Type}

namespace Counted

theorem ext_run {x y : Counted α} (h : x.run = y.run) : x = y := by
  rcases x with ⟨x⟩; rcases y with ⟨y⟩; exact congrArg _ h

theorem lawful : LawfulMonad Counted := LawfulMonad.mk' Counted
  (id_map := by
    intro α x
    apply ext_run
    rcases x with ⟨e | ⟨a, c⟩⟩ <;> rfl)
  (pure_bind := by
    intro α β a f
    apply ext_run
    rw [run_bind]
    show (do let q ← (f a).run; Except.ok (q.1, 0 + q.2)) = (f a).run
    rcases (f a).run with e | ⟨b, c⟩
    · rfl
    · simp)
  (bind_assoc := by
    intro α β γ x f g
    apply ext_run
    simp only [run_bind]
    rcases x.run with e | ⟨a, c⟩
    · rfl
    · simp only [R.ok_bind]
      rcases (f a).run with e | ⟨b, c'⟩
      · rfl
      · simp only [R.ok_bind]
        rcases (g b).run with e | ⟨b, c'⟩
        · rfl
        · simp only [R.ok_bind, Nat.add_assoc])

/-- If the computation succeeds, its result satisfies `P` and its count is at most `w`. -/
def Bound (x : Counted α) (P : α → Prop) (w : ℕ) : Prop := ∀ a c, x.run = Except.ok (a, c) → P a ∧ c ≤ w

theorem Bound.mono {x : Counted α} {P Q : α → Prop} {w v : ℕ} (h : x.Bound P w) (hP : ∀ a, P a → Q a) (hw : w ≤ v) : x.Bound Q v :=
  fun a c e => ⟨hP a (h a c e).1, (h a c e).2.trans hw⟩

theorem Bound.bind {x : Counted α} {f : α → Counted β} {P : α → Prop} {Q : β → Prop} {w v : ℕ} (h : x.Bound P w)
    (hf : ∀ a, P a → (f a).Bound Q v) : (x >>= f).Bound Q (w + v) := by
  intro b c e
  rw [run_bind] at e
  rcases hx : x.run with er | ⟨a, c1⟩
  · rw [hx] at e; exact absurd e (by simp)
  · rw [hx, R.ok_bind] at e
    rcases hfa : (f a).run with er | ⟨b', c2⟩
    · rw [hfa] at e; exact absurd e (by simp)
    · rw [hfa, R.ok_bind] at e
      obtain ⟨rfl, rfl⟩ : b' = b ∧ c1 + c2 = c := by simpa using e
      obtain ⟨hP, h1⟩ := h a c1 hx
      obtain ⟨hQ, h2⟩ := hf a hP b' c2 hfa
      exact ⟨hQ, by omega⟩

theorem Bound.charge {x : R α} {P : α → Prop} {n w : ℕ} (hn : n ≤ w) (h : ∀ a, x = Except.ok a → P a) : (charge n x).Bound P w := by
  intro a c e
  rcases x with er | a'
  · exact absurd e (by simp [Counted.charge, Except.map])
  · obtain ⟨rfl, rfl⟩ : a' = a ∧ n = c := by simpa [Counted.charge, Except.map] using e
    exact ⟨h a' rfl, hn⟩

theorem Bound.free {x : R α} {P : α → Prop} (h : ∀ a, x = Except.ok a → P a) : (free x).Bound P 0 := Bound.charge le_rfl h

theorem Bound.free_bind {x : R α} {f : α → Counted β} {Q : β → Prop} {v : ℕ} (h : ∀ a, x = Except.ok a → (f a).Bound Q v) :
    (Counted.free x >>= f).Bound Q v := by
  have := (Bound.free (x := x) (P := fun a => x = Except.ok a) fun _ h => h).bind h
  rwa [Nat.zero_add] at this

theorem Bound.pure {a : α} {P : α → Prop} (h : P a) : (pure a : Counted α).Bound P 0 := by
  intro b c e
  have e' : (Except.ok (a, 0) : R (α × ℕ)) = Except.ok (b, c) := e
  obtain ⟨rfl, rfl⟩ : a = b ∧ 0 = c := by simpa using e'
  exact ⟨h, le_rfl⟩

theorem Bound.forRange (P : ℕ → α → Prop) (w : ℕ) (f : ℕ → α → Counted α) : ∀ (a n : ℕ) (s : α), P a s →
    (∀ k s, a ≤ k → k < a + n → P k s → (f k s).Bound (P (k + 1)) w) → (forRangeC f a n s).Bound (P (a + n)) (n * w)
  | a, 0, s, h, _ => by
    have := Bound.pure (a := s) (P := P a) h
    rwa [Nat.zero_mul]
  | a, n + 1, s, h, hf => by
    have h1 := hf a s le_rfl (by omega) h
    refine (h1.bind fun s' hs' => Bound.forRange P w f (a + 1) n s' hs' fun k s hk hk' => hf k s (by omega) (by omega)).mono
      (fun s' hs' => ?_) (by rw [Nat.succ_mul]; omega)
    rwa [show a + 1 + n = a + (n + 1) by omega] at hs'

theorem Bound.mapM (w : ℕ) (f : ℕ → Counted α) : ∀ l : List ℕ, (∀ k ∈ l, (f k).Bound (fun _ => True) w) →
    (l.mapM f).Bound (fun _ => True) (l.length * w)
  | [], _ => by rw [List.length_nil, Nat.zero_mul, List.mapM_nil]; exact Bound.pure trivial
  | k :: l, h => by
    have := lawful
    rw [List.mapM_cons]
    refine ((h k (by simp)).bind fun a _ => (Bound.mapM w f l fun j hj => h j (by simp [hj])).bind fun b _ => Bound.pure trivial).mono
      (fun _ h => h) ?_
    rw [List.length_cons, Nat.succ_mul]; omega

theorem Bound.mapRange {w n : ℕ} {f : ℕ → Counted α} (h : ∀ k < n, (f k).Bound (fun _ => True) w) :
    (mapRangeC n f).Bound (fun _ => True) (n * w) := by
  have := Bound.mapM w f (List.range n) fun k hk => h k (List.mem_range.1 hk)
  rwa [List.length_range] at this

theorem Bound.einsum {K : Type} [CommRing K] {S : Strategy} {spec : List (List Char) × List Char} {ops : List (Tensor K)} {E : Tensor K}
    {w : ℕ} (e : einsum spec ops = Except.ok E) (h : einsumCost S spec ops ≤ w) : (einsumC S spec ops).Bound (fun T => T = E) w :=
  Bound.charge h fun a ha => by rw [e] at ha; exact (Except.ok.inj ha).symm

theorem Bound.einsum_bind {K : Type} [CommRing K] {S : Strategy} {spec : List (List Char) × List Char} {ops : List (Tensor K)} {E : Tensor K}
    {w v : ℕ} {f : Tensor K → Counted β} {Q : β → Prop} (e : T3f.einsum spec ops = Except.ok E) (h : einsumCost S spec ops ≤ w)
    (hf : (f E).Bound Q v) : (einsumC S spec ops >>= f).Bound Q (w + v) :=
  (Bound.einsum e h).bind fun a ha => by rw [ha]; exact hf

theorem Bound.charge_bind {x : R α} {a : α} {n w v : ℕ} {f : α → Counted β} {Q : β → Prop} (e : x = Except.ok a) (h : n ≤ w)
    (hf : (f a).Bound Q v) : (Counted.charge n x >>= f).Bound Q (w + v) :=
  (Bound.charge (P := fun b => b = a) h fun b hb => by rw [e] at hb; exact (Except.ok.inj hb).symm).bind fun b hb => by rw [hb]; exact hf

/-- The result is the one of the computation without the count. -/
theorem Bound.post {x : Counted α} {P Q : α → Prop} {w : ℕ} (h : x.Bound P w) {y : R α} (hv : x.value = y) {a : α} (hy : y = Except.ok a)
    (hQ : Q a) : x.Bound Q w := by
  intro b c e
  rw [value, e, hy] at hv
  obtain rfl : b = a := by simpa [Except.map] using hv
  exact ⟨hQ, (h b c e).2⟩

/-- From a bound and the result without the count to the result with the count. -/
theorem Bound.result {x : Counted α} {P : α → Prop} {w : ℕ} (h : x.Bound P w) {y : R α} (hv : x.value = y) {a : α} (hy : y = Except.ok a) :
    ∃ c, x.run = Except.ok (a, c) ∧ c ≤ w := by
  rcases hx : x.run with er | ⟨b, c⟩
  · rw [value, hx, hy] at hv; exact absurd hv (by simp [Except.map])
  · rw [value, hx, hy] at hv
    obtain rfl : b = a := by simpa [Except.map] using hv
    exact ⟨c, rfl, (h b c hx).2⟩

@[simp] theorem value_mapM (f : ℕ → Counted α) : ∀ l : List ℕ, (l.mapM f).value = l.mapM fun k => (f k).value
  | [] => rfl
  | k :: l => by
    have := lawful
    rw [List.mapM_cons, List.mapM_cons, value_bind]
    congr 1
    funext a
    rw [value_bind, value_mapM f l]
    rfl

@[simp] theorem value_mapRangeC (n : ℕ) (f : ℕ → Counted α) : (mapRangeC n f).value = mapRange n fun k => (f k).value := value_mapM f _

@[simp] theorem value_matmulC {K : Type} [CommRing K] (a b : Tensor K) : (matmulC a b).value = matmul a b := value_charge _ _
@[simp] theorem value_linalgQRC (qr : QRRoutine) (a : Tensor ℝ) : (linalgQRC qr a).value = linalgQR qr a := value_charge _ _
@[simp] theorem value_binopC {K : Type} (f : K → K → K) (a b : Tensor K) : (binopC f a b).value = binop f a b := value_charge _ _

end Counted

/-! ## Erasure -/

theorem value_orthoLRStepC (qr : QRRoutine) (t : TT ℝ) (i : ℕ) (s : List (Tensor ℝ) × ℕ) : (orthoLRStepC qr t i s).value = orthoLRStep qr t i s := by
  simp [orthoLRStepC, orthoLRStep]

theorem value_orthoLRC (qr : QRRoutine) (t : TT ℝ) : (orthoLRC qr t).value = orthoLR qr t := by
  simp only [orthoLRC, orthoLR, value_bind, value_free, value_forRangeC, value_orthoLRStepC]
  rfl

theorem value_orthoRLStepC (qr : QRRoutine) (t : TT ℝ) (i : ℕ) (s : List (Tensor ℝ) × ℕ) : (orthoRLStepC qr t i s).value = orthoRLStep qr t i s := by
  simp [orthoRLStepC, orthoRLStep]

theorem value_orthoRLC (qr : QRRoutine) (t : TT ℝ) : (orthoRLC qr t).value = orthoRL qr t := by
  simp only [orthoRLC, orthoRL, value_bind, value_free, value_forRangeC, value_orthoRLStepC]

theorem value_orthogonalizeC (qr : QRRoutine) (t : TT ℝ) (b : Bool) : (orthogonalizeC qr t b).value = orthogonalize qr t b := by
  unfold orthogonalizeC orthogonalize
  split_ifs
  · exact value_orthoLRC qr t
  · rfl
  · exact value_orthoRLC qr t

theorem value_tangentFrameC (qr : QRRoutine) (t : TT ℝ) : (tangentFrameC qr t).value = tangentFrame qr t := by
  simp [tangentFrameC, tangentFrame, value_orthogonalizeC]

theorem value_projectRhsC (S : Strategy) (ax : List Char) (what right : TT ℝ) (d n : ℕ) :
    (projectRhsC S ax what right d n).value = projectRhs ax what right d n := by
  simp [projectRhsC, projectRhs, rhsStepC]
  rfl

theorem value_projectLhsC (S : Strategy) (ax : List Char) (what left : TT ℝ) (d n : ℕ) :
    (projectLhsC S ax what left d n).value = projectLhs ax what left d n := by
  simp [projectLhsC, projectLhs, lhsStepC]
  rfl

theorem value_projectBlockC (S : Strategy) (ax : List Char) (keep : Bool) (lhs rhs : List (Tensor ℝ)) (d k : ℕ) (wc lc : Tensor ℝ) :
    (projectBlockC S ax keep lhs rhs d k wc lc).value = projectBlock ax keep lhs rhs d k wc lc := by
  unfold projectBlockC projectBlock
  dsimp only
  split_ifs <;> simp [projectDiffC, projectDiff]

theorem value_projectC (S : Strategy) (qr : QRRoutine) (what whr : TT ℝ) : (projectC S qr what whr).value = project qr what whr := by
  simp [projectC, project, value_tangentFrameC, value_projectRhsC, value_projectLhsC, value_projectBlockC]

theorem value_projectSumBlockC (S : Strategy) (ax : List Char) (w : Option (Tensor ℝ)) (lhs rhs : List (Tensor ℝ)) (d k : ℕ) (wc lc : Tensor ℝ) :
    (projectSumBlockC S ax w lhs rhs d k wc lc).value = projectSumBlock ax w lhs rhs d k wc lc := by
  unfold projectSumBlockC projectSumBlock
  cases w <;> simp [value_projectBlockC]

theorem value_projectSumC (S : Strategy) (qr : QRRoutine) (what whr : TT ℝ) (w : Option (Tensor ℝ)) :
    (projectSumC S qr what whr w).value = projectSum qr what whr w := by
  simp [projectSumC, projectSum, value_tangentFrameC, value_projectRhsC, value_projectLhsC, value_projectSumBlockC]

theorem value_projectMatBlockC (S : Strategy) (lhs rhs : List (Tensor ℝ)) (d k : ℕ) (wc lc mc : Tensor ℝ) :
    (projectMatBlockC S lhs rhs d k wc lc mc).value = projectMatBlock lhs rhs d k wc lc mc := by
  unfold projectMatBlockC projectMatBlock
  split_ifs <;> simp

theorem value_projectMatmulC (S : Strategy) (qr : QRRoutine) (what whr A : TT ℝ) :
    (projectMatmulC S qr what whr A).value = projectMatmul qr what whr A := by
  have h1 : ∀ (w r : TT ℝ) k l, (rhsMatStepC S w r A k l).value = rhsMatStep w r A k l := fun w r k l => by simp [rhsMatStepC, rhsMatStep]
  have h2 : ∀ (w r : TT ℝ) k l, (lhsMatStepC S w r A k l).value = lhsMatStep w r A k l := fun w r k l => by simp [lhsMatStepC, lhsMatStep]
  simp only [projectMatmulC, projectMatmul, value_bind, value_free, value_forRangeC, value_mapRangeC, value_tangentFrameC, h1, h2,
    value_projectMatBlockC]

theorem value_pairwiseProjectedC (S : Strategy) (u v : Projected) : (pairwiseProjectedC S u v).value = pairwiseProjected u v := by
  simp [pairwiseProjectedC, pairwiseProjected, pairSlicesC, pairSlices]

end T3f
