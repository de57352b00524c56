import Verif.Proofs.ProjectProps
import Verif.Proofs.Matmul

/-! # Projection of a product -/

namespace T3f

section
variable {α β γ ε ζ M : Type} [AddCommMonoid M]

theorem pull3 (s : Finset α) (t : Finset β) (u : Finset γ) (f : α → β → γ → M) :
    ∑ x ∈ s, ∑ y ∈ t, ∑ z ∈ u, f x y z = ∑ z ∈ u, ∑ x ∈ s, ∑ y ∈ t, f x y z := by
  rw [Finset.sum_congr rfl fun x _ => Finset.sum_comm, Finset.sum_comm]

theorem pull4 (s : Finset α) (t : Finset β) (u : Finset γ) (v : Finset ε) (f : α → β → γ → ε → M) :
    ∑ x ∈ s, ∑ y ∈ t, ∑ z ∈ u, ∑ w ∈ v, f x y z w = ∑ w ∈ v, ∑ x ∈ s, ∑ y ∈ t, ∑ z ∈ u, f x y z w := by
  rw [Finset.sum_congr rfl fun x _ => pull3 .., Finset.sum_comm]

theorem pull5 (s : Finset α) (t : Finset β) (u : Finset γ) (v : Finset ε) (w : Finset ζ) (f : α → β → γ → ε → ζ → M) :
    ∑ x ∈ s, ∑ y ∈ t, ∑ z ∈ u, ∑ a ∈ v, ∑ b ∈ w, f x y z a b = ∑ b ∈ w, ∑ x ∈ s, ∑ y ∈ t, ∑ z ∈ u, ∑ a ∈ v, f x y z a b := by
  rw [Finset.sum_congr rfl fun x _ => pull4 .., Finset.sum_comm]

end

/-- The core of the product, with the ranks in row-major order. -/
noncomputable def prodGet (A X : Tensor ℝ) (J rX rX' s u i l v : ℕ) : ℝ :=
  ∑ j ∈ Finset.range J, A.get [u / rX, i, j, v / rX'] * X.get [s, u % rX, j, l, v % rX']

theorem divmod_pair {r b c : ℕ} (hc : c < r) : (b * r + c) / r = b ∧ (b * r + c) % r = c := by
  constructor
  · rw [Nat.mul_comm, Nat.mul_add_div (by omega), Nat.div_eq_of_lt hc, Nat.add_zero]
  · rw [Nat.mul_comm, Nat.mul_add_mod, Nat.mod_eq_of_lt hc]

theorem prodGet_pair {A X : Tensor ℝ} {J rX rX' s i l b c e f : ℕ} (hc : c < rX) (hf : f < rX') :
    prodGet A X J rX rX' s (b * rX + c) i l (e * rX' + f) = ∑ j ∈ Finset.range J, A.get [b, i, j, e] * X.get [s, c, j, l, f] := by
  unfold prodGet
  rw [(divmod_pair hc).1, (divmod_pair hc).2, (divmod_pair hf).1, (divmod_pair hf).2]

theorem rhsMatEin {A V Q X : Tensor ℝ} {n b i j e c k f d a : ℕ} (hA : A.shape = [b, i, j, e]) (hV : V.shape = [c, i, k, f])
    (hQ : Q.shape = [n, d, e, f]) (hX : X.shape = [n, a, j, k, d]) :
    ∃ E, einsum (ein! "bije,cikf,sdef,sajkd->sabc") [A, V, Q, X] = Except.ok E ∧ E.shape = [n, a, b, c] ∧
      ∀ s x y z, x < a → E.get [s, x, y, z] = ∑ u ∈ Finset.range (e * d), ∑ v ∈ Finset.range f,
        (∑ m ∈ Finset.range [i, k].prod, prodGet A X j a d s (y * a + x) ((unravel [i, k] m).getD 0 0) ((unravel [i, k] m).getD 1 0) u *
          V.get (z :: (unravel [i, k] m ++ [v]))) * Q.get [s, u % d, u / d, v] := by
  obtain ⟨_, A⟩ := A; obtain ⟨_, V⟩ := V; obtain ⟨_, Q⟩ := Q; obtain ⟨_, X⟩ := X
  dsimp only at hA hV hQ hX
  subst hA hV hQ hX
  refine ⟨_, if_pos (by simp (maxSteps := 1000000) [einDims, List.lookup]), rfl, fun s x y z hx => ?_⟩
  refine Eq.trans (b := ∑ i' ∈ Finset.range i, ∑ j' ∈ Finset.range j, ∑ e' ∈ Finset.range e, ∑ k' ∈ Finset.range k, ∑ f' ∈ Finset.range f, ∑ d' ∈ Finset.range d,
    A [y, i', j', e'] * (V [z, i', k', f'] * (Q [s, d', e', f'] * (X [s, x, j', k', d'] * 1)))) rfl ?_
  rw [sum_range_mul]
  rw [pull3]
  refine Finset.sum_congr rfl fun e' _ => ?_
  rw [pull5]
  refine Finset.sum_congr rfl fun d' hd => ?_
  have hd := Finset.mem_range.1 hd
  rw [pull4]
  refine Finset.sum_congr rfl fun f' _ => ?_
  rw [sum_mode2 i k fun m => prodGet ⟨_, A⟩ ⟨_, X⟩ j a d s (y * a + x) (m.getD 0 0) (m.getD 1 0) (e' * d + d') * V (z :: (m ++ [f'])), Finset.sum_mul]
  refine Finset.sum_congr rfl fun i' _ => ?_
  rw [Finset.sum_comm, Finset.sum_mul]
  refine Finset.sum_congr rfl fun k' _ => ?_
  rw [prodGet_pair hx hd, (divmod_pair hd).1, (divmod_pair hd).2, Finset.sum_mul, Finset.sum_mul]
  refine Finset.sum_congr rfl fun j' _ => ?_
  simp only [List.getD_cons_zero, List.getD_cons_succ, List.cons_append, List.nil_append]
  ring

theorem lhsMatEin {A L Q X : Tensor ℝ} {n b i j e a k d c f : ℕ} (hA : A.shape = [b, i, j, e]) (hL : L.shape = [a, i, k, d])
    (hQ : Q.shape = [n, a, b, c]) (hX : X.shape = [n, c, j, k, f]) :
    ∃ E, einsum (ein! "bije,aikd,sabc,scjkf->sdef") [A, L, Q, X] = Except.ok E ∧ E.shape = [n, d, e, f] ∧
      ∀ s x y z, z < f → E.get [s, x, y, z] = ∑ u ∈ Finset.range a, ∑ v ∈ Finset.range (b * c),
        Q.get [s, u, v / c, v % c] * ∑ m ∈ Finset.range [i, k].prod, L.get (u :: (unravel [i, k] m ++ [x])) *
          prodGet A X j c f s v ((unravel [i, k] m).getD 0 0) ((unravel [i, k] m).getD 1 0) (y * f + z) := by
  obtain ⟨_, A⟩ := A; obtain ⟨_, L⟩ := L; obtain ⟨_, Q⟩ := Q; obtain ⟨_, X⟩ := X
  dsimp only at hA hL hQ hX
  subst hA hL hQ hX
  refine ⟨_, if_pos (by simp (maxSteps := 1000000) [einDims, List.lookup]), rfl, fun s x y z hz => ?_⟩
  refine Eq.trans (b := ∑ b' ∈ Finset.range b, ∑ i' ∈ Finset.range i, ∑ j' ∈ Finset.range j, ∑ a' ∈ Finset.range a, ∑ k' ∈ Finset.range k, ∑ c' ∈ Finset.range c,
    A [b', i', j', y] * (L [a', i', k', x] * (Q [s, a', b', c'] * (X [s, c', j', k', z] * 1)))) rfl ?_
  rw [pull4]
  refine Finset.sum_congr rfl fun a' _ => ?_
  rw [sum_range_mul]
  refine Finset.sum_congr rfl fun b' _ => ?_
  rw [pull4]
  refine Finset.sum_congr rfl fun c' hc => ?_
  have hc := Finset.mem_range.1 hc
  rw [sum_mode2 i k fun m => L (a' :: (m ++ [x])) * prodGet ⟨_, A⟩ ⟨_, X⟩ j c f s (b' * c + c') (m.getD 0 0) (m.getD 1 0) (y * f + z), Finset.mul_sum]
  refine Finset.sum_congr rfl fun i' _ => ?_
  rw [Finset.sum_comm, Finset.mul_sum]
  refine Finset.sum_congr rfl fun k' _ => ?_
  rw [prodGet_pair hc hz, (divmod_pair hc).1, (divmod_pair hc).2, Finset.mul_sum, Finset.mul_sum]
  refine Finset.sum_congr rfl fun j' _ => ?_
  simp only [List.getD_cons_zero, List.getD_cons_succ, List.cons_append, List.nil_append]
  ring

theorem partMatEin {X Q A : Tensor ℝ} {n c j k e a b i d : ℕ} (hX : X.shape = [n, c, j, k, e]) (hQ : Q.shape = [n, a, b, c])
    (hA : A.shape = [b, i, j, d]) :
    ∃ E, einsum (ein! "scjke,sabc,bijd->saikde") [X, Q, A] = Except.ok E ∧ E.shape = [n, a, i, k, d, e] ∧
      ∀ s x p q y z, z < e → E.get [s, x, p, q, y, z] = ∑ v ∈ Finset.range (b * c), Q.get [s, x, v / c, v % c] * prodGet A X j c e s v p q (y * e + z) := by
  obtain ⟨_, A⟩ := A; obtain ⟨_, Q⟩ := Q; obtain ⟨_, X⟩ := X
  dsimp only at hA hQ hX
  subst hA hQ hX
  refine ⟨_, if_pos (by simp (maxSteps := 1000000) [einDims, List.lookup]), rfl, fun s x p q y z hz => ?_⟩
  refine Eq.trans (b := ∑ c' ∈ Finset.range c, ∑ j' ∈ Finset.range j, ∑ b' ∈ Finset.range b,
    X [s, c', j', q, z] * (Q [s, x, b', c'] * (A [b', p, j', y] * 1))) rfl ?_
  rw [pull3, sum_range_mul]
  refine Finset.sum_congr rfl fun b' _ => Finset.sum_congr rfl fun c' hc => ?_
  have hc := Finset.mem_range.1 hc
  rw [prodGet_pair hc hz, (divmod_pair hc).1, (divmod_pair hc).2, Finset.mul_sum]
  exact Finset.sum_congr rfl fun j' _ => by ring

theorem backMatEin {L Q : Tensor ℝ} {n a i k b c d : ℕ} (hL : L.shape = [a, i, k, b]) (hQ : Q.shape = [n, b, c, d]) :
    ∃ E, einsum (ein! "aikb,sbcd->saikcd") [L, Q] = Except.ok E ∧ E.shape = [n, a, i, k, c, d] ∧
      ∀ s x p q y z, E.get [s, x, p, q, y, z] = ∑ u ∈ Finset.range b, L.get [x, p, q, u] * Q.get [s, u, y, z] := by
  obtain ⟨_, L⟩ := L; obtain ⟨_, Q⟩ := Q
  dsimp only at hL hQ
  subst hL hQ
  refine ⟨_, if_pos (by simp (maxSteps := 1000000) [einDims, List.lookup]), rfl, fun s x p q y z => ?_⟩
  refine Eq.trans (b := ∑ u ∈ Finset.range b, L [x, p, q, u] * (Q [s, u, y, z] * 1)) rfl ?_
  simp only [mul_one]

theorem timesMatEin {P Q : Tensor ℝ} {n a i k c b d : ℕ} (hP : P.shape = [n, a, i, k, c, b]) (hQ : Q.shape = [n, b, c, d]) :
    ∃ E, einsum (ein! "saikcb,sbcd->saikd") [P, Q] = Except.ok E ∧ E.shape = [n, a, i, k, d] ∧
      ∀ s x p q z, E.get [s, x, p, q, z] = ∑ u ∈ Finset.range (c * b), P.get [s, x, p, q, u / b, u % b] * Q.get [s, u % b, u / b, z] := by
  obtain ⟨_, P⟩ := P; obtain ⟨_, Q⟩ := Q
  dsimp only at hP hQ
  subst hP hQ
  refine ⟨_, if_pos (by simp (maxSteps := 1000000) [einDims, List.lookup]), rfl, fun s x p q z => ?_⟩
  refine Eq.trans (b := ∑ c' ∈ Finset.range c, ∑ b' ∈ Finset.range b, P [s, x, p, q, c', b'] * (Q [s, b', c', z] * 1)) rfl ?_
  rw [sum_range_mul]
  refine Finset.sum_congr rfl fun c' _ => Finset.sum_congr rfl fun b' hb => ?_
  have hb := Finset.mem_range.1 hb
  rw [(divmod_pair hb).1, (divmod_pair hb).2, mul_one]

theorem lastMatEin {Q A X : Tensor ℝ} {n a b c i j k e : ℕ} (hQ : Q.shape = [n, a, b, c]) (hA : A.shape = [b, i, j, 1]) (hX : X.shape = [n, c, j, k, e]) :
    ∃ E, einsum (ein! "sabc,bijd,scjke->saike") [Q, A, X] = Except.ok E ∧ E.shape = [n, a, i, k, e] ∧
      ∀ s x p q z, z < e → E.get [s, x, p, q, z] = ∑ v ∈ Finset.range (b * c), Q.get [s, x, v / c, v % c] * prodGet A X j c e s v p q z := by
  obtain ⟨_, A⟩ := A; obtain ⟨_, Q⟩ := Q; obtain ⟨_, X⟩ := X
  dsimp only at hA hQ hX
  subst hA hQ hX
  refine ⟨_, if_pos (by simp (maxSteps := 1000000) [einDims, List.lookup]), rfl, fun s x p q z hz => ?_⟩
  refine Eq.trans (b := ∑ b' ∈ Finset.range b, ∑ c' ∈ Finset.range c, ∑ j' ∈ Finset.range j, ∑ d' ∈ Finset.range 1,
    Q [s, x, b', c'] * (A [b', p, j', d'] * (X [s, c', j', q, z] * 1))) rfl ?_
  rw [sum_range_mul]
  refine Finset.sum_congr rfl fun b' _ => Finset.sum_congr rfl fun c' hc => ?_
  have hc := Finset.mem_range.1 hc
  have e : prodGet ⟨[b, i, j, 1], A⟩ ⟨[n, c, j, k, e], X⟩ j c e s (b' * c + c') p q z =
      ∑ j' ∈ Finset.range j, A [b', p, j', 0] * X [s, c', j', q, z] := by
    have := prodGet_pair (A := ⟨[b, i, j, 1], A⟩) (X := ⟨[n, c, j, k, e], X⟩) (J := j) (s := s) (i := p) (l := q) (b := b') (e := 0) hc hz
    rwa [Nat.zero_mul, Nat.zero_add] at this
  rw [e, (divmod_pair hc).1, (divmod_pair hc).2, Finset.mul_sum]
  exact Finset.sum_congr rfl fun j' _ => by rw [Finset.sum_range_one, mul_one]

end T3f
