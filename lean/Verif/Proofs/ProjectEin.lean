import Verif.Proofs.Contract
import Verif.Model.Riemannian

/-! # The einsums of `project` and `project_sum` -/

namespace T3f

variable {K : Type} [CommRing K]

/-- `ax` are the labels of the mode axes `M`. -/
def AxFor (ax : List Char) (M : List ℕ) : Prop := (M.length = 1 ∧ ax = chars! "i") ∨ (M.length = 2 ∧ ax = chars! "ij")

theorem rhsEin {ax : List Char} {M : List ℕ} (hM : AxFor ax M) {W Q V : Tensor K} {n a b c d : ℕ}
    (hW : W.shape = n :: a :: (M ++ [b])) (hQ : Q.shape = [n, b, d]) (hV : V.shape = c :: (M ++ [d])) :
    ∃ E, einsum ([chars! "sa" ++ (ax ++ ['b']), chars! "sbd", 'c' :: (ax ++ ['d'])], chars! "sac") [W, Q, V] = Except.ok E ∧
      E.shape = [n, a, c] ∧ ∀ s x z, E.get [s, x, z] = ∑ u ∈ Finset.range b, ∑ v ∈ Finset.range d,
        (∑ m ∈ Finset.range M.prod, W.get (s :: x :: (unravel M m ++ [u])) * V.get (z :: (unravel M m ++ [v]))) * Q.get [s, u, v] := by
  obtain ⟨_, W⟩ := W; obtain ⟨_, Q⟩ := Q; obtain ⟨_, V⟩ := V
  dsimp only at hW hQ hV
  subst hW hQ hV
  rcases hM with ⟨hM, rfl⟩ | ⟨hM, rfl⟩
  · obtain ⟨i, rfl⟩ := List.length_eq_one_iff.1 hM
    refine ⟨_, if_pos (by simp [einDims, List.lookup]), rfl, fun s x z => ?_⟩
    refine Eq.trans (b := ∑ p ∈ Finset.range i, ∑ u ∈ Finset.range b, ∑ v ∈ Finset.range d, W [s, x, p, u] * (Q [s, u, v] * (V [z, p, v] * 1))) rfl ?_
    simp only [mul_one]
    rw [Finset.sum_comm]
    refine Finset.sum_congr rfl fun u _ => ?_
    rw [Finset.sum_comm]
    refine Finset.sum_congr rfl fun v _ => ?_
    rw [sum_mode1 i fun m => W (s :: x :: (m ++ [u])) * V (z :: (m ++ [v])), Finset.sum_mul]
    exact Finset.sum_congr rfl fun p _ => by simp only [List.cons_append, List.nil_append]; ring
  · obtain ⟨i, j, rfl⟩ := List.length_eq_two.1 hM
    refine ⟨_, if_pos (by simp (maxSteps := 1000000) [einDims, List.lookup]), rfl, fun s x z => ?_⟩
    refine Eq.trans (b := ∑ p ∈ Finset.range i, ∑ q ∈ Finset.range j, ∑ u ∈ Finset.range b, ∑ v ∈ Finset.range d,
      W [s, x, p, q, u] * (Q [s, u, v] * (V [z, p, q, v] * 1))) rfl ?_
    simp only [mul_one]
    have e : ∀ u v, (∑ m ∈ Finset.range [i, j].prod, W (s :: x :: (unravel [i, j] m ++ [u])) * V (z :: (unravel [i, j] m ++ [v]))) * Q [s, u, v] =
        ∑ p ∈ Finset.range i, ∑ q ∈ Finset.range j, W [s, x, p, q, u] * (Q [s, u, v] * V [z, p, q, v]) := by
      intro u v
      rw [sum_mode2 i j fun m => W (s :: x :: (m ++ [u])) * V (z :: (m ++ [v])), Finset.sum_mul]
      refine Finset.sum_congr rfl fun p _ => ?_
      rw [Finset.sum_mul]
      exact Finset.sum_congr rfl fun q _ => by simp only [List.cons_append, List.nil_append]; ring
    simp only [e]
    calc _ = ∑ p ∈ Finset.range i, ∑ u ∈ Finset.range b, ∑ q ∈ Finset.range j, ∑ v ∈ Finset.range d,
          W [s, x, p, q, u] * (Q [s, u, v] * V [z, p, q, v]) := Finset.sum_congr rfl fun p _ => Finset.sum_comm
      _ = ∑ u ∈ Finset.range b, ∑ p ∈ Finset.range i, ∑ q ∈ Finset.range j, ∑ v ∈ Finset.range d,
          W [s, x, p, q, u] * (Q [s, u, v] * V [z, p, q, v]) := Finset.sum_comm
      _ = ∑ u ∈ Finset.range b, ∑ p ∈ Finset.range i, ∑ v ∈ Finset.range d, ∑ q ∈ Finset.range j,
          W [s, x, p, q, u] * (Q [s, u, v] * V [z, p, q, v]) := Finset.sum_congr rfl fun u _ => Finset.sum_congr rfl fun p _ => Finset.sum_comm
      _ = _ := Finset.sum_congr rfl fun u _ => Finset.sum_comm

theorem lhsEin {ax : List Char} {M : List ℕ} (hM : AxFor ax M) {Q L W : Tensor K} {n a b c d : ℕ}
    (hQ : Q.shape = [n, a, b]) (hL : L.shape = a :: (M ++ [c])) (hW : W.shape = n :: b :: (M ++ [d])) :
    ∃ E, einsum ([chars! "sab", 'a' :: (ax ++ ['c']), chars! "sb" ++ (ax ++ ['d'])], chars! "scd") [Q, L, W] = Except.ok E ∧
      E.shape = [n, c, d] ∧ ∀ s x z, E.get [s, x, z] = ∑ u ∈ Finset.range a, ∑ v ∈ Finset.range b,
        Q.get [s, u, v] * ∑ m ∈ Finset.range M.prod, L.get (u :: (unravel M m ++ [x])) * W.get (s :: v :: (unravel M m ++ [z])) := by
  obtain ⟨_, W⟩ := W; obtain ⟨_, Q⟩ := Q; obtain ⟨_, L⟩ := L
  dsimp only at hW hQ hL
  subst hW hQ hL
  rcases hM with ⟨hM, rfl⟩ | ⟨hM, rfl⟩
  · obtain ⟨i, rfl⟩ := List.length_eq_one_iff.1 hM
    refine ⟨_, if_pos (by simp [einDims, List.lookup]), rfl, fun s x z => ?_⟩
    refine Eq.trans (b := ∑ u ∈ Finset.range a, ∑ v ∈ Finset.range b, ∑ p ∈ Finset.range i, Q [s, u, v] * (L [u, p, x] * (W [s, v, p, z] * 1))) rfl ?_
    simp only [mul_one]
    refine Finset.sum_congr rfl fun u _ => Finset.sum_congr rfl fun v _ => ?_
    rw [sum_mode1 i fun m => L (u :: (m ++ [x])) * W (s :: v :: (m ++ [z])), Finset.mul_sum]
    rfl
  · obtain ⟨i, j, rfl⟩ := List.length_eq_two.1 hM
    refine ⟨_, if_pos (by simp (maxSteps := 1000000) [einDims, List.lookup]), rfl, fun s x z => ?_⟩
    refine Eq.trans (b := ∑ u ∈ Finset.range a, ∑ v ∈ Finset.range b, ∑ p ∈ Finset.range i, ∑ q ∈ Finset.range j,
      Q [s, u, v] * (L [u, p, q, x] * (W [s, v, p, q, z] * 1))) rfl ?_
    simp only [mul_one]
    refine Finset.sum_congr rfl fun u _ => Finset.sum_congr rfl fun v _ => ?_
    rw [sum_mode2 i j fun m => L (u :: (m ++ [x])) * W (s :: v :: (m ++ [z])), Finset.mul_sum]
    refine Finset.sum_congr rfl fun p _ => ?_
    rw [Finset.mul_sum]
    rfl

/-- `sab,sb{m}c->sa{m}c` and `sab,sb{m}c->a{m}c`. -/
theorem lastEin {ax : List Char} {M : List ℕ} (hM : AxFor ax M) {Q W : Tensor K} {n a b c : ℕ}
    (hQ : Q.shape = [n, a, b]) (hW : W.shape = n :: b :: (M ++ [c])) :
    (∃ E, einsum ([chars! "sab", chars! "sb" ++ (ax ++ ['c'])], chars! "sa" ++ (ax ++ ['c'])) [Q, W] = Except.ok E ∧
      E.shape = n :: a :: (M ++ [c]) ∧ ∀ s x v z, v.length = M.length → E.get (s :: x :: (v ++ [z])) =
        ∑ u ∈ Finset.range b, Q.get [s, x, u] * W.get (s :: u :: (v ++ [z]))) ∧
    ∃ E, einsum ([chars! "sab", chars! "sb" ++ (ax ++ ['c'])], 'a' :: (ax ++ ['c'])) [Q, W] = Except.ok E ∧
      E.shape = a :: (M ++ [c]) ∧ ∀ x v z, v.length = M.length → E.get (x :: (v ++ [z])) =
        ∑ s ∈ Finset.range n, ∑ u ∈ Finset.range b, Q.get [s, x, u] * W.get (s :: u :: (v ++ [z])) := by
  obtain ⟨_, W⟩ := W; obtain ⟨_, Q⟩ := Q
  dsimp only at hW hQ
  subst hW hQ
  rcases hM with ⟨hM, rfl⟩ | ⟨hM, rfl⟩
  · obtain ⟨i, rfl⟩ := List.length_eq_one_iff.1 hM
    refine ⟨⟨_, if_pos (by simp [einDims, List.lookup]), rfl, fun s x v z hv => ?_⟩, ⟨_, if_pos (by simp [einDims, List.lookup]), rfl, fun x v z hv => ?_⟩⟩
    · obtain ⟨p, rfl⟩ := List.length_eq_one_iff.1 hv
      refine Eq.trans (b := ∑ u ∈ Finset.range b, Q [s, x, u] * (W [s, u, p, z] * 1)) rfl ?_
      simp only [mul_one]; rfl
    · obtain ⟨p, rfl⟩ := List.length_eq_one_iff.1 hv
      refine Eq.trans (b := ∑ s ∈ Finset.range n, ∑ u ∈ Finset.range b, Q [s, x, u] * (W [s, u, p, z] * 1)) rfl ?_
      simp only [mul_one]; rfl
  · obtain ⟨i, j, rfl⟩ := List.length_eq_two.1 hM
    refine ⟨⟨_, if_pos (by simp [einDims, List.lookup]), rfl, fun s x v z hv => ?_⟩, ⟨_, if_pos (by simp [einDims, List.lookup]), rfl, fun x v z hv => ?_⟩⟩
    · obtain ⟨p, q, rfl⟩ := List.length_eq_two.1 hv
      refine Eq.trans (b := ∑ u ∈ Finset.range b, Q [s, x, u] * (W [s, u, p, q, z] * 1)) rfl ?_
      simp only [mul_one]; rfl
    · obtain ⟨p, q, rfl⟩ := List.length_eq_two.1 hv
      refine Eq.trans (b := ∑ s ∈ Finset.range n, ∑ u ∈ Finset.range b, Q [s, x, u] * (W [s, u, p, q, z] * 1)) rfl ?_
      simp only [mul_one]; rfl

/-- `a{m}b,sbc->sa{m}c`. -/
theorem backEin {ax : List Char} {M : List ℕ} (hM : AxFor ax M) {L Q : Tensor K} {n a b c : ℕ}
    (hL : L.shape = a :: (M ++ [b])) (hQ : Q.shape = [n, b, c]) :
    ∃ E, einsum (['a' :: (ax ++ ['b']), chars! "sbc"], chars! "sa" ++ (ax ++ ['c'])) [L, Q] = Except.ok E ∧
      E.shape = n :: a :: (M ++ [c]) ∧ ∀ s x v z, v.length = M.length → E.get (s :: x :: (v ++ [z])) =
        ∑ u ∈ Finset.range b, L.get (x :: (v ++ [u])) * Q.get [s, u, z] := by
  obtain ⟨_, L⟩ := L; obtain ⟨_, Q⟩ := Q
  dsimp only at hL hQ
  subst hL hQ
  rcases hM with ⟨hM, rfl⟩ | ⟨hM, rfl⟩
  · obtain ⟨i, rfl⟩ := List.length_eq_one_iff.1 hM
    refine ⟨_, if_pos (by simp [einDims, List.lookup]), rfl, fun s x v z hv => ?_⟩
    obtain ⟨p, rfl⟩ := List.length_eq_one_iff.1 hv
    refine Eq.trans (b := ∑ u ∈ Finset.range b, L [x, p, u] * (Q [s, u, z] * 1)) rfl ?_
    simp only [mul_one]; rfl
  · obtain ⟨i, j, rfl⟩ := List.length_eq_two.1 hM
    refine ⟨_, if_pos (by simp [einDims, List.lookup]), rfl, fun s x v z hv => ?_⟩
    obtain ⟨p, q, rfl⟩ := List.length_eq_two.1 hv
    refine Eq.trans (b := ∑ u ∈ Finset.range b, L [x, p, q, u] * (Q [s, u, z] * 1)) rfl ?_
    simp only [mul_one]; rfl

/-- `sa{m}b,sbc->sa{m}c` and `sa{m}b,sbc->a{m}c`. -/
theorem timesEin {ax : List Char} {M : List ℕ} (hM : AxFor ax M) {P Q : Tensor K} {n a b c : ℕ}
    (hP : P.shape = n :: a :: (M ++ [b])) (hQ : Q.shape = [n, b, c]) :
    (∃ E, einsum ([chars! "sa" ++ (ax ++ ['b']), chars! "sbc"], chars! "sa" ++ (ax ++ ['c'])) [P, Q] = Except.ok E ∧
      E.shape = n :: a :: (M ++ [c]) ∧ ∀ s x v z, v.length = M.length → E.get (s :: x :: (v ++ [z])) =
        ∑ u ∈ Finset.range b, P.get (s :: x :: (v ++ [u])) * Q.get [s, u, z]) ∧
    ∃ E, einsum ([chars! "sa" ++ (ax ++ ['b']), chars! "sbc"], 'a' :: (ax ++ ['c'])) [P, Q] = Except.ok E ∧
      E.shape = a :: (M ++ [c]) ∧ ∀ x v z, v.length = M.length → E.get (x :: (v ++ [z])) =
        ∑ s ∈ Finset.range n, ∑ u ∈ Finset.range b, P.get (s :: x :: (v ++ [u])) * Q.get [s, u, z] := by
  obtain ⟨_, P⟩ := P; obtain ⟨_, Q⟩ := Q
  dsimp only at hP hQ
  subst hP hQ
  rcases hM with ⟨hM, rfl⟩ | ⟨hM, rfl⟩
  · obtain ⟨i, rfl⟩ := List.length_eq_one_iff.1 hM
    refine ⟨⟨_, if_pos (by simp [einDims, List.lookup]), rfl, fun s x v z hv => ?_⟩, ⟨_, if_pos (by simp [einDims, List.lookup]), rfl, fun x v z hv => ?_⟩⟩
    · obtain ⟨p, rfl⟩ := List.length_eq_one_iff.1 hv
      refine Eq.trans (b := ∑ u ∈ Finset.range b, P [s, x, p, u] * (Q [s, u, z] * 1)) rfl ?_
      simp only [mul_one]; rfl
    · obtain ⟨p, rfl⟩ := List.length_eq_one_iff.1 hv
      refine Eq.trans (b := ∑ s ∈ Finset.range n, ∑ u ∈ Finset.range b, P [s, x, p, u] * (Q [s, u, z] * 1)) rfl ?_
      simp only [mul_one]; rfl
  · obtain ⟨i, j, rfl⟩ := List.length_eq_two.1 hM
    refine ⟨⟨_, if_pos (by simp [einDims, List.lookup]), rfl, fun s x v z hv => ?_⟩, ⟨_, if_pos (by simp [einDims, List.lookup]), rfl, fun x v z hv => ?_⟩⟩
    · obtain ⟨p, q, rfl⟩ := List.length_eq_two.1 hv
      refine Eq.trans (b := ∑ u ∈ Finset.range b, P [s, x, p, q, u] * (Q [s, u, z] * 1)) rfl ?_
      simp only [mul_one]; rfl
    · obtain ⟨p, q, rfl⟩ := List.length_eq_two.1 hv
      refine Eq.trans (b := ∑ s ∈ Finset.range n, ∑ u ∈ Finset.range b, P [s, x, p, q, u] * (Q [s, u, z] * 1)) rfl ?_
      simp only [mul_one]; rfl

/-- `so,sa{m}c->oa{m}c`. -/
theorem weightEin2 {ax : List Char} {M : List ℕ} (hM : AxFor ax M) {w P : Tensor K} {n o a c : ℕ}
    (hw : w.shape = [n, o]) (hP : P.shape = n :: a :: (M ++ [c])) :
    ∃ E, einsum ([chars! "so", chars! "sa" ++ (ax ++ ['c'])], chars! "oa" ++ (ax ++ ['c'])) [w, P] = Except.ok E ∧
      E.shape = o :: a :: (M ++ [c]) ∧ ∀ q x v z, v.length = M.length → E.get (q :: x :: (v ++ [z])) =
        ∑ s ∈ Finset.range n, w.get [s, q] * P.get (s :: x :: (v ++ [z])) := by
  obtain ⟨_, w⟩ := w; obtain ⟨_, P⟩ := P
  dsimp only at hw hP
  subst hw hP
  rcases hM with ⟨hM, rfl⟩ | ⟨hM, rfl⟩
  · obtain ⟨i, rfl⟩ := List.length_eq_one_iff.1 hM
    refine ⟨_, if_pos (by simp [einDims, List.lookup]), rfl, fun q x v z hv => ?_⟩
    obtain ⟨p, rfl⟩ := List.length_eq_one_iff.1 hv
    refine Eq.trans (b := ∑ s ∈ Finset.range n, w [s, q] * (P [s, x, p, z] * 1)) rfl ?_
    simp only [mul_one]; rfl
  · obtain ⟨i, j, rfl⟩ := List.length_eq_two.1 hM
    refine ⟨_, if_pos (by simp [einDims, List.lookup]), rfl, fun q x v z hv => ?_⟩
    obtain ⟨p, p', rfl⟩ := List.length_eq_two.1 hv
    refine Eq.trans (b := ∑ s ∈ Finset.range n, w [s, q] * (P [s, x, p, p', z] * 1)) rfl ?_
    simp only [mul_one]; rfl

/-- `s,sa{m}c->a{m}c`. -/
theorem weightEin1 {ax : List Char} {M : List ℕ} (hM : AxFor ax M) {w P : Tensor K} {n a c : ℕ}
    (hw : w.shape = [n]) (hP : P.shape = n :: a :: (M ++ [c])) :
    ∃ E, einsum ([chars! "s", chars! "sa" ++ (ax ++ ['c'])], 'a' :: (ax ++ ['c'])) [w, P] = Except.ok E ∧
      E.shape = a :: (M ++ [c]) ∧ ∀ x v z, v.length = M.length → E.get (x :: (v ++ [z])) =
        ∑ s ∈ Finset.range n, w.get [s] * P.get (s :: x :: (v ++ [z])) := by
  obtain ⟨_, w⟩ := w; obtain ⟨_, P⟩ := P
  dsimp only at hw hP
  subst hw hP
  rcases hM with ⟨hM, rfl⟩ | ⟨hM, rfl⟩
  · obtain ⟨i, rfl⟩ := List.length_eq_one_iff.1 hM
    refine ⟨_, if_pos (by simp [einDims, List.lookup]), rfl, fun x v z hv => ?_⟩
    obtain ⟨p, rfl⟩ := List.length_eq_one_iff.1 hv
    refine Eq.trans (b := ∑ s ∈ Finset.range n, w [s] * (P [s, x, p, z] * 1)) rfl ?_
    simp only [mul_one]; rfl
  · obtain ⟨i, j, rfl⟩ := List.length_eq_two.1 hM
    refine ⟨_, if_pos (by simp [einDims, List.lookup]), rfl, fun x v z hv => ?_⟩
    obtain ⟨p, p', rfl⟩ := List.length_eq_two.1 hv
    refine Eq.trans (b := ∑ s ∈ Finset.range n, w [s] * (P [s, x, p, p', z] * 1)) rfl ?_
    simp only [mul_one]; rfl

end T3f
