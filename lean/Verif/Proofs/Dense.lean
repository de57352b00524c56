import Verif.Proofs.Full
import Verif.Proofs.Constructor
import Verif.Proofs.Sums

/-!
# From entries to dense tensors
-/

namespace T3f

variable {K : Type}

/-! ## Broadcasting -/

theorem bshape_append (s x y : List ℕ) :
    bshape (s ++ x) (s ++ y) = (s ++ ·) <$> bshape x y := by
  induction s with
  | nil => simp
  | cons a s ih =>
    simp only [List.cons_append, bshape, if_true, ih]
    cases bshape x y <;> rfl

theorem bshape_self (s : List ℕ) : bshape s s = some s := by
  have := bshape_append s [] []
  simpa [bshape] using this

theorem zipWith_valid {s i : List ℕ} (h : Valid s i) :
    List.zipWith (fun n i => if n = 1 then 0 else i) s i = i := by
  induction s generalizing i with
  | nil => rw [valid_nil_iff] at h; subst h; rfl
  | cons n s ih =>
    obtain ⟨j, i', rfl, hj, hi⟩ := (valid_cons_iff _ _ _).1 h
    simp only [List.zipWith_cons_cons, ih hi]
    congr 1
    split <;> omega

theorem bproj_valid {s i : List ℕ} (h : Valid s i) : bproj s i = i := by
  rw [bproj, h.length_eq, Nat.sub_self, List.drop_zero, zipWith_valid h]

theorem bproj_append {pa p s i : List ℕ} (hp : pa.length ≤ p.length) (hi : Valid s i) :
    bproj (pa ++ s) (p ++ i) = bproj pa p ++ i := by
  have hl := hi.length_eq
  unfold bproj
  rw [List.length_append, List.length_append,
    show p.length + i.length - (pa.length + s.length) = p.length - pa.length by omega,
    List.drop_append_of_le_length (by omega), List.zipWith_append (by simp; omega), zipWith_valid hi]

theorem bpre_reverse (t : TT K) : t.bpre.reverse = t.bpre := by
  unfold TT.bpre; cases t.batch <;> rfl

theorem bpre_length_le (t : TT K) : t.bpre.length ≤ 1 := by
  unfold TT.bpre; cases t.batch <;> simp

/-- Valid batch index of a broadcast result gives a valid batch index of the operand. -/
theorem bproj_bpre_valid {x y z p : List ℕ} (hx : x.length ≤ 1) (hy : y.length ≤ 1)
    (h : bshape x y = some z) (hp : Valid z p) :
    Valid x (bproj x p) ∧ Valid y (bproj y p) ∧ x.length ≤ p.length ∧ y.length ≤ p.length := by
  match x, y with
  | [], [] => simp [bshape] at h; subst h; rw [valid_nil_iff] at hp; subst hp; simp [bproj]
  | [m], [] =>
    simp [bshape] at h; subst h
    obtain ⟨o, rfl, ho⟩ := (valid_singleton _ _).1 hp
    simp [bproj]; split <;> omega
  | [], [n] =>
    simp [bshape] at h; subst h
    obtain ⟨o, rfl, ho⟩ := (valid_singleton _ _).1 hp
    simp [bproj]; split <;> omega
  | [m], [n] =>
    simp only [bshape] at h
    split at h
    · rename_i e; subst e; simp at h; subst h
      obtain ⟨o, rfl, ho⟩ := (valid_singleton _ _).1 hp
      simp [bproj]; split <;> omega
    · split at h
      · rename_i e; subst e; simp at h; subst h
        obtain ⟨o, rfl, ho⟩ := (valid_singleton _ _).1 hp
        simp [bproj]; split <;> omega
      · split at h
        · rename_i e; subst e; simp at h; subst h
          obtain ⟨o, rfl, ho⟩ := (valid_singleton _ _).1 hp
          simp [bproj]; split <;> omega
        · simp at h
  | _ :: _ :: _, _ => simp at hx
  | _, _ :: _ :: _ => simp at hy

/-! ## Dense shape and positions without the batch axis -/

/-- Dense shape without the batch axis. -/
def restShape (rs : List (List ℕ)) : List ℕ :=
  if rs.length = 2 then rs.map List.prod else rs.headD []

/-- Mode indices of a dense position without the batch axis. -/
def restModes (rs : List (List ℕ)) (i : List ℕ) : ℕ → List ℕ :=
  if rs.length = 2 then mIdx (unravel (rs.getD 0 []) (i.getD 0 0)) (unravel (rs.getD 1 []) (i.getD 1 0))
  else tIdx i

theorem denseShape_eq (t : TT K) : t.denseShape = t.bpre ++ restShape t.rawShape := rfl

theorem dense_get [Semiring K] (t : TT K) (p i : List ℕ) (hp : p.length = t.bpre.length) :
    t.dense.get (p ++ i) = t.entry p (restModes t.rawShape i) := by
  simp only [TT.dense, TT.decode]
  rw [List.take_left' hp, List.drop_left' hp]
  by_cases h : t.isMatrix
  · rw [if_pos h, restModes, if_pos (show t.rawShape.length = 2 from h)]
  · rw [if_neg h, restModes, if_neg (show ¬ t.rawShape.length = 2 from h)]

theorem validModes_rest [CommRing K] {t : TT K} (h : t.WF) {i : List ℕ}
    (hi : Valid (restShape t.rawShape) i) : t.ValidModes (restModes t.rawShape i) t.ndims := by
  by_cases hm : t.isMatrix
  · obtain ⟨row0, row1, hrow, hl0, hl1⟩ := h.rawShape_matrix hm
    rw [hrow] at hi
    obtain ⟨x, y, rfl, hx, hy⟩ := (valid_pair _ _ _).1 hi
    have hi := unravel_valid hx
    have hj := unravel_valid hy
    intro k hk
    simp [TT.modes, hrow, restModes, mIdx]
    have h1 := ((valid_iff_getD _ _).1 hi).2 k (by omega)
    have h2 := ((valid_iff_getD _ _).1 hj).2 k (by omega)
    simpa [List.getD_eq_getElem?_getD] using ⟨h1, h2⟩
  · obtain ⟨row, hrow, hlen⟩ := h.rawShape_tensor hm
    rw [hrow] at hi
    have hi' : Valid row i := hi
    intro k hk
    have h1 := ((valid_iff_getD _ _).1 hi').2 k (by omega)
    simpa [TT.modes, hrow, restModes, tIdx, List.getD_eq_getElem?_getD] using h1

theorem ndims_of_rows [Zero K] {a b : TT K} (ha : a.WF) (hb : b.WF) (h : a.rawShape = b.rawShape) :
    a.ndims = b.ndims := by
  obtain ⟨row, hrow⟩ : ∃ row, row ∈ a.rawShape := by
    have := ha.rows
    cases hr : a.rawShape with
    | nil => simp [hr] at this
    | cons r l => exact ⟨r, by simp⟩
  rw [← ha.rows_len row hrow, hb.rows_len row (h ▸ hrow)]

theorem modes_of_rows {a b : TT K} (h : a.rawShape = b.rawShape) : a.modes = b.modes := by
  unfold TT.modes; rw [h]

theorem binop_ok (f : K → K → K) (A B : Tensor K) (s : List ℕ)
    (h : bshape A.shape.reverse B.shape.reverse = some s.reverse) :
    ∃ S, binop f A B = Except.ok S ∧ S.shape = s ∧
      ∀ idx, S.get idx = f (A.get (bproj A.shape idx)) (B.get (bproj B.shape idx)) := by
  refine ⟨⟨s, _⟩, ?_, rfl, fun _ => rfl⟩
  simp only [binop, h, List.reverse_reverse]

/-- An elementwise relation of entries lifts to the dense tensors, with batch broadcasting. -/
theorem full_binop [CommRing K] (f : K → K → K) {a b c : TT K} (ha : a.WF) (hb : b.WF) (hc : c.WF)
    (hab : a.rawShape = b.rawShape) (hca : c.rawShape = a.rawShape)
    (hbatch : bshape a.bpre b.bpre = some c.bpre)
    (hent : ∀ p m, Valid c.bpre p → c.ValidModes m c.ndims →
      c.entry p m = f (a.entry (bproj a.bpre p) m) (b.entry (bproj b.bpre p) m)) :
    ∃ A B C S, full a = Except.ok A ∧ full b = Except.ok B ∧ full c = Except.ok C ∧
      binop f A B = Except.ok S ∧ C ≃ₜ S := by
  obtain ⟨A, eA, sA, vA⟩ := full_dense ha
  obtain ⟨B, eB, sB, vB⟩ := full_dense hb
  obtain ⟨C, eC, sC, vC⟩ := full_dense hc
  have sA' : A.shape = a.bpre ++ restShape a.rawShape := sA
  have sB' : B.shape = b.bpre ++ restShape a.rawShape := by rw [hab]; exact sB
  have sC' : C.shape = c.bpre ++ restShape a.rawShape := by rw [← hca]; exact sC
  have hbs : bshape A.shape.reverse B.shape.reverse = some C.shape.reverse := by
    rw [sA', sB', sC', List.reverse_append, List.reverse_append, List.reverse_append, bshape_append,
      bpre_reverse, bpre_reverse, bpre_reverse, hbatch]; rfl
  obtain ⟨S, eS, sS, vS⟩ := binop_ok f A B _ hbs
  refine ⟨A, B, C, S, eA, eB, eC, eS, sS.symm, ?_⟩
  intro idx hidx
  rw [vC idx hidx, vS]
  rw [sC'] at hidx
  obtain ⟨p, i, rfl, hp, hi⟩ := valid_append_iff.1 hidx
  obtain ⟨h1, h2, h3, h4⟩ := bproj_bpre_valid (bpre_length_le a) (bpre_length_le b) hbatch hp
  rw [sA', sB', bproj_append h3 hi, bproj_append h4 hi, vA _ (by rw [sA']; exact valid_append h1 hi),
    vB _ (by rw [sB']; exact valid_append h2 hi), dense_get c p i hp.length_eq, dense_get a _ i h1.length_eq,
    dense_get b _ i h2.length_eq, hca, ← hab]
  exact hent p _ hp (by rw [← hca]; exact validModes_rest hc (by rw [hca]; exact hi))

/-- An elementwise relation of entries lifts to the dense tensors. -/
theorem full_map {L : Type} [CommRing K] [CommRing L] (f : K → L) {a : TT K} {c : TT L} (ha : a.WF)
    (hc : c.WF)
    (hca : c.rawShape = a.rawShape) (hbatch : c.batch = a.batch)
    (hent : ∀ p m, Valid c.bpre p → c.ValidModes m c.ndims → c.entry p m = f (a.entry p m)) :
    ∃ A C, full a = Except.ok A ∧ full c = Except.ok C ∧ C ≃ₜ A.map f := by
  obtain ⟨A, eA, sA, vA⟩ := full_dense ha
  obtain ⟨C, eC, sC, vC⟩ := full_dense hc
  have hbp : c.bpre = a.bpre := by unfold TT.bpre; rw [hbatch]
  have sC' : C.shape = A.shape := by
    rw [sA, sC]; change c.denseShape = a.denseShape
    rw [denseShape_eq, denseShape_eq, hca, hbp]
  refine ⟨A, C, eA, eC, sC', ?_⟩
  intro idx hidx
  have hidx' := hidx
  rw [sC, show c.dense.shape = c.bpre ++ restShape c.rawShape from rfl] at hidx'
  obtain ⟨p, i, rfl, hp, hi⟩ := valid_append_iff.1 hidx'
  change _ = f (A.get _)
  rw [vC _ hidx, vA _ (by rw [← sC']; exact hidx), dense_get c p i hp.length_eq,
    dense_get a p i (by rw [hp.length_eq, hbp]), ← hca]
  exact hent p _ hp (validModes_rest hc hi)

end T3f
