import Verif.Proofs.Scalar
import Verif.Proofs.DescribedOps
import Verif.Model.MultiplyArray
import Verif.Spec.Fits

/-! # Multiplication by an array -/

namespace T3f

/-! ## Broadcasting -/

/-- `Fits` for reversed shapes. -/
def FitsR (x y : List ℕ) : Prop := x.length ≤ y.length ∧ ∀ k < x.length, x.getD k 0 = 1 ∨ x.getD k 0 = y.getD k 0

theorem FitsR.nil (y : List ℕ) : FitsR [] y := ⟨by simp, by simp⟩

theorem fitsR_cons {x y : ℕ} {a b : List ℕ} : FitsR (x :: a) (y :: b) ↔ (x = 1 ∨ x = y) ∧ FitsR a b := by
  constructor
  · rintro ⟨h1, h2⟩
    refine ⟨by simpa using h2 0 (by simp), by simpa using h1, fun k hk => ?_⟩
    simpa using h2 (k + 1) (by simpa using hk)
  · rintro ⟨h1, h2, h3⟩
    refine ⟨by simpa using h2, fun k hk => ?_⟩
    cases k with
    | zero => simpa using h1
    | succ k => simpa using h3 k (by simpa using hk)

theorem FitsR.refl (y : List ℕ) : FitsR y y := ⟨le_rfl, fun _ _ => Or.inr rfl⟩

theorem getD_reverse' (l : List ℕ) {k : ℕ} (hk : k < l.length) : l.reverse.getD k 0 = l.getD (l.length - 1 - k) 0 := by
  rw [List.getD_eq_getElem _ _ (by simpa using hk), List.getElem_reverse, List.getD_eq_getElem]

theorem fits_iff {σ s : List ℕ} : Fits σ s ↔ FitsR σ.reverse s.reverse := by
  constructor
  · rintro ⟨h1, h2⟩
    refine ⟨by simpa using h1, fun k hk => ?_⟩
    rw [List.length_reverse] at hk
    have := h2 (σ.length - 1 - k) (by omega)
    rw [getD_reverse' _ hk, getD_reverse' _ (by omega)]
    rwa [show σ.length - 1 - k + (s.length - σ.length) = s.length - 1 - k by omega] at this
  · rintro ⟨h1, h2⟩
    rw [List.length_reverse, List.length_reverse] at h1
    refine ⟨h1, fun t ht => ?_⟩
    have := h2 (σ.length - 1 - t) (by rw [List.length_reverse]; omega)
    rw [getD_reverse' _ (by omega), getD_reverse' _ (by omega)] at this
    rwa [show σ.length - 1 - (σ.length - 1 - t) = t by omega,
      show s.length - 1 - (σ.length - 1 - t) = t + (s.length - σ.length) by omega] at this

theorem FitsR.bshape_left : ∀ {x y : List ℕ}, FitsR x y → bshape x y = some y
  | [], y, _ => by rw [bshape]
  | x :: a, [], h => by have := h.1; simp at this
  | x :: a, y :: b, h => by
    obtain ⟨h1, h2⟩ := fitsR_cons.1 h
    rw [bshape, h2.bshape_left]
    rcases h1 with rfl | rfl
    · by_cases e : 1 = y
      · subst e; simp
      · simp [e]
    · simp

theorem FitsR.bshape_right : ∀ {x y : List ℕ}, FitsR x y → bshape y x = some y
  | [], [], _ => by rw [bshape]
  | [], y :: b, _ => by rw [bshape]; simp
  | x :: a, [], h => by have := h.1; simp at this
  | x :: a, y :: b, h => by
    obtain ⟨h1, h2⟩ := fitsR_cons.1 h
    rw [bshape, h2.bshape_right]
    rcases h1 with rfl | rfl
    · by_cases e : y = 1
      · subst e; simp
      · simp [e]
    · simp

theorem bshape_fits : ∀ {x y z : List ℕ}, bshape x y = some z → FitsR x z ∧ FitsR y z
  | [], y, z, h => by
    rw [bshape] at h
    cases h
    exact ⟨.nil _, .refl _⟩
  | x :: a, [], z, h => by
    rw [bshape] at h
    · cases h; exact ⟨.refl _, .nil _⟩
    · simp
  | x :: a, y :: b, z, h => by
    rw [bshape] at h
    split_ifs at h with e1 e2 e3
    all_goals
      simp only [Option.map_eq_map, Option.map_eq_some_iff] at h
      obtain ⟨r, hr, rfl⟩ := h
      obtain ⟨i1, i2⟩ := bshape_fits hr
      refine ⟨fitsR_cons.2 ⟨?_, i1⟩, fitsR_cons.2 ⟨?_, i2⟩⟩ <;> simp_all

theorem binop_shape {f : ℝ → ℝ → ℝ} {a b c : Tensor ℝ} (h : binop f a b = Except.ok c) : Fits a.shape c.shape ∧ Fits b.shape c.shape ∧
    c.get = fun idx => f (a.get (bproj a.shape idx)) (b.get (bproj b.shape idx)) := by
  unfold binop at h
  split at h
  · rename_i s hs
    cases h
    obtain ⟨h1, h2⟩ := bshape_fits hs
    exact ⟨fits_iff.2 (by simpa using h1), fits_iff.2 (by simpa using h2), rfl⟩
  · cases h

theorem binop_left {f : ℝ → ℝ → ℝ} {a b : Tensor ℝ} (h : Fits a.shape b.shape) : binop f a b = Except.ok
    ⟨b.shape, fun idx => f (a.get (bproj a.shape idx)) (b.get (bproj b.shape idx))⟩ := by
  rw [binop, (fits_iff.1 h).bshape_left]
  simp

theorem binop_right {f : ℝ → ℝ → ℝ} {a b : Tensor ℝ} (h : Fits b.shape a.shape) : binop f a b = Except.ok
    ⟨a.shape, fun idx => f (a.get (bproj a.shape idx)) (b.get (bproj b.shape idx))⟩ := by
  rw [binop, (fits_iff.1 h).bshape_right]
  simp

theorem binop_error {f : ℝ → ℝ → ℝ} {a b : Tensor ℝ} {e : Err} (h : binop f a b = Except.error e) : e = Err.tf := by
  unfold binop at h
  split at h <;> cases h
  rfl

/-- Positions that differ only along axes of length one meet the same entry. -/
theorem bproj_congr {σ i j : List ℕ} (hl : i.length = j.length) (hσ : σ.length ≤ i.length)
    (h : ∀ t < σ.length, σ.getD t 0 ≠ 1 → i.getD (t + (i.length - σ.length)) 0 = j.getD (t + (i.length - σ.length)) 0) : bproj σ i = bproj σ j := by
  unfold bproj
  refine List.ext_getElem (by simp; omega) fun t h1 h2 => ?_
  have ht : t < σ.length := by simp at h1; omega
  have := h t ht
  rw [List.getElem_zipWith, List.getElem_zipWith, List.getElem_drop, List.getElem_drop]
  by_cases e : σ[t] = 1
  · simp [e]
  · rw [List.getD_eq_getElem _ _ ht, List.getD_eq_getElem _ _ (by omega), List.getD_eq_getElem _ _ (by omega)] at this
    have := this e
    simp only [e, if_false, ← hl, show i.length - σ.length + t = t + (i.length - σ.length) by omega, this]

theorem bshape_or : ∀ {x y z : List ℕ}, bshape x y = some z → ∀ k < z.length, (k < x.length ∧ z.getD k 0 = x.getD k 0) ∨ (k < y.length ∧ z.getD k 0 = y.getD k 0)
  | [], y, z, h, k, hk => by
    rw [bshape] at h
    cases h
    exact Or.inr ⟨hk, rfl⟩
  | x :: a, [], z, h, k, hk => by
    rw [bshape] at h
    · cases h; exact Or.inl ⟨hk, rfl⟩
    · simp
  | x :: a, y :: b, z, h, k, hk => by
    rw [bshape] at h
    split_ifs at h with e1 e2 e3
    all_goals
      simp only [Option.map_eq_map, Option.map_eq_some_iff] at h
      obtain ⟨r, hr, rfl⟩ := h
      cases k with
      | zero => simp
      | succ k => simpa using bshape_or hr k (by simpa using hk)

/-! ## The cores of the result -/

theorem mapM_getD {α β : Type} {f : α → R β} (d : α) (e : β) : ∀ {l : List α} {r : List β}, l.mapM f = Except.ok r →
    r.length = l.length ∧ ∀ k < l.length, f (l.getD k d) = Except.ok (r.getD k e)
  | [], r, h => by
    rw [List.mapM_nil] at h
    cases h
    exact ⟨rfl, by simp⟩
  | x :: l, r, h => by
    rw [List.mapM_cons] at h
    obtain ⟨y, hy, h⟩ := bind_ok_iff.1 h
    obtain ⟨ys, hys, h⟩ := bind_ok_iff.1 h
    cases h
    obtain ⟨h1, h2⟩ := mapM_getD d e hys
    refine ⟨by simp [h1], fun k hk => ?_⟩
    cases k with
    | zero => simpa using hy
    | succ k => simpa using h2 k (by simpa using hk)

/-- A successful call: shapes of the cores given to the constructor. -/
theorem multiplyArray_inv {a c : TT ℝ} {A : Tensor ℝ} (h : multiplyArray a A = Except.ok c) : ∃ cs : List (Tensor ℝ), cs.length = a.ndims ∧
    mkLike a.batch cs a.rawShape a.ttRanks = Except.ok c ∧
    ∀ k < a.ndims, bshape A.shape.reverse (a.core k).shape.reverse = some (cs.getD k default).shape.reverse := by
  unfold multiplyArray at h
  dsimp only at h
  obtain ⟨cores, hc, h2⟩ := bind_ok_iff.1 h
  obtain ⟨c0, h0, h3⟩ := bind_ok_iff.1 h2
  obtain ⟨c1, h1, h4⟩ := bind_ok_iff.1 h3
  obtain ⟨hl, hg⟩ := mapM_getD default default hc
  obtain ⟨rfl, hk0⟩ := pyGet_getD h0 default
  have key : ∀ k < a.ndims, bshape A.shape.reverse (a.core k).shape.reverse = some (cores.getD k default).shape.reverse := by
    intro k hk
    have := hg k hk
    rw [binop] at this
    change (match bshape A.shape.reverse (a.core k).shape.reverse with
      | some s => _ | none => _) = _ at this
    split at this
    · rename_i s hs
      rw [hs]
      cases h' : cores.getD k default with
      | mk sh g =>
        rw [h'] at this
        injection this with this
        injection this with this _
        rw [← this]
        simp
    · cases this
  refine ⟨_, by simpa [TT.ndims] using hl, h4, fun k hk => ?_⟩
  by_cases e : k = 0
  · subst e
    rw [getD_set_self _ _ _ _ hk0, key 0 hk]
    have hf := (bshape_fits (key 0 hk)).1
    have := binop_right (f := (· * ·)) (a := cores.getD 0 default) (b := A.map fun x => ((SignType.sign x : SignType) : ℝ)) (fits_iff.2 hf)
    rw [this] at h1
    cases h1
    rfl
  · rw [getD_set_ne _ _ _ (Ne.symm e)]
    exact key k hk

/-- Result of `mkLike`. -/
theorem mkLike_fields {bs : Option ℕ} {cores : List (Tensor ℝ)} {rows : List (List ℕ)} {rk : List ℕ} {c : TT ℝ} (hr : rows ≠ [])
    (h : mkLike bs cores rows rk = Except.ok c) : c = ⟨cores, rows, rk, bs⟩ ∧ coresValid bs.toList.length bs (cores.map (·.shape)) (some rows) (some rk) = Except.ok true := by
  have hcl : cleanRawShape (.shapes rows) = Except.ok (some rows) := by cases rows <;> [exact absurd rfl hr; rfl]
  cases bs with
  | none =>
    simp only [mkLike, mkTT, hcl, R.ok_bind, bind_ok_iff] at h
    obtain ⟨b, hb, h⟩ := h
    cases b with
    | false => cases h
    | true => cases h; exact ⟨rfl, hb⟩
  | some n =>
    simp only [mkLike, mkBatch, hcl, R.ok_bind, bind_ok_iff] at h
    obtain ⟨b, hb, h⟩ := h
    cases b with
    | false => cases h
    | true => cases h; exact ⟨rfl, hb⟩

theorem core_axes {a : TT ℝ} (ha : a.WF) {k : ℕ} (hk : k < a.ndims) : (a.core k).shape.length = a.bpre.length + a.rawShape.length + 2 := by
  rw [ha.core_shape k hk]
  simp [TT.modes]
  omega

/-- A successful call with an array that has not more axes than the cores: the array fits the cores. -/
theorem multiplyArray_fits {a c : TT ℝ} (ha : a.WF) {A : Tensor ℝ} (hA : A.shape.length ≤ a.bpre.length + a.rawShape.length + 2)
    (h : multiplyArray a A = Except.ok c) {k : ℕ} (hk : k < a.ndims) : Fits A.shape (a.core k).shape := by
  obtain ⟨cs, hl, hm, hs⟩ := multiplyArray_inv h
  have hne : a.rawShape ≠ [] := by
    intro e; have := ha.rows; simp [e] at this
  have hax : ∀ k < a.ndims, (cs.getD k default).shape.length = a.bpre.length + a.rawShape.length + 2 := by
    intro k hk
    have := bshape_axes (hs k hk)
    rw [List.length_reverse, List.length_reverse, List.length_reverse, core_axes ha hk] at this
    omega
  obtain ⟨hd, h1, h2, h3⟩ := mkLike_described ha.rows (fun row hrow => by rw [hl]; exact ha.rows_len row hrow) (by rw [hl]; exact ha.ranks_len)
    (hax 0 ha.pos) c hm
  obtain ⟨rfl, -⟩ := mkLike_fields hne hm
  have e := hd.describes.core_shape k (by change k < cs.length; omega)
  have e' : (cs.getD k default).shape = (a.core k).shape := by
    rw [ha.core_shape k hk]; exact e
  rw [fits_iff, ← e']
  exact (bshape_fits (hs k hk)).1

/-! ## Entries -/

/-- Along the rank axes a fitting array has length one. -/
theorem fits_bproj {a : TT ℝ} (ha : a.WF) {σ : List ℕ} (hf : ∀ k < a.ndims, Fits σ (a.core k).shape) {p m : List ℕ} (hp : p.length = a.bpre.length)
    (hm : m.length = a.rawShape.length) (x y x' y' : ℕ) : bproj σ (p ++ x :: (m ++ [y])) = bproj σ (p ++ x' :: (m ++ [y'])) := by
  have hpos := ha.pos
  have hσ := (hf 0 hpos).1
  rw [core_axes ha hpos] at hσ
  have hlen : (p ++ x :: (m ++ [y])).length = a.bpre.length + a.rawShape.length + 2 := by simp [hp, hm]; omega
  refine bproj_congr (by simp) (by omega) fun t ht h1 => ?_
  rw [hlen]
  set q := t + (a.bpre.length + a.rawShape.length + 2 - σ.length) with hq
  have hq1 : q ≠ p.length := by
    intro e
    refine h1 ?_
    have := (hf 0 hpos).2 t ht
    rw [core_axes ha hpos, ← hq, e, hp, ha.core_shape 0 hpos, List.getD_append_right _ _ _ _ le_rfl, Nat.sub_self, List.getD_cons_zero, ha.rank_first] at this
    tauto
  have hq2 : q ≠ p.length + 1 + m.length := by
    intro e
    refine h1 ?_
    have hd : a.ndims - 1 < a.ndims := by omega
    have := (hf _ hd).2 t ht
    rw [core_axes ha hd, ← hq, e, hp, ha.core_shape _ hd, List.getD_append_right _ _ _ _ (by omega),
      show a.bpre.length + 1 + m.length - a.bpre.length = m.length + 1 by omega, List.getD_cons_succ,
      List.getD_append_right _ _ _ _ (by simp [TT.modes, hm]), show m.length - (a.modes (a.ndims - 1)).length = 0 by simp [TT.modes, hm], List.getD_cons_zero,
      show a.ndims - 1 + 1 = a.ndims by omega, ha.rank_last] at this
    tauto
  rcases Nat.lt_or_ge q p.length with hlt | hge
  · rw [List.getD_append _ _ _ _ hlt, List.getD_append _ _ _ _ hlt]
  · obtain ⟨u, hu⟩ : ∃ u, q - p.length = u + 1 := ⟨q - p.length - 1, by omega⟩
    rw [List.getD_append_right _ _ _ _ hge, List.getD_append_right _ _ _ _ hge, hu, List.getD_cons_succ, List.getD_cons_succ]
    have hu' : u < m.length := by omega
    rw [List.getD_append _ _ _ _ hu', List.getD_append _ _ _ _ hu']

/-- The call with an array that fits all cores. -/
theorem multiplyArray_ok {a : TT ℝ} (ha : a.WF) {A : Tensor ℝ} (hf : ∀ k < a.ndims, Fits A.shape (a.core k).shape) :
    ∃ c, multiplyArray a A = Except.ok c ∧ c.WF ∧ c.rawShape = a.rawShape ∧ c.batch = a.batch ∧ c.ttRanks = a.ttRanks ∧ c.ndims = a.ndims ∧
      ∀ p m, Valid a.bpre p → a.ValidModes m a.ndims →
        c.entry p m = (∏ k ∈ Finset.range a.ndims, |arrayAt A p (m k)| ^ (1 / (a.ndims : ℝ))) * (SignType.sign (arrayAt A p (m 0)) : SignType) * a.entry p m := by
  have hpos := ha.pos
  set fact : Tensor ℝ := A.map fun x => |x| ^ (1 / (a.ndims : ℝ)) with hfact
  set sgn : Tensor ℝ := A.map fun x => ((SignType.sign x : SignType) : ℝ) with hsgn
  set g : Tensor ℝ → Tensor ℝ := fun c => ⟨c.shape, fun idx => fact.get (bproj A.shape idx) * c.get (bproj c.shape idx)⟩ with hg
  have hcores : a.cores.mapM (binop (· * ·) fact) = Except.ok (a.cores.map g) := by
    refine mapM_ok _ g _ fun c hc => ?_
    obtain ⟨k, hk, rfl⟩ := List.getElem_of_mem hc
    have : a.cores[k] = a.core k := by rw [TT.core, List.getD_eq_getElem _ _ hk]
    rw [this]
    exact binop_left (a := fact) (hf k hk)
  have hgk : ∀ k < a.ndims, (a.cores.map g).getD k default = g (a.core k) := by
    intro k hk
    have hk' : k < a.cores.length := hk
    rw [List.getD_eq_getElem _ _ (by simpa using hk'), List.getElem_map, TT.core, List.getD_eq_getElem _ _ hk']
  set c0 : Tensor ℝ := ⟨(a.core 0).shape, fun idx => (g (a.core 0)).get (bproj (a.core 0).shape idx) * sgn.get (bproj A.shape idx)⟩ with hc0
  have h0 : pyGet (a.cores.map g) 0 = Except.ok (g (a.core 0)) := by
    rw [pyGet_of_lt _ _ default (by simpa [TT.ndims] using hpos), hgk 0 hpos]
  have h1 : binop (· * ·) (g (a.core 0)) sgn = Except.ok c0 := binop_right (a := g (a.core 0)) (b := sgn) (hf 0 hpos)
  set cs := (a.cores.map g).set 0 c0 with hcs
  have hl : cs.length = a.ndims := by simp [hcs, TT.ndims]
  have hshape : ∀ k < a.ndims, (cs.getD k default).shape = (a.core k).shape := by
    intro k hk
    by_cases e : k = 0
    · subst e
      rw [hcs, getD_set_self _ _ _ _ (by simpa [TT.ndims] using hpos)]
    · rw [hcs, getD_set_ne _ _ _ (Ne.symm e), hgk k hk]
  have hch : Chain a.batch cs a.rank a.modes a.rawShape.length := by
    have h := ha.chain
    refine ⟨hl ▸ hpos, h.r0, hl ▸ ha.rank_last, hl ▸ ha.rank_pos, h.nm12, fun k _ => by simp [TT.modes], fun k hk => ?_, h.bpos⟩
    rw [hshape k (hl ▸ hk)]
    exact ha.core_shape k (hl ▸ hk)
  have hmk := mkLike_ok hch a.rawShape (by rw [hl]; exact ha.rows_eq) a.ttRanks (by rw [hl]; exact ha.ranks_eq)
  refine ⟨_, ?_, hch.wf, ?_, rfl, ?_, hl, fun p m hp hm => ?_⟩
  · unfold multiplyArray
    simp only [← hfact, ← hsgn, hcores, R.ok_bind, h0, h1]
    exact hmk
  · change rowsOf _ _ _ = _
    rw [hl]; exact ha.rows_eq.symm
  · change ranksOf _ _ = _
    rw [hl]; exact ha.ranks_eq.symm
  · have hml : ∀ k < a.ndims, (m k).length = a.rawShape.length := fun k hk => by rw [(hm k hk).length_eq]; simp [TT.modes]
    set s : ℕ → ℝ := fun k => |arrayAt A p (m k)| ^ (1 / (a.ndims : ℝ)) * if k = 0 then ((SignType.sign (arrayAt A p (m 0)) : SignType) : ℝ) else 1 with hs
    have hprod : (∏ k ∈ Finset.range a.ndims, s k) =
        (∏ k ∈ Finset.range a.ndims, |arrayAt A p (m k)| ^ (1 / (a.ndims : ℝ))) * (SignType.sign (arrayAt A p (m 0)) : SignType) := by
      rw [hs, Finset.prod_mul_distrib, Finset.prod_ite_eq' (Finset.range a.ndims) 0 fun _ => ((SignType.sign (arrayAt A p (m 0)) : SignType) : ℝ)]
      simp [hpos]
    rw [← hprod, hch.entry_eq, hl, TT.entry, ← lprod_scale]
    refine lprod_congr (fun _ _ => rfl) (fun k hk x y hx hy => ?_) (by rw [ha.rank_last]; omega)
    have hv : Valid (a.core k).shape (p ++ x :: (m k ++ [y])) := by
      rw [ha.core_shape k hk]; exact valid_append hp (valid_core hx (hm k hk) hy)
    have hb : bproj A.shape (p ++ x :: (m k ++ [y])) = bproj A.shape (p ++ 0 :: (m k ++ [0])) :=
      fits_bproj ha hf hp.length_eq (hml k hk) _ _ _ _
    have hbv := bproj_valid hv
    by_cases e : k = 0
    · subst e
      rw [hcs, getD_set_self _ _ _ _ (by simpa [TT.ndims] using hpos)]
      simp only [hc0, hg, hbv, hb, hs, if_true, TT.slice, hfact, hsgn, Tensor.map, arrayAt]
      ring
    · rw [hcs, getD_set_ne _ _ _ (Ne.symm e), hgk k hk]
      simp only [hg, hbv, hb, hs, e, if_false, TT.slice, hfact, Tensor.map, arrayAt]
      ring

/-- What the constructor has checked after a successful call. -/
theorem multiplyArray_checks {a c : TT ℝ} (ha : a.WF) {A : Tensor ℝ} (h : multiplyArray a A = Except.ok c) : ∃ S : ℕ → List ℕ,
    (∀ k < a.ndims, bshape A.shape.reverse (a.core k).shape.reverse = some (S k).reverse) ∧
    (∀ k < a.ndims, (S k).length = max A.shape.length (a.bpre.length + a.rawShape.length + 2)) ∧
    (∀ k < a.ndims, (S k).getD a.bpre.length 0 = a.rank k) ∧
    (∀ j < a.rawShape.length, ∀ k < a.ndims, (S k).getD (j + 1 + a.bpre.length) 0 = (a.rawShape.getD j []).getD k 0) ∧
    (S (a.ndims - 1)).getLastD 0 = 1 := by
  obtain ⟨cs, hl, hm, hs⟩ := multiplyArray_inv h
  have hne : a.rawShape ≠ [] := by
    intro e; have := ha.rows; simp [e] at this
  have hpos := ha.pos
  have hax : ∀ k < a.ndims, (cs.getD k default).shape.length = max A.shape.length (a.bpre.length + a.rawShape.length + 2) := by
    intro k hk
    have := bshape_axes (hs k hk)
    rwa [List.length_reverse, List.length_reverse, List.length_reverse, core_axes ha hk] at this
  obtain ⟨-, hv⟩ := mkLike_fields hne hm
  have hsh : ∀ k < a.ndims, (cs.map (·.shape)).getD k [] = (cs.getD k default).shape := fun k hk => by
    rw [List.getD_eq_getElem _ _ (by simp; omega), List.getElem_map, List.getD_eq_getElem _ _ (by omega)]
  have h0 := hax 0 hpos
  have hb : a.bpre.length = a.batch.toList.length := rfl
  obtain ⟨hc, -, hr, hk⟩ := (coresValid_decides (by intro e; rw [List.map_eq_nil_iff] at e; rw [e] at hl; simp at hl; omega)
    (by rw [hsh 0 hpos]; omega) (fun rw' hrw => by
      cases hrw
      refine ⟨by rw [hsh 0 hpos]; omega, fun j hj => ?_⟩
      rw [List.getD_eq_getElem _ _ hj, ha.rows_len _ (List.getElem_mem _), List.length_map, hl])
    (fun r hr => by cases hr; rw [ha.ranks_len, List.length_map, hl]; omega)).elim hv
  rw [List.length_map, hl] at hr
  obtain ⟨hk1, hk2⟩ := hk _ rfl
  rw [List.length_map, hl] at hk1 hk2
  refine ⟨fun k => (cs.getD k default).shape, hs, hax, fun k hk => ?_, fun j hj k hk => ?_, ?_⟩
  · have := hk1 k hk
    rwa [hsh k hk] at this
  · have := hr _ rfl j hj k hk
    rwa [hsh k hk] at this
  · rw [hsh _ (by omega)] at hk2
    rw [hk2]
    exact ha.rank_last

theorem not_ok_error {α : Type} {x : R α} (h : ∀ c, x ≠ Except.ok c) : ∃ e, x = Except.error e := by
  cases x with
  | error e => exact ⟨e, rfl⟩
  | ok c => exact absurd rfl (h c)

theorem getLastD_eq_getD (l : List ℕ) : l.getLastD 0 = l.getD (l.length - 1) 0 := by
  rw [List.getLastD_eq_getLast?, List.getLast?_eq_getElem?, List.getD_eq_getElem?_getD]

/-- The last axis of the array has length one. -/
theorem multiplyArray_last {a c : TT ℝ} (ha : a.WF) {A : Tensor ℝ} (h : multiplyArray a A = Except.ok c) (hne : A.shape ≠ []) : A.shape.getLastD 0 = 1 := by
  obtain ⟨S, hs, hl, -, -, h1⟩ := multiplyArray_checks ha h
  have hpos := ha.pos
  have hd : a.ndims - 1 < a.ndims := by omega
  have hlen := List.length_pos_iff.2 hne
  obtain ⟨q1, q2⟩ := fits_iff.2 (bshape_fits (hs _ hd)).1
  have := q2 (A.shape.length - 1) (by omega)
  rw [show A.shape.length - 1 + ((S (a.ndims - 1)).length - A.shape.length) = (S (a.ndims - 1)).length - 1 by omega, ← getLastD_eq_getD,
    ← getLastD_eq_getD, h1] at this
  tauto

/-- A plain TT-tensor and an array of its own shape. -/
theorem multiplyArray_own_tensor {a c : TT ℝ} (ha : a.WF) (hb : a.batch = none) {row : List ℕ} (hr : a.rawShape = [row]) {A : Tensor ℝ} (hA : A.shape = row)
    (h : multiplyArray a A = Except.ok c) : ∀ k < a.ndims, row.getD k 0 = 1 := by
  have hpos := ha.pos
  have hrl : row.length = a.ndims := ha.rows_len row (by simp [hr])
  have hlast := multiplyArray_last ha h (by rw [hA]; intro e; rw [e] at hrl; simp at hrl; omega)
  rw [hA, getLastD_eq_getD, hrl] at hlast
  obtain ⟨S, hs, hl, hrk, hrow, -⟩ := multiplyArray_checks ha h
  have hbp : a.bpre.length = 0 := by simp [TT.bpre, hb]
  simp only [hbp, hA, hrl, hr, List.length_singleton] at hl hrk hrow
  have hrow' : ∀ k < a.ndims, (S k).getD 1 0 = row.getD k 0 := fun k hk => by simpa using hrow 0 (by omega) k hk
  have hfit : ∀ k < a.ndims, ∀ t < a.ndims, row.getD t 0 = 1 ∨ row.getD t 0 = (S k).getD (t + ((S k).length - a.ndims)) 0 := by
    intro k hk t ht
    have := (fits_iff.2 (bshape_fits (hs k hk)).1).2 t (by rw [hA]; omega)
    rwa [hA, hrl] at this
  have hd : a.ndims - 1 < a.ndims := by omega
  have h0 : 3 ≤ a.ndims → row.getD 0 0 = 1 := fun h3 => by
    have := hfit 0 hpos 0 hpos
    rw [hl 0 hpos, show 0 + (max a.ndims (0 + 1 + 2) - a.ndims) = 0 by omega, hrk 0 hpos, ha.rank_first] at this
    tauto
  have h1 : 3 ≤ a.ndims → row.getD 1 0 = 1 := fun h3 => by
    have := hfit _ hd 1 (by omega)
    rw [hl _ hd, show 1 + (max a.ndims (0 + 1 + 2) - a.ndims) = 1 by omega, hrow' _ hd, hlast] at this
    tauto
  rcases Nat.lt_or_ge a.ndims 4 with hlt | hge
  · intro k hk
    rcases Nat.lt_or_ge a.ndims 3 with h2 | h3
    · by_cases e : k = a.ndims - 1
      · rw [e]; exact hlast
      · obtain rfl : k = 0 := by omega
        have := hfit _ hd 0 hpos
        rw [hl _ hd, show 0 + (max a.ndims (0 + 1 + 2) - a.ndims) = 1 by omega, hrow' _ hd, hlast] at this
        tauto
    · by_cases e : k = a.ndims - 1
      · rw [e]; exact hlast
      · by_cases e0 : k = 0
        · rw [e0]; exact h0 h3
        · obtain rfl : k = 1 := by omega
          exact h1 h3
  · intro k hk
    have hlk : (S k).length = a.ndims := by rw [hl k hk]; omega
    have hck : (a.core k).shape.length = 3 := by rw [core_axes ha hk, hbp, hr]; rfl
    have hrank : a.rank k = 1 := by
      rcases bshape_or (hs k hk) (a.ndims - 1) (by rw [List.length_reverse]; omega) with ⟨q1, q2⟩ | ⟨q1, q2⟩
      · rw [getD_reverse' _ (by omega), getD_reverse' _ (by rw [hA]; omega), hlk, hA, hrl, Nat.sub_self, h0 (by omega), hrk k hk] at q2
        exact q2
      · rw [List.length_reverse, hck] at q1; omega
    rw [← hrow' k hk]
    rcases bshape_or (hs k hk) (a.ndims - 2) (by rw [List.length_reverse]; omega) with ⟨q1, q2⟩ | ⟨q1, q2⟩
    · rw [getD_reverse' _ (by omega), getD_reverse' _ (by rw [hA]; omega), hlk, hA, hrl, show a.ndims - 1 - (a.ndims - 2) = 1 by omega, h1 (by omega)] at q2
      exact q2
    · rw [List.length_reverse, hck] at q1
      rw [getD_reverse' _ (by omega), getD_reverse' _ (by omega), hlk, hck, show a.ndims - 1 - (a.ndims - 2) = 1 by omega,
        show 3 - 1 - (a.ndims - 2) = 0 by omega, ha.core_shape k hk] at q2
      rw [q2]
      simpa [TT.bpre, hb] using hrank

end T3f
