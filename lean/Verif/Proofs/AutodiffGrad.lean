import Verif.Proofs.Autodiff
import Verif.Spec.Autodiff

/-! # The gradient and the Hessian along a frame -/

namespace T3f

section
variable {x left right : TT ℝ}

/-- The elements of a list of tensors. -/
def elems (ds : List (Tensor ℝ)) : ℕ → List ℕ → ℝ := fun k => (ds.getD k default).get

/-- One tensor for each block. -/
structure Blocks (x left right : TT ℝ) (ds : List (Tensor ℝ)) : Prop where
  len : ds.length = x.ndims
  shape : ∀ k < x.ndims, (ds.getD k default).shape = blkShape x left right k

/-- The tangent vector with the given blocks, as a dense tensor. -/
noncomputable def vecOf (x left right : TT ℝ) (E : ℕ → List ℕ → ℝ) (i : List ℕ) : ℝ := frameVec x left right (ofElems E) (restModes x.rawShape i)

theorem vecOf_mem (E : ℕ → List ℕ → ℝ) : vecOf x left right E ∈ frameSpace x left right := ⟨_, fun _ _ => rfl⟩

theorem axpy_getD {ds es : List (Tensor ℝ)} (h : es.length = ds.length) (t : ℝ) {k : ℕ} (hk : k < ds.length) :
    (axpy ds es t).getD k default = ⟨(ds.getD k default).shape, fun i => (ds.getD k default).get i + t * (es.getD k default).get i⟩ := by
  have h1 : k < (axpy ds es t).length := by simp only [axpy, List.length_zipWith]; omega
  rw [List.getD_eq_getElem _ _ h1, List.getD_eq_getElem _ _ hk, List.getD_eq_getElem _ _ (by omega)]
  simp only [axpy, List.getElem_zipWith]

theorem Blocks.axpy {ds es : List (Tensor ℝ)} (hd : Blocks x left right ds) (he : Blocks x left right es) (t : ℝ) : Blocks x left right (axpy ds es t) := by
  have hl : es.length = ds.length := he.len.trans hd.len.symm
  refine ⟨?_, fun k hk => ?_⟩
  · rw [T3f.axpy, List.length_zipWith, hl, hd.len, min_self]
  · rw [axpy_getD hl t (by rw [hd.len]; exact hk)]; exact hd.shape k hk

theorem vecOf_axpy {ds es : List (Tensor ℝ)} (hd : Blocks x left right ds) (he : Blocks x left right es) (t : ℝ) (i : List ℕ) :
    vecOf x left right (elems (axpy ds es t)) i = vecOf x left right (elems ds) i + t * vecOf x left right (elems es) i := by
  have hl : es.length = ds.length := he.len.trans hd.len.symm
  rw [vecOf, vecOf, vecOf, ← frameVec_smul, ← frameVec_add]
  refine frameVec_congr fun k hk a _ b _ => ?_
  simp only [ofElems, elems]
  rw [axpy_getD hl t (by rw [hd.len]; exact hk)]

theorem Blocks.of_shapes {ds es : List (Tensor ℝ)} (hd : Blocks x left right ds) (h : es.map (·.shape) = ds.map (·.shape)) : Blocks x left right es := by
  obtain ⟨hl, hs⟩ := shapes_eq_iff.1 h
  exact ⟨hl.trans hd.len, fun k hk => (hs k (by rw [hd.len]; exact hk)).trans (hd.shape k hk)⟩

theorem Blocks.shapes {ds es : List (Tensor ℝ)} (hd : Blocks x left right ds) (he : Blocks x left right es) : es.map (·.shape) = ds.map (·.shape) :=
  shapes_eq_iff.2 ⟨he.len.trans hd.len.symm, fun k hk => by rw [hd.len] at hk; rw [he.shape k hk, hd.shape k hk]⟩

theorem Blocks.innerAll {gs es : List (Tensor ℝ)} (hg : Blocks x left right gs) (he : Blocks x left right es) :
    innerAll gs es = ∑ k ∈ Finset.range x.ndims, dot (blkShape x left right k) (elems gs k) (elems es k) := by
  rw [innerAll_eq (he.len.trans hg.len.symm), hg.len]
  exact Finset.sum_congr rfl fun k hk => by rw [hg.shape k (Finset.mem_range.1 hk)]; rfl

/-- The dense tensor of the object with the given blocks. -/
theorem fromBlocks_ok {qr : QRRoutine} (F : TFrame x left right) (h : x.WF) (hb : x.batch = none) (hd : 2 ≤ x.ndims)
    (hrk : ∀ k, 0 < k → k + 1 < x.ndims → right.rank k = left.rank k) {ds : List (Tensor ℝ)} (hds : Blocks x left right ds) :
    ∃ y Y, deltasToTangent qr ds x (some left) (some right) = Except.ok y ∧ IsTangent left right (fun k => ds.getD k default) y ∧ y.batch = none ∧
      full y = Except.ok Y ∧ Y.shape = restShape x.rawShape ∧ ∀ i, Valid (restShape x.rawShape) i → Y.get i = vecOf x left right (elems ds) i := by
  obtain ⟨y, e, T, yb⟩ := deltasToTangent_ok (qr := qr) F h hb hd hrk (lo := some left) (ro := some right) rfl rfl (out := none) (by simp) hds.len
    (fun k hk => hds.shape k hk)
  have hry : y.rawShape = x.rawShape := T.rows.trans F.rl
  obtain ⟨Y, eY, sY, vY⟩ := full_single T.wf yb
  rw [hry] at sY vY
  refine ⟨y, Y, e, T, yb, eY, sY, fun i hi => ?_⟩
  rw [vY i hi, T.entry_vec F (by rw [TT.bpre, yb]; trivial) (validModes_rest h hi)]
  rfl

theorem augmentedFunc_ok {qr : QRRoutine} (F : TFrame x left right) (h : x.WF) (hb : x.batch = none) (hd : 2 ≤ x.ndims)
    (hrk : ∀ k, 0 < k → k + 1 < x.ndims → right.rank k = left.rank k) {func : TT ℝ → R ℝ} {φ : (List ℕ → ℝ) → ℝ} (hf : ElementFunction x func φ)
    {ds : List (Tensor ℝ)} (hds : Blocks x left right ds) :
    augmentedFunc qr func x left right ds = Except.ok (φ (vecOf x left right (elems ds))) := by
  obtain ⟨y, Y, e, T, yb, eY, sY, vY⟩ := fromBlocks_ok (qr := qr) F h hb hd hrk hds
  rw [augmentedFunc, e, R.ok_bind, hf.value y Y T.wf yb (T.rows.trans F.rl) eY]
  congr 1
  refine hf.ext _ _ fun i hi => ?_
  rw [dense_shape_single hb] at hi
  exact vY i hi

/-- The gradient with respect to the blocks. -/
theorem augmented_gradient (h : x.WF) {f : List (Tensor ℝ) → R ℝ} {ds : List (Tensor ℝ)} (hds : Blocks x left right ds) {g : List ℕ → ℝ}
    (hu : ∀ es, Blocks x left right es → ∃ u : ℝ → ℝ, (∀ᶠ t in nhds (0 : ℝ), f (axpy ds es t) = Except.ok (u t)) ∧
      HasDerivAt u (dot (restShape x.rawShape) g (vecOf x left right (elems es))) 0) :
    ∃ gs, IsGradient f ds gs ∧ Blocks x left right gs ∧ ∀ E : ℕ → List ℕ → ℝ,
      ∑ k ∈ Finset.range x.ndims, dot (blkShape x left right k) (elems gs k) (E k) = dot (restShape x.rawShape) g (vecOf x left right E) := by
  obtain ⟨G, hGs, hG⟩ := pullback_exists (left := left) (right := right) h _ rfl g
  have hgs : Blocks x left right ((List.range x.ndims).map G) :=
    ⟨by simp, fun k hk => by rw [List.getD_eq_getElem _ _ (by simpa using hk)]; simpa using hGs k⟩
  have hel : ∀ k < x.ndims, elems ((List.range x.ndims).map G) k = (G k).get := fun k hk => by
    rw [elems, List.getD_eq_getElem _ _ (by simpa using hk)]; simp
  have hE : ∀ E : ℕ → List ℕ → ℝ, ∑ k ∈ Finset.range x.ndims, dot (blkShape x left right k) (elems ((List.range x.ndims).map G) k) (E k) =
      dot (restShape x.rawShape) g (vecOf x left right E) := fun E => by
    rw [Finset.sum_congr rfl fun k hk => by rw [hel k (Finset.mem_range.1 hk)]]
    exact hG E
  refine ⟨_, ⟨hds.shapes hgs, fun es hes => ?_⟩, hgs, hE⟩
  have hes := hds.of_shapes hes
  obtain ⟨u, h1, h2⟩ := hu es hes
  refine ⟨u, h1, ?_⟩
  rw [hgs.innerAll hes, hE]
  exact h2

/-- What a correct routine returns. -/
theorem grad_run {ad : GradRoutine} (had : ad.Correct) {f : List (Tensor ℝ) → R ℝ} {ds gs : List (Tensor ℝ)} {v : ℝ} (hv : f ds = Except.ok v)
    (hg : IsGradient f ds gs) (hgs : Blocks x left right gs) :
    ∃ gs', ad.run f ds = Except.ok (v, gs') ∧ Blocks x left right gs' ∧ ∀ E : ℕ → List ℕ → ℝ,
      ∑ k ∈ Finset.range x.ndims, dot (blkShape x left right k) (elems gs' k) (E k) =
        ∑ k ∈ Finset.range x.ndims, dot (blkShape x left right k) (elems gs k) (E k) := by
  obtain ⟨gs', e, hl, h⟩ := (had f ds).2 v gs hv hg
  refine ⟨gs', e, ⟨hl.trans hgs.len, fun k hk => ?_⟩, fun E => Finset.sum_congr rfl fun k hk => ?_⟩
  · rw [(h k (by rw [hgs.len]; exact hk)).1, hgs.shape k hk]
  · have hk := Finset.mem_range.1 hk
    have := (h k (by rw [hgs.len]; exact hk)).2
    rw [hgs.shape k hk] at this
    exact dot_congr this fun _ _ => rfl

/-- The elements of blocks. -/
def toElems (E : ℕ → List ℕ → ℕ → ℕ → ℝ) : ℕ → List ℕ → ℝ := fun k idx => E k ((idx.drop 1).dropLast) (idx.getD 0 0) (idx.getD (idx.length - 1) 0)

theorem ofElems_toElems (E : ℕ → List ℕ → ℕ → ℕ → ℝ) : ofElems (toElems E) = E := by
  funext k v a b
  simp [ofElems, toElems]

/-- The last two steps: gauge conditions, and the tangent vector with these blocks. -/
theorem gauge_finish {qr : QRRoutine} (F : TFrame x left right) (h : x.WF) (hb : x.batch = none) (hd : 2 ≤ x.ndims)
    (hrk : ∀ k ≤ x.ndims, right.rank k = left.rank k) {gs : List (Tensor ℝ)} (hgs : Blocks x left right gs) {v : List ℕ → ℝ}
    (hG : ∀ E : ℕ → List ℕ → ℝ, ∑ k ∈ Finset.range x.ndims, dot (blkShape x left right k) (elems gs k) (E k) =
      dot (restShape x.rawShape) v (vecOf x left right E)) :
    ∃ ds y, enforceGauge gs left = Except.ok ds ∧ deltasToTangent qr ds x (some left) (some right) = Except.ok y ∧
      GTangent x left right (fun k => ds.getD k default) y ∧ y.batch = none ∧
      ∃ Y, full y = Except.ok Y ∧ Y.shape = restShape x.rawShape ∧ Y.get ∈ frameSpace x left right ∧
        ∀ f ∈ frameSpace x left right, dot (restShape x.rawShape) Y.get f = dot (restShape x.rawShape) v f := by
  have hrk' : ∀ k, 0 < k → k + 1 < x.ndims → right.rank k = left.rank k := fun k _ hk => hrk k (by omega)
  obtain ⟨ds, e, hl, hs, hv⟩ := enforceGauge_ok F hrk hgs.len (fun k hk => hgs.shape k hk)
  have hds : Blocks x left right ds := ⟨hl, hs⟩
  obtain ⟨y, Y, e', T, yb, eY, sY, vY⟩ := fromBlocks_ok (qr := qr) F h hb hd hrk' hds
  obtain ⟨hg, hp⟩ := gauge_proj (qr := qr) F h hb hd hrk' (v := v) (G := ofElems (elems gs)) (D := ofElems (elems ds)) (fun E => by
    have := hG (toElems E)
    rw [show vecOf x left right (toElems E) = fun i => frameVec x left right E (restModes x.rawShape i) by
      funext i; rw [vecOf, ofElems_toElems]] at this
    rw [← this]
    refine Finset.sum_congr rfl fun k _ => ?_
    rw [dot_blkShape, ofElems_toElems]) hv
  refine ⟨ds, y, e, e', ⟨T, fun p hp => ?_⟩, yb, Y, eY, sY, ?_, fun f hf => ?_⟩
  · rw [TT.bpre, yb] at hp
    obtain rfl := (valid_nil_iff p).1 hp
    exact hg
  · exact ⟨ofElems (elems ds), vY⟩
  · rw [← hp f hf]
    exact dot_congr vY fun _ _ => rfl

/-- The initial blocks represent the point. -/
theorem pointDeltas_ok (F : TFrame x left right) (h : x.WF) (hrk : ∀ k ≤ x.ndims, right.rank k = left.rank k) :
    ∃ ds, pointDeltas right = Except.ok ds ∧ Blocks x left right ds ∧
      ∀ i, Valid (restShape x.rawShape) i → vecOf x left right (elems ds) i = x.entry [] (restModes x.rawShape i) := by
  have hpos := h.pos
  refine ⟨right.core 0 :: (right.cores.drop 1).map fun cc => zeros cc.shape, ?_, ⟨?_, ?_⟩, fun i hi => ?_⟩
  · rw [pointDeltas, F.cr hpos]; rfl
  · have : right.cores.length = x.ndims := F.nr
    simp; omega
  · rintro k hk
    have hkl : k < right.cores.length := by rw [show right.cores.length = x.ndims from F.nr]; exact hk
    have hsr := F.sr hk
    rw [hrk k hk.le] at hsr
    cases k with
    | zero => exact hsr
    | succ k =>
      rw [List.getD_cons_succ, List.getD_eq_getElem _ _ (by simp; omega)]
      simp only [List.getElem_map, List.getElem_drop]
      show (right.cores[1 + k]).shape = _
      rw [blkShape, ← hsr, TT.core, List.getD_eq_getElem _ _ hkl]
      simp only [Nat.add_comm]
  · set m := restModes x.rawShape i
    have hm : ∀ j < x.ndims, Valid (x.modes j) (m j) := validModes_rest h hi
    rw [← F.er m hm, TT.entry, F.nr, vecOf, frameVec]
    rw [Finset.sum_eq_single_of_mem 0 (Finset.mem_range.2 hpos)]
    · obtain ⟨d, hd⟩ : ∃ d, x.ndims = d + 1 := ⟨x.ndims - 1, by omega⟩
      have hrd := F.rd
      rw [hd] at hrd ⊢
      have := lprod_split right.rank (right.slice [] m) (d + 1) 0 (by rw [Nat.zero_add]; exact hrd)
      rw [Nat.zero_add] at this
      rw [this, F.l0, F.wr.rank_first, Finset.sum_range_one, Finset.sum_range_one, rprod]
      simp only [lprod, if_true, one_mul, Nat.add_sub_cancel, Nat.sub_zero]
      rfl
    · intro k hk hk0
      refine Finset.sum_eq_zero fun a _ => Finset.sum_eq_zero fun b _ => ?_
      have : ofElems (elems (right.core 0 :: (right.cores.drop 1).map fun cc => zeros cc.shape)) k (m k) a b = 0 := by
        obtain ⟨k, rfl⟩ : ∃ k', k = k' + 1 := ⟨k - 1, by omega⟩
        have hk := Finset.mem_range.1 hk
        have hkl : k + 1 < right.cores.length := by rw [show right.cores.length = x.ndims from F.nr]; exact hk
        rw [ofElems, elems, List.getD_cons_succ, List.getD_eq_getElem _ _ (by simp; omega)]
        simp [zeros]
      rw [this, mul_zero, zero_mul]

/-! ## The gradient -/

theorem runtimeCheck_ok {func : TT ℝ → R ℝ} {v : ℝ} (hv : func x = Except.ok v) {w : ℝ} {check : Bool} (h : check = true → w ≠ 0 ∧ |(w - v) / w| < 1 / 100000) :
    runtimeCheck func x check w = Except.ok () := by
  unfold runtimeCheck
  cases check with
  | false => rfl
  | true =>
    rw [if_pos rfl, hv, R.ok_bind]
    exact require_pos (h rfl) _

theorem runtimeCheck_error {func : TT ℝ → R ℝ} {v : ℝ} (hv : func x = Except.ok v) : runtimeCheck func x true 0 = Except.error Err.tf := by
  unfold runtimeCheck
  rw [if_pos rfl, hv, R.ok_bind]
  exact require_neg (fun h => h.1 rfl) _

/-- The value and the gradient at given blocks. -/
theorem inner_run {qr : QRRoutine} {ad : GradRoutine} (had : ad.Correct) (F : TFrame x left right) (h : x.WF) (hb : x.batch = none) (hd : 2 ≤ x.ndims)
    (hrk : ∀ k, 0 < k → k + 1 < x.ndims → right.rank k = left.rank k) {func : TT ℝ → R ℝ} {φ : (List ℕ → ℝ) → ℝ} (hf : ElementFunction x func φ)
    {ds : List (Tensor ℝ)} (hds : Blocks x left right ds) {g : List ℕ → ℝ} (hg : GradAt (restShape x.rawShape) φ (vecOf x left right (elems ds)) g) :
    ∃ gs, ad.run (augmentedFunc qr func x left right) ds = Except.ok (φ (vecOf x left right (elems ds)), gs) ∧ Blocks x left right gs ∧
      ∀ E : ℕ → List ℕ → ℝ, ∑ k ∈ Finset.range x.ndims, dot (blkShape x left right k) (elems gs k) (E k) =
        dot (restShape x.rawShape) g (vecOf x left right E) := by
  obtain ⟨gs, h1, h2, h3⟩ := augmented_gradient (left := left) (right := right) h (f := augmentedFunc qr func x left right)
    hds (g := g) (fun es hes => ⟨fun t => φ (vecOf x left right (elems (axpy ds es t))), Filter.Eventually.of_forall fun t =>
      augmentedFunc_ok F h hb hd hrk hf (hds.axpy hes t), by
        have := hg (vecOf x left right (elems es))
        simpa only [← vecOf_axpy hds hes] using this⟩)
  obtain ⟨gs', e, h2', h3'⟩ := grad_run had (augmentedFunc_ok F h hb hd hrk hf hds) h1 h2
  exact ⟨gs', e, h2', fun E => (h3' E).trans (h3 E)⟩

theorem GradAt.congr {s : List ℕ} {φ : (List ℕ → ℝ) → ℝ} (hφ : ∀ f g, (∀ i, Valid s i → f i = g i) → φ f = φ g) {X X' g : List ℕ → ℝ}
    (h : GradAt s φ X g) (hX : ∀ i, Valid s i → X' i = X i) : GradAt s φ X' g := fun e => by
  have : (fun t : ℝ => φ (fun i => X' i + t * e i)) = fun t => φ (fun i => X i + t * e i) := by
    funext t
    exact hφ _ _ fun i hi => by rw [hX i hi]
  rw [this]
  exact h e

theorem gradients_ok {qr : QRRoutine} {ad : GradRoutine} (had : ad.Correct) (F : TFrame x left right)
    (hl : orthogonalize qr x true = Except.ok left) (hr : orthogonalize qr left false = Except.ok right)
    (h : x.WF) (hb : x.batch = none) (hd : 2 ≤ x.ndims)
    (hrk : ∀ k ≤ x.ndims, right.rank k = left.rank k) {func : TT ℝ → R ℝ} {φ : (List ℕ → ℝ) → ℝ} (hf : ElementFunction x func φ)
    {X : Tensor ℝ} (eX : full x = Except.ok X) {g : List ℕ → ℝ} (hg : GradAt x.dense.shape φ X.get g) {check : Bool} (hc : check = true → φ X.get ≠ 0) :
    ∃ y D, gradients qr ad func x check = Except.ok y ∧ GTangent x left right D y ∧ y.batch = none ∧
      ∃ Y, full y = Except.ok Y ∧ Y.shape = restShape x.rawShape ∧ Y.get ∈ frameSpace x left right ∧
        ∀ f ∈ frameSpace x left right, dot (restShape x.rawShape) Y.get f = dot (restShape x.rawShape) g f := by
  have hrk' : ∀ k, 0 < k → k + 1 < x.ndims → right.rank k = left.rank k := fun k _ hk => hrk k (by omega)
  obtain ⟨ds, e, hds, hv⟩ := pointDeltas_ok F h hrk
  obtain ⟨X', eX', _, vX⟩ := full_single h hb
  obtain rfl : X' = X := Except.ok.inj (eX'.symm.trans eX)
  have hφ := hf.ext
  rw [dense_shape_single hb] at hφ hg
  have hpt : ∀ i, Valid (restShape x.rawShape) i → vecOf x left right (elems ds) i = X'.get i := fun i hi => (hv i hi).trans (vX i hi).symm
  obtain ⟨gs, e1, hgs, hE⟩ := inner_run (qr := qr) had F h hb hd hrk' hf hds (hg.congr hφ hpt)
  rw [hφ _ _ hpt] at e1
  obtain ⟨ds', y, e2, e3, T, yb, hY⟩ := gauge_finish (qr := qr) F h hb hd hrk hgs hE
  refine ⟨y, _, ?_, T, yb, hY⟩
  unfold gradients
  rw [hl, R.ok_bind, hr, R.ok_bind, e, R.ok_bind, e1, R.ok_bind]
  simp only []
  rw [runtimeCheck_ok (hf.value x X' h hb rfl eX) fun hch => ⟨hc hch, by rw [sub_self, zero_div, abs_zero]; norm_num⟩, R.ok_bind, e2, R.ok_bind, e3]

/-! ## The product of the Hessian and a vector -/

theorem sumProducts_ok {a b : List (Tensor ℝ)} (h : List.Forall₂ (fun s t => t.shape = s.shape) a b) : sumProducts a b = Except.ok (innerAll a b) := by
  have : ∃ l, (List.zip a b).mapM (fun c => do
      let p ← binop (· * ·) c.1 c.2
      pure (reduceSum p)) = Except.ok l ∧ l.sum = innerAll a b := by
    induction h with
    | nil => exact ⟨[], rfl, rfl⟩
    | @cons s t a b hst _ ih =>
      obtain ⟨l, e, hl⟩ := ih
      obtain ⟨P, eP, sP, vP⟩ := binop_same (· * ·) (A := s) (B := t) rfl hst
      refine ⟨reduceSum P :: l, ?_, ?_⟩
      · rw [List.zip_cons_cons, List.mapM_cons, eP, R.ok_bind]
        simp only [pure_bind]
        rw [e]; rfl
      · rw [List.sum_cons, hl, innerAll, innerAll, List.zipWith_cons_cons, List.sum_cons]
        congr 1
        rw [reduceSum, sP]
        exact Finset.sum_congr rfl fun n hn => vP _ (unravel_valid (Finset.mem_range.1 hn))
  obtain ⟨l, e, hl⟩ := this
  unfold sumProducts
  rw [e, R.ok_bind, hl]
  rfl

theorem Blocks.forall₂ {a b : List (Tensor ℝ)} (ha : Blocks x left right a) (hb : Blocks x left right b) : List.Forall₂ (fun s t => t.shape = s.shape) a b := by
  rw [List.forall₂_iff_get]
  refine ⟨ha.len.trans hb.len.symm, fun k h1 h2 => ?_⟩
  have h3 := ha.shape k (by rw [← ha.len]; exact h1)
  have h4 := hb.shape k (by rw [← ha.len]; exact h1)
  rw [List.getD_eq_getElem _ _ h1] at h3
  rw [List.getD_eq_getElem _ _ h2] at h4
  exact h4.trans h3.symm

theorem hessian_ok {qr : QRRoutine} {ad : GradRoutine} (had : ad.Correct) (F : TFrame x left right) (hF : tangentFrame qr x = Except.ok (left, right))
    (h : x.WF) (hb : x.batch = none) (hd : 2 ≤ x.ndims)
    (hrk : ∀ k ≤ x.ndims, right.rank k = left.rank k) {func : TT ℝ → R ℝ} {φ : (List ℕ → ℝ) → ℝ} (hf : ElementFunction x func φ)
    {X : Tensor ℝ} (eX : full x = Except.ok X) {grad H : (List ℕ → ℝ) → List ℕ → ℝ} (hH : HessAt x.dense.shape φ grad X.get H)
    {check : Bool} (hc : check = true → φ X.get ≠ 0) {z p : TT ℝ} (hz : z.WF) (hzb : z.batch = none) (hzr : z.rawShape = x.rawShape)
    (ep : project qr z x = Except.ok p) {P : Tensor ℝ} (eP : full p = Except.ok P) :
    ∃ y D, hessianVectorProduct qr ad func x z check = Except.ok y ∧ GTangent x left right D y ∧ y.batch = none ∧
      ∃ Y, full y = Except.ok Y ∧ Y.shape = restShape x.rawShape ∧ Y.get ∈ frameSpace x left right ∧
        ∀ f ∈ frameSpace x left right, dot (restShape x.rawShape) Y.get f = dot (restShape x.rawShape) (H P.get) f := by
  obtain ⟨hl, hr⟩ := tangentFrame_inv hF
  have hrk' : ∀ k, 0 < k → k + 1 < x.ndims → right.rank k = left.rank k := fun k _ hk => hrk k (by omega)
  have hHv : Halves x left right := halves_of F fun k _ h1 => by rw [hrk k h1.le]; omega
  obtain ⟨ds, e, hds, hv⟩ := pointDeltas_ok F h hrk
  obtain ⟨X', eX', _, vX⟩ := full_single h hb
  obtain rfl : X' = X := Except.ok.inj (eX'.symm.trans eX)
  have hφ := hf.ext
  rw [dense_shape_single hb] at hφ hH
  have hpt : ∀ i, Valid (restShape x.rawShape) i → vecOf x left right (elems ds) i = X'.get i := fun i hi => (hv i hi).trans (vX i hi).symm
  obtain ⟨p', D, ep', T, pb, -⟩ := project_ok h hb hd hF F hz hzr
  obtain rfl : p' = p := Except.ok.inj (ep'.symm.trans ep)
  rw [hzb] at pb
  obtain ⟨vs, ev, hvl, hvv⟩ := tangentSpaceToDeltas_ok F hd hHv hrk' T 0
  have hbs : ∀ k < x.ndims, (D k).shape = blkShape x left right k := fun k hk => by
    rw [T.blkShape k (by rw [F.nl]; exact hk), F.ml, TT.bpre, pb]; rfl
  have hvs : Blocks x left right vs := ⟨hvl, fun k hk => (hvv k hk).1.trans (hbs k hk)⟩
  obtain ⟨P', eP', sP, vP⟩ := full_single T.wf pb
  obtain rfl : P' = P := Except.ok.inj (eP'.symm.trans eP)
  rw [T.rows.trans F.rl] at vP
  have hPv : ∀ i, Valid (restShape x.rawShape) i → vecOf x left right (elems vs) i = P'.get i := fun i hi => by
    have hm := validModes_rest h hi
    rw [vP i hi, T.entry_vec F (by rw [TT.bpre, pb]; trivial) hm]
    refine frameVec_congr fun k hk a ha b hb' => ?_
    refine (hvv k hk).2 _ ?_
    rw [hvs.shape k hk]
    exact valid_rmr ha (hm k hk) hb'
  -- the outer function
  have houter : ∀ ds', Blocks x left right ds' → ∀ g, GradAt (restShape x.rawShape) φ (vecOf x left right (elems ds')) g →
      (check = true → φ (vecOf x left right (elems ds')) ≠ 0 ∧
        |(φ (vecOf x left right (elems ds')) - φ X'.get) / φ (vecOf x left right (elems ds'))| < 1 / 100000) →
      augmentedOuter qr ad func x left right z check ds' = Except.ok (dot (restShape x.rawShape) g P'.get) := by
    intro ds' hds' g hg hch
    obtain ⟨gs, e1, hgs, hE⟩ := inner_run (qr := qr) had F h hb hd hrk' hf hds' hg
    unfold augmentedOuter
    rw [e1, R.ok_bind]
    simp only []
    rw [runtimeCheck_ok (hf.value x X' h hb rfl eX) hch, R.ok_bind, ep, R.ok_bind, ev, R.ok_bind, sumProducts_ok (hgs.forall₂ hvs), hgs.innerAll hvs, hE]
    congr 1
    exact dot_congr (fun _ _ => rfl) hPv
  have hg0 : GradAt (restShape x.rawShape) φ X'.get (grad fun i => X'.get i + 0 * 0) :=
    (hH.near (fun _ => 0)).self_of_nhds.congr hφ fun i _ => by rw [mul_zero, add_zero]
  have hline : ∀ es, Blocks x left right es → ∀ t : ℝ, ∀ i, Valid (restShape x.rawShape) i → vecOf x left right (elems (axpy ds es t)) i =
      X'.get i + t * vecOf x left right (elems es) i := fun es hes t i hi => by rw [vecOf_axpy hds hes, hpt i hi]
  have hcheck : ∀ es, Blocks x left right es → check = true → ∀ᶠ t in nhds (0 : ℝ), φ (vecOf x left right (elems (axpy ds es t))) ≠ 0 ∧
      |(φ (vecOf x left right (elems (axpy ds es t))) - φ X'.get) / φ (vecOf x left right (elems (axpy ds es t)))| < 1 / 100000 := by
    intro es hes hch
    have h0 := hc hch
    have hcont : ContinuousAt (fun t : ℝ => φ (vecOf x left right (elems (axpy ds es t)))) 0 := by
      have := hg0 (vecOf x left right (elems es))
      have e0 : (fun t : ℝ => φ (fun i => X'.get i + t * vecOf x left right (elems es) i)) = fun t => φ (vecOf x left right (elems (axpy ds es t))) := by
        funext t
        exact hφ _ _ fun i hi => by rw [hline es hes t i hi]
      rw [e0] at this
      exact this.continuousAt
    have hval : φ (vecOf x left right (elems (axpy ds es 0))) = φ X'.get := hφ _ _ fun i hi => by rw [hline es hes 0 i hi, zero_mul, add_zero]
    have h1 : ∀ᶠ t in nhds (0 : ℝ), φ (vecOf x left right (elems (axpy ds es t))) ≠ 0 := hcont.eventually_ne (by rw [hval]; exact h0)
    have hcont2 : ContinuousAt (fun t : ℝ => |(φ (vecOf x left right (elems (axpy ds es t))) - φ X'.get) / φ (vecOf x left right (elems (axpy ds es t)))|) 0 :=
      ((hcont.sub continuousAt_const).div hcont (by rw [hval]; exact h0)).abs
    have h2 := hcont2.eventually_lt (g := fun _ => (1 / 100000 : ℝ)) continuousAt_const (by
      rw [hval, sub_self, zero_div, abs_zero]; norm_num)
    exact h1.and h2
  obtain ⟨gs, h1, h2, h3⟩ := augmented_gradient (left := left) (right := right) h (f := augmentedOuter qr ad func x left right z check)
    hds (g := H P'.get) (fun es hes => ⟨_, by
      have hch : ∀ᶠ t in nhds (0 : ℝ), check = true → φ (vecOf x left right (elems (axpy ds es t))) ≠ 0 ∧
          |(φ (vecOf x left right (elems (axpy ds es t))) - φ X'.get) / φ (vecOf x left right (elems (axpy ds es t)))| < 1 / 100000 := by
        by_cases hch : check = true
        · filter_upwards [hcheck es hes hch] with t ht _ using ht
        · exact Filter.Eventually.of_forall fun t ht => absurd ht hch
      filter_upwards [hH.near (vecOf x left right (elems es)), hch] with t ht hch
      exact houter _ (hds.axpy hes t) _ (ht.congr hφ (hline es hes t)) hch, hH.hess P'.get (vecOf x left right (elems es))⟩)
  have hval := houter ds hds _ (hg0.congr hφ hpt) fun hch => by
    rw [hφ _ _ hpt, sub_self, zero_div, abs_zero]
    exact ⟨hc hch, by norm_num⟩
  obtain ⟨gs', e1, h2', h3'⟩ := grad_run had hval h1 h2
  obtain ⟨ds', y, e2, e3, T', yb, hY⟩ := gauge_finish (qr := qr) F h hb hd hrk h2' (fun E => (h3' E).trans (h3 E))
  refine ⟨y, _, ?_, T', yb, hY⟩
  unfold hessianVectorProduct
  rw [hl, R.ok_bind, hr, R.ok_bind, e, R.ok_bind, e1, R.ok_bind]
  simp only []
  rw [e2, R.ok_bind, e3]

end

end T3f
