import Verif.Model.Decompositions
import Verif.Model.Gather

/-!
# Two runs on data of equal shapes

`RR r x y`: both calls raise the same exception or both return, with results related by `r`. The primitives of TensorFlow are related if their arguments have
equal shapes.
-/

namespace T3f

/-- Both calls raise the same exception, or both return and the results are related. -/
def RR {α β : Type} (r : α → β → Prop) : R α → R β → Prop
  | .ok a, .ok b => r a b
  | .error e, .error f => e = f
  | _, _ => False

/-- Tensors of equal shape. -/
def SameT {K L : Type} (a : Tensor K) (b : Tensor L) : Prop := a.shape = b.shape

/-- Lists of tensors of equal shapes. -/
abbrev SameL {K L : Type} (a : List (Tensor K)) (b : List (Tensor L)) : Prop := List.Forall₂ SameT a b

/-- Pairs of related components. -/
def SameP {α β γ δ : Type} (r : α → β → Prop) (s : γ → δ → Prop) : α × γ → β × δ → Prop
  | (a, c), (b, d) => r a b ∧ s c d

/-- Absent, or present and related. -/
def SameO {α β : Type} (r : α → β → Prop) : Option α → Option β → Prop
  | none, none => True
  | some a, some b => r a b
  | _, _ => False

/-- TT objects whose cores have equal shapes and whose other attributes are equal. -/
structure SameTT {K L : Type} (t : TT K) (u : TT L) : Prop where
  cores : SameL t.cores u.cores
  raw : t.rawShape = u.rawShape
  ranks : t.ttRanks = u.ttRanks
  batch : t.batch = u.batch

section
variable {K L : Type} {α β γ δ : Type}

theorem RR.ok {r : α → β → Prop} {a : α} {b : β} (h : r a b) : RR r (Except.ok a) (Except.ok b) := h

theorem RR.pure {r : α → β → Prop} {a : α} {b : β} (h : r a b) : RR r (Pure.pure a) (Pure.pure b) := h

theorem RR.error {r : α → β → Prop} (e : Err) : RR r (Except.error e) (Except.error e) := rfl

theorem RR.throw {r : α → β → Prop} (e : Err) : RR r (MonadExcept.throw e) (MonadExcept.throw e) := rfl

theorem RR.refl (x : R α) : RR Eq x x := by cases x <;> exact rfl

theorem RR.of_eq {x y : R α} (h : x = y) : RR Eq x y := h ▸ RR.refl x

theorem RR.bind {r : α → β → Prop} {s : γ → δ → Prop} {x : R α} {y : R β} {f : α → R γ} {g : β → R δ} (h : RR r x y) (k : ∀ a b, r a b → RR s (f a) (g b)) :
    RR s (x >>= f) (y >>= g) := by
  match x, y, h with
  | .ok a, .ok b, h => exact k a b h
  | .error e, .error _, h => cases h; exact rfl

theorem RR.map {r : α → β → Prop} {s : γ → δ → Prop} {x : R α} {y : R β} {f : α → γ} {g : β → δ} (h : RR r x y) (k : ∀ a b, r a b → s (f a) (g b)) :
    RR s (f <$> x) (g <$> y) := by
  match x, y, h with
  | .ok a, .ok b, h => exact k a b h
  | .error e, .error _, h => cases h; exact rfl

theorem RR.mono {r s : α → β → Prop} {x : R α} {y : R β} (h : RR r x y) (k : ∀ a b, r a b → s a b) : RR s x y := by
  match x, y, h with
  | .ok a, .ok b, h => exact k a b h
  | .error e, .error _, h => cases h; exact rfl

theorem RR.ite {r : α → β → Prop} {c c' : Prop} [Decidable c] [Decidable c'] (hc : c ↔ c') {x x' : R α} {y y' : R β} (h1 : c → RR r x y) (h2 : ¬ c → RR r x' y') :
    RR r (if c then x else x') (if c' then y else y') := by
  by_cases h : c
  · rw [if_pos h, if_pos (hc.1 h)]; exact h1 h
  · rw [if_neg h, if_neg (fun h' => h (hc.2 h'))]; exact h2 h

theorem RR.require {c c' : Prop} [Decidable c] [Decidable c'] (hc : c ↔ c') (e : Err) : RR Eq (require c e) (require c' e) :=
  RR.ite hc (fun _ => rfl) (fun _ => rfl)

theorem RR.forRange {r : α → β → Prop} {f : ℕ → α → R α} {g : ℕ → β → R β} (h : ∀ i s u, r s u → RR r (f i s) (g i u)) :
    ∀ (n a : ℕ) (s : α) (u : β), r s u → RR r (forRange f a n s) (forRange g a n u)
  | 0, _, _, _, hs => hs
  | n + 1, a, s, u, hs => RR.bind (h a s u hs) fun s' u' hs' => RR.forRange h n (a + 1) s' u' hs'

theorem RR.forReversed {r : α → β → Prop} {f : ℕ → α → R α} {g : ℕ → β → R β} (h : ∀ i s u, r s u → RR r (f i s) (g i u)) :
    ∀ (n : ℕ) (s : α) (u : β), r s u → RR r (forReversed f n s) (forReversed g n u)
  | 0, _, _, hs => hs
  | n + 1, s, u, hs => RR.bind (h n s u hs) fun s' u' hs' => RR.forReversed h n s' u' hs'

theorem RR.mapM {ι κ : Type} {q : ι → κ → Prop} {r : α → β → Prop} {f : ι → R α} {g : κ → R β} (h : ∀ i j, q i j → RR r (f i) (g j)) :
    ∀ {l : List ι} {m : List κ}, List.Forall₂ q l m → RR (List.Forall₂ r) (l.mapM f) (m.mapM g) := by
  intro l m hlm
  induction hlm with
  | nil => simp only [List.mapM_nil]; exact List.Forall₂.nil
  | cons h1 _ ih =>
    simp only [List.mapM_cons]
    exact RR.bind (h _ _ h1) fun a b hab => RR.bind ih fun as bs habs => List.Forall₂.cons hab habs

theorem forall₂_refl (l : List α) : List.Forall₂ Eq l l := by
  induction l with
  | nil => exact .nil
  | cons a l ih => exact .cons rfl ih

theorem RR.mapRange {r : α → β → Prop} {f : ℕ → R α} {g : ℕ → R β} {n m : ℕ} (hn : n = m) (h : ∀ i, RR r (f i) (g i)) :
    RR (List.Forall₂ r) (mapRange n f) (mapRange m g) := by
  subst hn
  exact RR.mapM (q := Eq) (fun i j hij => hij ▸ h i) (forall₂_refl _)

theorem RR.pyGet {r : α → β → Prop} : ∀ {l : List α} {m : List β}, List.Forall₂ r l m → ∀ i, RR r (pyGet l i) (pyGet m i) := by
  intro l m h
  induction h with
  | nil => intro i; exact rfl
  | cons h1 _ ih => intro i; cases i with
    | zero => exact h1
    | succ i => exact ih i

theorem forall₂_getLast? {r : α → β → Prop} {l : List α} {m : List β} (h : List.Forall₂ r l m) : SameO r l.getLast? m.getLast? := by
  induction h with
  | nil => exact trivial
  | cons h1 h2 ih =>
    cases h2 with
    | nil => exact h1
    | cons h3 h4 => rw [List.getLast?_cons_cons, List.getLast?_cons_cons]; exact ih

theorem RR.pyLast {r : α → β → Prop} {l : List α} {m : List β} (h : List.Forall₂ r l m) : RR r (pyLast l) (pyLast m) := by
  have h1 := forall₂_getLast? h
  unfold T3f.pyLast
  match l.getLast?, m.getLast?, h1 with
  | none, none, _ => exact rfl
  | some _, some _, h => exact h

theorem forall₂_set {r : α → β → Prop} {l : List α} {m : List β} (h : List.Forall₂ r l m) {a : α} {b : β} (hab : r a b) : ∀ i, List.Forall₂ r (l.set i a) (m.set i b) := by
  induction h with
  | nil => intro i; exact .nil
  | cons h1 h2 ih => intro i; cases i with
    | zero => exact .cons hab h2
    | succ i => exact .cons h1 (ih i)

theorem forall₂_replicate {r : α → β → Prop} {a : α} {b : β} (h : r a b) : ∀ n, List.Forall₂ r (List.replicate n a) (List.replicate n b)
  | 0 => .nil
  | n + 1 => .cons h (forall₂_replicate h n)

theorem forall₂_append {r : α → β → Prop} {l l' : List α} {m m' : List β} (h : List.Forall₂ r l m) (h' : List.Forall₂ r l' m') : List.Forall₂ r (l ++ l') (m ++ m') :=
  List.rel_append h h'

theorem forall₂_dropLast {r : α → β → Prop} {l : List α} {m : List β} (h : List.Forall₂ r l m) : List.Forall₂ r l.dropLast m.dropLast := by
  induction h with
  | nil => exact .nil
  | cons h1 h2 ih => cases h2 with
    | nil => exact .nil
    | cons h3 h4 => rw [List.dropLast_cons_cons, List.dropLast_cons_cons]; exact .cons h1 ih

theorem SameL.shapes {a : List (Tensor K)} {b : List (Tensor L)} (h : SameL a b) : a.map (·.shape) = b.map (·.shape) := by
  induction h with
  | nil => rfl
  | cons h1 _ ih => rw [List.map_cons, List.map_cons, ih, h1]

theorem SameTT.ndims {t : TT K} {u : TT L} (h : SameTT t u) : t.ndims = u.ndims := h.cores.length_eq

theorem SameTT.isBatch {t : TT K} {u : TT L} (h : SameTT t u) : t.isBatch = u.isBatch := by rw [TT.isBatch, TT.isBatch, h.batch]

theorem SameTT.isMatrix {t : TT K} {u : TT L} (h : SameTT t u) : t.isMatrix ↔ u.isMatrix := by rw [TT.isMatrix, TT.isMatrix, h.raw]

theorem SameTT.left {t : TT K} {u : TT L} (h : SameTT t u) : t.leftRankDim = u.leftRankDim := by rw [TT.leftRankDim, TT.leftRankDim, h.isBatch]

theorem SameTT.right {t : TT K} {u : TT L} (h : SameTT t u) : t.rightRankDim = u.rightRankDim := by
  simp only [TT.rightRankDim, h.isBatch, h.isMatrix]

theorem SameTT.getShape {t : TT K} {u : TT L} (h : SameTT t u) : t.getShape = u.getShape := by
  simp only [TT.getShape, h.isMatrix, h.raw, h.batch]

theorem SameTT.lazyBatchSize {t : TT K} {u : TT L} (h : SameTT t u) : t.lazyBatchSize = u.lazyBatchSize := by
  rw [TT.lazyBatchSize, TT.lazyBatchSize, h.batch]

theorem SameTT.broadcast {t t' : TT K} {u u' : TT L} (h : SameTT t u) (h' : SameTT t' u') :
    isBatchBroadcastingPossible t t' = isBatchBroadcastingPossible u u' := by
  rw [isBatchBroadcastingPossible, isBatchBroadcastingPossible, h.batch, h'.batch]

theorem SameTT.coreModes {t : TT K} {u : TT L} (h : SameTT t u) (i : ℕ) : coreModes t i = coreModes u i := by
  rw [T3f.coreModes, T3f.coreModes, h.raw]

/-! ## TensorFlow -/

theorem RR.reshape {a : Tensor K} {b : Tensor L} (h : SameT a b) {s s' : List (Option ℕ)} (hs : s = s') : RR SameT (reshape a s) (reshape b s') := by
  subst hs
  unfold T3f.reshape
  rw [h]
  exact RR.bind (RR.refl _) fun x _ hx => by subst hx; exact rfl

theorem RR.transpose {a : Tensor K} {b : Tensor L} (h : SameT a b) {s s' : List ℕ} (hs : s = s') : RR SameT (transpose a s) (transpose b s') := by
  subst hs
  unfold T3f.transpose
  refine RR.ite (by rw [h]) (fun _ => ?_) fun _ => rfl
  show List.map _ _ = List.map _ _
  rw [h]

theorem RR.expandDims {a : Tensor K} {b : Tensor L} (h : SameT a b) {k k' : ℕ} (hk : k = k') : RR SameT (expandDims a k) (expandDims b k') := by
  subst hk
  unfold T3f.expandDims
  refine RR.ite (by rw [h]) (fun _ => ?_) fun _ => rfl
  show List.insertIdx _ _ _ = List.insertIdx _ _ _
  rw [h]

theorem RR.squeezeAxis {a : Tensor K} {b : Tensor L} (h : SameT a b) {k k' : ℕ} (hk : k = k') : RR SameT (squeezeAxis a k) (squeezeAxis b k') := by
  subst hk
  unfold T3f.squeezeAxis
  refine RR.ite (by rw [h]) (fun _ => ?_) fun _ => rfl
  show List.eraseIdx _ _ = List.eraseIdx _ _
  rw [h]

theorem SameT.squeezeAll {a : Tensor K} {b : Tensor L} (h : SameT a b) : SameT (squeezeAll a) (squeezeAll b) := by
  show List.filter _ _ = List.filter _ _
  rw [h]

theorem RR.concat2 {a a' : Tensor K} {b b' : Tensor L} (h : SameT a b) (h' : SameT a' b') (k : ℕ) : RR SameT (concat2 k a a') (concat2 k b b') := by
  unfold T3f.concat2
  refine RR.ite (by rw [h, h']) (fun _ => ?_) fun _ => rfl
  show List.set _ _ _ = List.set _ _ _
  rw [h, h']

theorem RR.concat {a : List (Tensor K)} {b : List (Tensor L)} (h : SameL a b) {k k' : ℕ} (hk : k = k') : RR SameT (concat k a) (concat k' b) := by
  subst hk
  induction h with
  | nil => exact rfl
  | cons h1 h2 ih =>
    cases h2 with
    | nil =>
      unfold T3f.concat
      exact RR.ite (by rw [h1]) (fun _ => h1) fun _ => rfl
    | cons h3 h4 => exact RR.bind ih fun x y hxy => RR.concat2 h1 hxy k

theorem RR.tile {a : Tensor K} {b : Tensor L} (h : SameT a b) {s s' : List ℕ} (hs : s = s') : RR SameT (tile a s) (tile b s') := by
  subst hs
  unfold T3f.tile
  refine RR.ite (by rw [h]) (fun _ => ?_) fun _ => rfl
  show List.zipWith _ _ _ = List.zipWith _ _ _
  rw [h]

theorem RR.getItem {a : Tensor K} {b : Tensor L} (h : SameT a b) {s s' : List Ix} (hs : s = s') : RR SameT (getItem a s) (getItem b s') := by
  subst hs
  unfold T3f.getItem
  rw [h]
  exact RR.bind (RR.refl _) fun x _ hx => by subst hx; exact rfl

theorem RR.binop {f : K → K → K} {g : L → L → L} {a a' : Tensor K} {b b' : Tensor L} (h : SameT a b) (h' : SameT a' b') : RR SameT (binop f a a') (binop g b b') := by
  unfold T3f.binop
  rw [h, h']
  cases bshape b.shape.reverse b'.shape.reverse <;> exact rfl

theorem SameT.map {K' L' : Type} {f : K → K'} {g : L → L'} {a : Tensor K} {b : Tensor L} (h : SameT a b) : SameT (a.map f) (b.map g) := h

theorem RR.bmatmul [Semiring K] [Semiring L] {a a' : Tensor K} {b b' : Tensor L} (h : SameT a b) (h' : SameT a' b') : RR SameT (bmatmul a a') (bmatmul b b') := by
  obtain ⟨s, f⟩ := a
  obtain ⟨s', f'⟩ := a'
  obtain ⟨_, g⟩ := b
  obtain ⟨_, g'⟩ := b'
  obtain rfl : s = _ := h
  obtain rfl : s' = _ := h'
  unfold T3f.bmatmul
  simp only
  generalize s.reverse = x
  generalize s'.reverse = y
  match x, y with
  | k :: m :: pa, n :: k' :: pb =>
    simp only
    cases bshape pa pb with
    | none => exact rfl
    | some p => exact RR.ite Iff.rfl (fun _ => rfl) fun _ => rfl
  | [], _ => exact rfl
  | [_], _ => exact rfl
  | _ :: _ :: _, [] => exact rfl
  | _ :: _ :: _, [_] => exact rfl

theorem RR.matmul [Semiring K] [Semiring L] {a a' : Tensor K} {b b' : Tensor L} (h : SameT a b) (h' : SameT a' b') : RR SameT (matmul a a') (matmul b b') := by
  have hb := RR.bmatmul h h'
  obtain ⟨s, f⟩ := a
  obtain ⟨s', f'⟩ := a'
  obtain ⟨_, g⟩ := b
  obtain ⟨_, g'⟩ := b'
  obtain rfl : s = _ := h
  obtain rfl : s' = _ := h'
  match s, s', hb with
  | [m, k], [k', n], _ => exact RR.ite Iff.rfl (fun _ => rfl) fun _ => rfl
  | [p, m, k], [p', k', n], hb => exact RR.ite Iff.rfl (fun _ => rfl) fun _ => hb
  | [], _, hb => exact hb
  | [_], _, hb => exact hb
  | _ :: _ :: _ :: _ :: _, _, hb => exact hb
  | [_, _], [], hb => exact hb
  | [_, _], [_], hb => exact hb
  | [_, _], _ :: _ :: _ :: _, hb => exact hb
  | [_, _, _], [], hb => exact hb
  | [_, _, _], [_], hb => exact hb
  | [_, _, _], [_, _], hb => exact hb
  | [_, _, _], _ :: _ :: _ :: _ :: _, hb => exact hb

theorem SameL.einDims {a : List (Tensor K)} {b : List (Tensor L)} (h : SameL a b) (ins : List (List Char)) : einDims ins a = einDims ins b := by
  unfold T3f.einDims
  congr 1
  induction h generalizing ins with
  | nil => cases ins <;> rfl
  | cons h1 _ ih => cases ins with
    | nil => rfl
    | cons l ins => rw [List.zipWith_cons_cons, List.zipWith_cons_cons, ih, h1]

theorem RR.einsum {_ : CommSemiring K} {_ : CommSemiring L} {a : List (Tensor K)} {b : List (Tensor L)} (h : SameL a b) {s s' : List (List Char) × List Char} (hs : s = s') :
    RR SameT (einsum s a) (einsum s' b) := by
  subst hs
  unfold T3f.einsum
  refine RR.ite ?_ (fun _ => ?_) fun _ => rfl
  · have : a.map (fun t => t.shape.length) = b.map (fun t => t.shape.length) := by
      have := congrArg (List.map List.length) h.shapes
      simpa [List.map_map, Function.comp_def] using this
    rw [this, h.einDims]
  · show List.map _ _ = List.map _ _
    rw [h.einDims]

theorem RR.linalgQR (qr qr' : QRRoutine) {a b : Tensor ℝ} (h : SameT a b) : RR (SameP SameT SameT) (linalgQR qr a) (linalgQR qr' b) := by
  unfold T3f.linalgQR
  rw [h]
  refine RR.bind (RR.refl _) fun x _ hx => ?_
  subst hx
  exact ⟨rfl, rfl⟩

theorem RR.linalgSVD (svd svd' : SVDRoutine) {a b : Tensor ℝ} (h : SameT a b) :
    RR (SameP SameT (SameP SameT SameT)) (linalgSVD svd a) (linalgSVD svd' b) := by
  unfold T3f.linalgSVD
  rw [h]
  refine RR.bind (RR.refl _) fun x _ hx => ?_
  subst hx
  exact ⟨rfl, rfl, rfl⟩

theorem RR.linalgDiag {a b : Tensor ℝ} (h : SameT a b) : RR SameT (linalgDiag a) (linalgDiag b) := by
  obtain ⟨s, f⟩ := a
  obtain ⟨_, g⟩ := b
  obtain rfl : s = _ := h
  match s with
  | [] => exact rfl
  | [_] => exact rfl
  | [_, _] => exact rfl
  | _ :: _ :: _ :: _ => exact rfl

theorem RR.linalgDet [CommRing K] [CommRing L] {a : Tensor K} {b : Tensor L} (h : SameT a b) : RR SameT (linalgDet a) (linalgDet b) := by
  unfold T3f.linalgDet
  rw [h]
  refine RR.bind (RR.refl _) fun x _ hx => ?_
  subst hx
  exact rfl

theorem RR.reduceSumKeepFirst [AddCommMonoid K] [AddCommMonoid L] {a : Tensor K} {b : Tensor L} (h : SameT a b) :
    RR SameT (reduceSumKeepFirst a) (reduceSumKeepFirst b) := by
  obtain ⟨s, f⟩ := a
  obtain ⟨_, g⟩ := b
  obtain rfl : s = _ := h
  cases s <;> exact rfl

theorem RR.gather {a : Tensor K} {b : Tensor L} (h : SameT a b) (i : Tensor ℕ) : RR SameT (gather a i) (gather b i) := by
  obtain ⟨s, f⟩ := a
  obtain ⟨_, g⟩ := b
  obtain rfl : s = _ := h
  obtain ⟨si, v⟩ := i
  match s, si with
  | [], _ => exact rfl
  | _ :: _, [] => exact RR.ite Iff.rfl (fun _ => rfl) fun _ => rfl
  | _ :: _, _ :: _ :: _ => exact RR.ite Iff.rfl (fun _ => rfl) fun _ => rfl
  | n :: s, [c] => exact RR.ite Iff.rfl (fun _ => rfl) fun _ => rfl

theorem RR.gatherNdAny {a : Tensor K} {b : Tensor L} (h : SameT a b) (i : Tensor ℕ) : RR SameT (gatherNdAny a i) (gatherNdAny b i) := by
  obtain ⟨s, f⟩ := a
  obtain ⟨_, g⟩ := b
  obtain rfl : s = _ := h
  unfold T3f.gatherNdAny
  cases i.shape.reverse with
  | nil => exact rfl
  | cons q r => exact RR.ite Iff.rfl (fun _ => rfl) fun _ => rfl

theorem RR.gatherNd2 {a : Tensor K} {b : Tensor L} (h : SameT a b) (i : Tensor ℕ) : RR SameT (gatherNd2 a i) (gatherNd2 b i) := by
  have hg := RR.gatherNdAny h i
  obtain ⟨s, f⟩ := a
  obtain ⟨_, g⟩ := b
  obtain rfl : s = _ := h
  obtain ⟨si, v⟩ := i
  match s, si with
  | [], _ => exact hg
  | [_], _ => exact hg
  | _ :: _ :: _, [] => exact hg
  | _ :: _ :: _, [_] => exact hg
  | _ :: _ :: _, _ :: 0 :: _ :: _ => exact hg
  | _ :: _ :: _, _ :: 1 :: _ :: _ => exact hg
  | _ :: _ :: _, _ :: 2 :: _ :: _ => exact hg
  | _ :: _ :: _, _ :: (_ + 3) :: _ :: _ => exact hg
  | _ :: _ :: _, [_, 0] => exact hg
  | _ :: _ :: _, [_, 1] => exact hg
  | _ :: _ :: _, [_, _ + 3] => exact hg
  | _ :: _ :: _, [_, 2] => exact RR.ite Iff.rfl (fun _ => rfl) fun _ => rfl

/-! ## Constructors -/

theorem RR.mkTT {a : List (Tensor K)} {b : List (Tensor L)} (h : SameL a b) {s s' : ShapeArg} (hs : s = s') {rk rk' : Option (List ℕ)} (hr : rk = rk') :
    RR SameTT (mkTT a s rk) (mkTT b s' rk') := by
  subst hs hr
  unfold T3f.mkTT
  simp only [h.shapes]
  refine RR.bind (RR.refl _) fun x _ hx => ?_
  subst hx
  refine RR.bind (RR.refl _) fun x _ hx => ?_
  subst hx
  exact RR.ite Iff.rfl (fun _ => ⟨h, rfl, rfl, rfl⟩) fun _ => rfl

theorem RR.mkBatch {a : List (Tensor K)} {b : List (Tensor L)} (h : SameL a b) {s s' : ShapeArg} (hs : s = s') {rk rk' : Option (List ℕ)} (hr : rk = rk')
    {n n' : Option ℕ} (hn : n = n') : RR SameTT (mkBatch a s rk n) (mkBatch b s' rk' n') := by
  subst hs hr hn
  unfold T3f.mkBatch
  simp only [h.shapes]
  refine RR.bind (RR.refl _) fun x _ hx => ?_
  subst hx
  refine RR.bind (RR.refl _) fun x _ hx => ?_
  subst hx
  exact RR.ite Iff.rfl (fun _ => ⟨h, rfl, rfl, rfl⟩) fun _ => rfl

theorem RR.mkLike {a : List (Tensor K)} {b : List (Tensor L)} (h : SameL a b) {n n' : Option ℕ} (hn : n = n') {s s' : List (List ℕ)} (hs : s = s') {rk rk' : List ℕ}
    (hr : rk = rk') : RR SameTT (mkLike n a s rk) (mkLike n' b s' rk') := by
  subst hs hr hn
  unfold T3f.mkLike
  cases n
  · exact RR.mkTT h rfl rfl
  · exact RR.mkBatch h rfl rfl rfl

end

end T3f
