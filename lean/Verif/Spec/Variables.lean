import Verif.Model.Variables

/-! # Objects whose cores are variables -/

namespace T3f

variable {K : Type} [Zero K]

/-- The cores of `o` are different variables of the store, with the addresses `as`. -/
structure VObj.IsVariable (σ : Store K) (o : VObj K) (as : List ℕ) : Prop where
  cores : o.cores = as.map .var
  nodup : as.Nodup
  inStore : ∀ a ∈ as, a < σ.length

/-- A variable `as[j]` is not a core of `o`, except at the same place. -/
def VObj.Separate (o : VObj K) (as : List ℕ) : Prop := ∀ (i j a : ℕ), o.cores[i]? = some (VCore.var a) → as[j]? = some a → i = j

/-- The program `for value in values: assign(ref, value)`; an exception ends it. -/
def assignAll (ref : VObj K) : Store K → List (VObj K) → Store K × R Unit
  | σ, [] => (σ, .ok ())
  | σ, v :: vs =>
    match assign σ ref v with
    | (σ', .error e) => (σ', .error e)
    | (σ', .ok _) => assignAll ref σ' vs

end T3f
