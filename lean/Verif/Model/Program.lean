import Verif.Spec.Program

/-!
# Running programs with variables

Names stand for Python objects (`VObj`), whose cores are tensors or TensorFlow variables. The functions of the library read the variables
(`convert_to_tensors=True` in tensor_train.py:39-43 and tensor_train_batch.py:44-48 makes the cores of every new object tensors), except where they return their argument:
shapes.py:282, 286 (`squeeze_batch_dim`) and 301 (`expand_batch_dim`).
-/

namespace T3f

/-- tensor_train.py:38-43, tensor_train_batch.py:43-48: a new object; its cores are tensors. -/
def freshObj (t : TT ℝ) : VObj ℝ := ⟨t.cores.map .tensor, t.rawShape, t.ttRanks, t.batch⟩

/-- Evaluation of an expression to an object. An unknown name raises NameError, written as `Err.attr`. -/
noncomputable def NExpr.eval (qr : QRRoutine) (σ : Store ℝ) (ρ : ℕ → Option (VObj ℝ)) : NExpr → R (VObj ℝ)
  | name x => match ρ x with
      | some u => pure u
      | none => throw Err.attr
  | lit t => pure (freshObj t)
  | add a b => do
      let u ← a.eval qr σ ρ
      let v ← b.eval qr σ ρ
      let c ← T3f.add (u.tt σ) (v.tt σ)
      pure (freshObj c)
  | sub a b => do
      let u ← a.eval qr σ ρ
      let v ← b.eval qr σ ρ
      let c ← T3f.sub (u.tt σ) (v.tt σ)
      pure (freshObj c)
  | neg a => do
      let u ← a.eval qr σ ρ
      let c ← T3f.neg (u.tt σ)
      pure (freshObj c)
  | mul a b => do
      let u ← a.eval qr σ ρ
      let v ← b.eval qr σ ρ
      let c ← T3f.multiply (u.tt σ) (v.tt σ)
      pure (freshObj c)
  | smul x a => do
      let u ← a.eval qr σ ρ
      let c ← T3f.multiplyScalar (u.tt σ) x
      pure (freshObj c)
  | matmul a b => do
      let u ← a.eval qr σ ρ
      let v ← b.eval qr σ ρ
      let c ← T3f.ttTTMatmul (u.tt σ) (v.tt σ)
      pure (freshObj c)
  | transpose a => do
      let u ← a.eval qr σ ρ
      let c ← T3f.ttTranspose (u.tt σ)
      pure (freshObj c)
  | orthogonalize lr a => do
      let u ← a.eval qr σ ρ
      let c ← T3f.orthogonalize qr (u.tt σ) lr
      pure (freshObj c)
  | renormalize eps a => do
      let u ← a.eval qr σ ρ
      let c ← T3f.renormalize (u.tt σ) eps
      pure (freshObj c)
  | expand a => do
      -- shapes.py:300-308
      let u ← a.eval qr σ ρ
      if u.batch.isSome then pure u
      else
        let c ← T3f.expandBatchDim (u.tt σ)
        pure (freshObj c)
  | squeeze a => do
      -- shapes.py:278-286
      let u ← a.eval qr σ ρ
      if u.batch = some 1 then
        let c ← T3f.squeezeBatchDim (u.tt σ)
        pure (freshObj c)
      else pure u
  | pick k a => do
      let u ← a.eval qr σ ρ
      let c ← Expr.pickItem k (u.tt σ)
      pure (freshObj c)

/-- The state of a running program. -/
structure CState where
  store : Store ℝ
  env : ℕ → Option (VObj ℝ)

/-- Nothing is defined, there are no variables. -/
def CState.empty : CState := ⟨[], fun _ => none⟩

/-- One statement. After an exception the program has ended and its state is not considered here (C48 says what a failed assignment leaves behind). -/
noncomputable def Stmt.run (qr : QRRoutine) (S : CState) : Stmt → R CState
  | bind x e => do
      let u ← e.eval qr S.store S.env
      pure ⟨S.store, Function.update S.env x (some u)⟩
  | newVar x e => do
      let u ← e.eval qr S.store S.env
      match getVariable S.store (some u) none with
      | (σ', r) => do
          let w ← r
          pure ⟨σ', Function.update S.env x (some w)⟩
  | assign y x e => do
      let r ← (NExpr.name x).eval qr S.store S.env
      let u ← e.eval qr S.store S.env
      match T3f.assign S.store r u with
      | (σ', r) => do
          let w ← r
          pure ⟨σ', Function.update S.env y (some w)⟩

/-- A program. -/
noncomputable def runProgram (qr : QRRoutine) : CState → List Stmt → R CState
  | S, [] => pure S
  | S, s :: p => do runProgram qr (← s.run qr S) p

end T3f
