import Verif.Task.Model

/-!
# Specification vocabulary for C34-C36, C83
-/

namespace Verif.Task

variable {N R D : Type} [DecidableEq N]

/-- The piece of the concatenated vector `x` (layers `L` in order, sizes `numel`) that belongs to layer `n`. -/
def pick (numel : N → ℕ) : List N → List R → N → Option (List R)
  | [], _, _ => none
  | l :: ls, x, n => if n = l then some (x.take (numel l)) else pick numel ls (x.drop (numel l)) n

/-- The full flat parameter vector with the layers `L` taken from `x` and all other layers from checkpoint `ck`. -/
def fullVec (numel : N → ℕ) (names L : List N) (x : List R) (ck : N → List R) : List R :=
  (names.map fun n => (pick numel L x n).getD (ck n)).flatten

/-- The environment is consistent: distinct names, every checkpoint has the model's sizes. -/
structure Env.Ok (env : Env N R) (numel : N → ℕ) : Prop where
  nodup : env.names.Nodup
  ne : env.names ≠ []
  size : ∀ ck ∈ env.ckpts, ∀ n ∈ env.names, (ck n).length = numel n

/-- A request that (if it is about layers at all) is about the layer list `L`, and calls functions with enough entries. -/
def Good (numel : N → ℕ) (L : List N) : Op N R D → Prop
  | .getParam _ _ => True
  | .getFunc _ L' _ => L' = none ∨ L' = some L
  | .getGrad _ _ L' _ => L' = none ∨ L' = some L
  | .eval _ x => (L.map numel).sum ≤ x.length

/-- No layer-restricted function is called among these requests, made in state `s`. -/
def Quiet [DecidableEq D] (env : Env N R) : St N R D → List (Op N R D) → Prop
  | _, [] => True
  | s, op :: ops => (∀ h x, op = .eval h x → ∀ f, s.handles[h]? = some f → f.part = none) ∧ Quiet env (step env s op).1 ops

/-- The checkpoint a request needs, if any. -/
def needs : Op N R D → Option ℕ
  | .getParam c _ => some c
  | .getFunc _ (some _) c => c
  | .getGrad _ _ (some _) c => c
  | _ => none

end Verif.Task
