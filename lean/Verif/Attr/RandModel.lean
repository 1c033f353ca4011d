import Verif.Base.Tensor

/-!
# The process's random numbers in sessions with the Arnoldi attributor

`ArnoldiProjector` computes its eigenspace in the first call of `project`, and for that calls `torch.manual_seed` (projection.py:1011-1056): the
generator that it seeds is the one of the process. Here the generator's state (`G`) is passed through `attribute`'s loops and through whole sessions.

Simplifications: what is computed from a batch is given as a function that may read and advance the generator (a network with active dropout does,
others do not); scores are recorded pair of batches by pair of batches in the order they are computed, not summed; loaders do not draw.
-/

namespace Verif.RandSession

open Verif

variable {G B V S R : Type}

/-- What is computed with the network: gradients of a training and a test batch at a checkpoint (base.py:131-189), the eigenspace of a
checkpoint's projector, from the generator's state after seeding (projection.py:1016-1042), and the block of scores of two gradients (base.py:421-448). -/
structure Net (G B V S R : Type) where
  trainGrad : ℕ → B → G → V × G
  testGrad : ℕ → B → G → V × G
  eig : ℕ → G → S × G
  block : S → V → V → R

/-- The generator's state and, for an Arnoldi attributor, its projectors: whether `cache` was called, and the eigenspaces computed so far. -/
structure W (G S : Type) where
  gen : G
  cached : Bool
  spaces : ℕ → Option S

/-- `ArnoldiProjector.project` for checkpoint `k` (projection.py:1054-1056): the eigenspace, computed after `torch.manual_seed(self.seed)` if it is
not there. `seeded` is the generator's state after that call. -/
def space (N : Net G B V S R) (seeded : G) (k : ℕ) (w : W G S) : S × W G S :=
  match w.spaces k with
  | some s => (s, w)
  | none =>
    let r := N.eig k seeded
    (r.1, { w with gen := r.2, spaces := fun i => if i = k then some r.1 else w.spaces i })

/-- Body of the test loop (base.py:395-448). -/
def testStep (N : Net G B V S R) (seeded : G) (k : ℕ) (v : V) (st : W G S × List R) (b : B) : W G S × List R :=
  let g := N.testGrad k b st.1.gen
  let p := space N seeded k { st.1 with gen := g.2 }
  (p.2, st.2 ++ [N.block p.1 v g.1])

/-- Body of the training loop (base.py:343-448): gradient, `transform_train_rep` (influence_function.py:481-486), test loop. -/
def trainStep (N : Net G B V S R) (seeded : G) (k : ℕ) (test : List B) (st : W G S × List R) (b : B) : W G S × List R :=
  let g := N.trainGrad k b st.1.gen
  let p := space N seeded k { st.1 with gen := g.2 }
  test.foldl (testStep N seeded k g.1) (p.2, st.2)

/-- `IFAttributorArnoldi.attribute` with `K` checkpoints (base.py:341-450): the blocks of scores. Without `cache` the first transformation raises
`ValueError` (influence_function.py:481-484), after the gradient of the first batch was computed. -/
def arnoldiAttribute (N : Net G B V S R) (seeded : G) (K : ℕ) (train test : List B) (w : W G S) : W G S × Except Err (List R) :=
  if w.cached then
    let r := (List.range K).foldl (fun (st : W G S × List R) (k : ℕ) => train.foldl (trainStep N seeded k test) st) (w, [])
    (r.1, .ok r.2)
  else if K = 0 then (w, .ok [])
  else match train with
    | [] => (w, .ok [])
    | b :: _ => ({ w with gen := (N.trainGrad 0 b w.gen).2 }, .error .valueError)

/-- `IFAttributorArnoldi.cache` (influence_function.py:380-432): new projectors, whose eigenspaces are not computed. (Its forward passes come
later, with the eigenspaces.) -/
def cache (w : W G S) : W G S := { w with cached := true, spaces := fun _ => none }

/-- Events of a session: calls of the Arnoldi attributor, and anything else that reads the generator (LiSSA, dropout, shuffling, a training, the user's
`torch.manual_seed`), with a result of its own. -/
inductive Op (G B A : Type)
  | cache
  | attr (train test : List B)
  | other (f : G → A × G)

/-- What an event returns. -/
inductive Out (R A : Type)
  | none
  | scores (r : Except Err (List R))
  | value (a : A)

variable {A : Type}

/-- One event. -/
def step (N : Net G B V S R) (seeded : G) (K : ℕ) (w : W G S) : Op G B A → W G S × Out R A
  | .cache => (cache w, .none)
  | .attr train test => ((arnoldiAttribute N seeded K train test w).1, .scores (arnoldiAttribute N seeded K train test w).2)
  | .other f => ({ w with gen := (f w.gen).2 }, .value (f w.gen).1)

/-- A session: all results in order, and the state at the end. -/
def run (N : Net G B V S R) (seeded : G) (K : ℕ) : List (Op G B A) → W G S → W G S × List (Out R A)
  | [], w => (w, [])
  | o :: os, w =>
    let r := step N seeded K w o
    let t := run N seeded K os r.1
    (t.1, r.2 :: t.2)

end Verif.RandSession
