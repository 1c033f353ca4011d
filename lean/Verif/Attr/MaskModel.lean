import Mathlib.Algebra.BigOperators.Group.Finset.Basic
import Verif.Base.Tensor

/-!
# Random masks of active dropout layers during attribution

If dropout layers are active (C233), every evaluation of the loss draws masks.  Where they are drawn depends on how the code vectorises: gradients are taken with
`vmap(..., randomness="different")` (`dattri/task.py:139-154, 253-257, 339-343`, `dattri/algorithm/trak.py:97-101`), LiSSA likewise (`dattri/func/hessian.py:921`), CG with plain
`vmap` (`hessian.py:488`), whose `randomness="error"` raises on random operations, and so do `jacfwd` inside `torch.func.hessian` (`hessian.py:252`).

Simplifications: the masks one sample (or one un-vectorised batch) meets in one forward pass through the model are one draw, numbered in the order in which passes happen; what
the loss computes for a draw is a parameter; `none` stands for "no mask".  LiSSA's choice of batches is a parameter.
-/

namespace Verif.Mask

open Verif

/-- The `randomness` argument of `vmap`. -/
inductive Rand
  | error
  | different

/-- A forward pass under no or one `vmap` of a given size, with the generator at draw `k`: the draw each element gets, and the new position.  `on`: some dropout layer is
active with a probability strictly between 0 and 1. -/
def forward (on : Bool) (layer : Option (Rand × ℕ)) (k : ℕ) : Except Err ((ℕ → Option ℕ) × ℕ) :=
  if on then
    match layer with
    | none => .ok (fun _ => some k, k + 1)
    | some (.error, _) => .error .runtimeError
    | some (.different, n) => .ok (fun i => some (k + i), k + n)
  else .ok (fun _ => none, k)

/-- A batch of samples. -/
structure Batch (X : Type) where
  n : ℕ
  x : ℕ → X

/-- What the user's functions compute, given the draw: gradients of the loss and of the target, the probability of the correct class, Hessian-vector products of the loss
of a batch, and the solution of the system with its Hessian; `p` is the number of parameters. -/
structure Fns (X V : Type) where
  gTrain : Option ℕ → X → V
  gTest : Option ℕ → X → V
  prob : Option ℕ → X → V
  hvp : Option ℕ → Batch X → V → V
  solve : Option ℕ → Batch X → V → V
  p : ℕ

/-- How the test representations are transformed: explicitly (hessian.py:224-272), by CG with either mode (hessian.py:330-490; `alg` is the iteration, it uses the Hessian only
through products), by LiSSA (hessian.py:835-923; `smp b r d i` is the batch drawn from `b` in repetition `r`, recursion `d`, for vector `i`), or with something computed beforehand
(DataInf, Arnoldi, EK-FAC, or nothing). -/
inductive Method (X V : Type)
  | explicit
  | cgRevRev (alg : (V → V) → V → V)
  | cgRevFwd (alg : (V → V) → V → V)
  | lissa (reps depth : ℕ) (smp : Batch X → ℕ → ℕ → ℕ → Batch X) (next : V → V → V → V) (avg : List V → V)
  | cached (f : V → V)

variable {X V : Type}

/-- Vectorised gradients of a batch (task.py:139-154, 253-257, 339-343; base.py:135-189). -/
def grads (on : Bool) (g : Option ℕ → X → V) (b : Batch X) (k : ℕ) : Except Err ((ℕ → V) × ℕ) := do
  let r ← forward on (some (.different, b.n)) k
  pure (fun i => g (r.1 i) (b.x i), r.2)

/-- One repetition of LiSSA for all vectors (hessian.py:903-917); the Hessian-vector product runs the forward pass inside the `vmap` (hessian.py:92). -/
def lissaRep (on : Bool) (F : Fns X V) (depth : ℕ) (smp : ℕ → ℕ → Batch X) (next : V → V → V → V) (m : ℕ) (vs : ℕ → V) (k : ℕ) :
    Except Err ((ℕ → V) × ℕ) :=
  (List.range depth).foldlM (fun (st : (ℕ → V) × ℕ) d => do
    let r ← forward on (some (.different, m)) st.2
    pure (fun i => next (vs i) (st.1 i) (F.hvp (r.1 i) (smp d i) (st.1 i)), r.2)) (vs, k)

/-- The transformation of `m` test representations by the Hessian of one batch of the full training data.  CG in mode `rev-rev` runs the forward pass once, outside the `vmap`
(hessian.py:179, 443-449); in mode `rev-fwd` at every product inside it (hessian.py:219, 469-477). -/
def transformOne (on : Bool) (F : Fns X V) (fb : Batch X) (m : ℕ) (vs : ℕ → V) (k : ℕ) : Method X V → Except Err ((ℕ → V) × ℕ)
  | .explicit => do
    let r ← forward on (some (.error, F.p)) k
    pure (fun i => F.solve (r.1 0) fb (vs i), r.2)
  | .cgRevRev alg => do
    let r ← forward on none k
    pure (fun i => alg (F.hvp (r.1 0) fb) (vs i), r.2)
  | .cgRevFwd alg => do
    let r ← forward on (some (.error, m)) k
    pure (fun i => alg (F.hvp (r.1 i) fb) (vs i), r.2)
  | .lissa reps depth smp next avg => do
    let r ← (List.range reps).foldlM (fun (st : List (ℕ → V) × ℕ) rep => do
      let e ← lissaRep on F depth (smp fb rep) next m vs st.2
      pure (st.1 ++ [e.1], e.2)) (([] : List (ℕ → V)), k)
    pure (fun i => avg (r.1.map fun e => e i), r.2)
  | .cached f => pure (fun i => f (vs i), k)

/-- Whether the transformation goes through the full training data (influence_function.py:104-132, 247-275, 562-589). -/
def Method.loops : Method X V → Bool
  | .cached _ => false
  | _ => true

/-- Test representations of one batch and their transformation, summed over the `nf` batches of the full training data (base.py:420-429). -/
def testBlock [AddCommMonoid V] (on : Bool) (F : Fns X V) (M : Method X V) (nf : ℕ) (full : ℕ → Batch X) (te : Batch X) (k : ℕ) : Except Err ((ℕ → V) × ℕ) := do
  let v ← grads on F.gTest te k
  if M.loops then
    (List.range nf).foldlM (fun (st : (ℕ → V) × ℕ) b => do
      let r ← transformOne on F (full b) te.n v.1 st.2 M
      pure (fun i => st.1 i + r.1 i, r.2)) (fun _ => 0, v.2)
  else transformOne on F ⟨0, te.x⟩ te.n v.1 v.2 M

/-- The inner loop over test batches (base.py:395-429). -/
def testLoop [AddCommMonoid V] (on : Bool) (F : Fns X V) (M : Method X V) (nf : ℕ) (full : ℕ → Batch X) : List (Batch X) → ℕ → Except Err (List (ℕ → V) × ℕ)
  | [], k => .ok ([], k)
  | te :: tes, k => do
    let r ← testBlock on F M nf full te k
    let q ← testLoop on F M nf full tes r.2
    pure (r.1 :: q.1, q.2)

/-- The loop over training batches at one checkpoint (base.py:343-448): for each one its representations and those of all test batches, which are computed anew. -/
def pairLoop [AddCommMonoid V] (on : Bool) (F : Fns X V) (M : Method X V) (nf : ℕ) (full : ℕ → Batch X) (tes : List (Batch X)) :
    List (Batch X) → ℕ → Except Err (List ((ℕ → V) × List (ℕ → V)) × ℕ)
  | [], k => .ok ([], k)
  | tr :: trs, k => do
    let t ← grads on F.gTrain tr k
    let q ← testLoop on F M nf full tes t.2
    let r ← pairLoop on F M nf full tes trs q.2
    pure ((t.1, q.1) :: r.1, r.2)

/-- One batch of TRAK (trak.py:164-191): gradients, then probabilities of the correct class. -/
def trakBatch (on : Bool) (F : Fns X V) (b : Batch X) (k : ℕ) : Except Err ((ℕ → V) × (ℕ → V) × ℕ) := do
  let g ← grads on F.gTrain b k
  let q ← grads on F.prob b g.2
  pure (g.1, q.1, q.2)

end Verif.Mask
