import Verif.DVEmb.Model
import Mathlib.Algebra.Module.Defs

/-!
# Recording gradient factors (`dattri/algorithm/dvemb.py:216-261, 307-410, 480-504, 644-678`)

The two ways of recording a training step in factorised mode: `cache_gradients_context` around the user's own step and `cache_gradients`
with a pass of its own. Tensors captured by the backward hooks are references into a memory, because `detach` does not copy and line 397
scales them in place. Networks and autograd are outside the model: a pass is the list of hook calls it causes plus the memory it leaves.
`K` is the field of scalars, `T` the gradient tensors of one shape class, `A` the activations.
-/

namespace Verif.DVEmb

open Verif

variable {K : Type} [Field K] {T A G : Type} [AddCommGroup T] [Module K T]

/-- A dictionary `{"A": ..., "B": ..., "has_bias": ...}` of one layer (dvemb.py:223-225). -/
structure Slot (A : Type) where
  a : Option A
  b : Option ℕ
  bias : Bool

/-- Calls of the hooks: a forward hook with its input, a backward hook with its output gradient (dvemb.py:229-252). -/
inductive Ev (A : Type)
  | fwd (i : ℕ) (x : A) (bias : Bool)
  | bwd (i : ℕ) (r : ℕ)

/-- A hook call overwrites its layer's dictionary entries. -/
def hookEv (s : List (Slot A)) : Ev A → List (Slot A)
  | .fwd i x bias => s.modify i fun q => ⟨some x, q.b, bias⟩
  | .bwd i r => s.modify i fun q => ⟨q.a, some r, q.bias⟩

/-- The dictionaries of `n` layers after a pass (dvemb.py:222-225 and the hooks). -/
def capture (n : ℕ) (evs : List (Ev A)) : List (Slot A) := evs.foldl hookEv (List.replicate n ⟨none, none, false⟩)

/-- `for cache in caches: if cache["B"] is not None: cache["B"] *= len(indices)` (dvemb.py:395-397), in place. -/
def scaleLoop (N : K) (slots : List (Slot A)) (H : ℕ → T) : ℕ → T :=
  slots.foldl (fun H s => match s.b with | some r => Function.update H r (N • H r) | none => H) H

/-- What is kept of a layer: the activation, the gradient's value and the bias flag. -/
abbrev Rec (A T : Type) := Option A × Option T × Bool

def resolve (H : ℕ → T) (s : Slot A) : Rec A T := (s.a, s.b.map H, s.bias)

/-- The attributor's dictionaries in factorised mode (dvemb.py:123, 151-153). -/
structure FSt (K A T G : Type) where
  factors : Dict (List (List (Rec A T)))
  grads : Dict (List G)
  lrs : Dict (List K)
  idxs : Dict (List (List ℕ))

/-- Initialise the epoch (dvemb.py:366-370, 659-663). -/
def openEpoch (e : ℤ) (s : FSt K A T G) : FSt K A T G :=
  if (s.factors.lookup e).isNone then ⟨dset e [] s.factors, dset e [] s.grads, dset e [] s.lrs, dset e [] s.idxs⟩ else s

/-- Store the factors or their projection, then learning rate and indices (dvemb.py:400-410, 667-678). `proj = none` is the mode without
projection; a projection may raise, for instance on a layer without activation. -/
def store (proj : Option (List (Rec A T) → Except Err G)) (e : ℤ) (recs : List (Rec A T)) (idx : List ℕ) (lr : K) (s : FSt K A T G) :
    FSt K A T G × Except Err Unit :=
  let fin : FSt K A T G → FSt K A T G × Except Err Unit := fun s =>
    if idx.length = 0 then (s, .error .zeroDivisionError)
    else ({ s with lrs := dpush e (lr / (idx.length : K)) s.lrs, idxs := dpush e idx s.idxs }, .ok ())
  match proj with
  | none => fin { s with factors := dpush e recs s.factors }
  | some f => match f recs with
    | .error x => (s, .error x)
    | .ok g => fin { s with grads := dpush e g s.grads }

/-- `cache_gradients_context` (dvemb.py:307-410) around a step that calls the hooks `evs`, leaves the memory `H` and possibly raises. The
`finally` block runs in any case; an exception of its own replaces the step's. -/
def contextStep (factored : Bool) (proj : Option (List (Rec A T) → Except Err G)) (n : ℕ) (e : ℤ) (idx : List ℕ) (lr : K) (evs : List (Ev A))
    (H : ℕ → T) (raised : Option Err) (s : FSt K A T G) : FSt K A T G × Except Err Unit :=
  if !factored then (s, .error .notImplementedError)
  else
    let slots := capture n evs
    let H' := scaleLoop ((idx.length : K)) slots H
    let r := store proj e (slots.map (resolve H')) idx lr (openEpoch e s)
    match r.2, raised with
    | .ok _, some x => (r.1, .error x)
    | _, _ => r

/-- `cache_gradients` in factorised mode (dvemb.py:280-303, 480-504, 644-678): a pass of its own with the loss multiplied by the batch size;
an exception in the pass leaves before anything is stored. -/
def directStep (proj : Option (List (Rec A T) → Except Err G)) (n : ℕ) (e : ℤ) (idx : List ℕ) (lr : K) (evs : List (Ev A))
    (H : ℕ → T) (raised : Option Err) (s : FSt K A T G) : FSt K A T G × Except Err Unit :=
  match raised with
  | some x => (openEpoch e s, .error x)
  | none => store proj e ((capture n evs).map (resolve H)) idx lr (openEpoch e s)

end Verif.DVEmb
