import Mathlib.Data.Matrix.Mul
import Mathlib.Data.Matrix.Basic
import Mathlib.Algebra.Field.Basic
import Mathlib.Data.List.Sort
import Verif.Base.Tensor

/-!
# Data value embeddings (`/repo/dattri/algorithm/dvemb.py`)

The attributor keeps four Python dictionaries keyed by epoch: per-step gradients, per-step
learning rates (already divided by the batch size), per-step sample indices, and the computed
embeddings.  The model keeps the same four dictionaries as association lists in insertion order.

Simplifications, for the whole file:
* floats are exact elements of a field `K`, so the NaN check of lines 792-797 never fires;
* a gradient row is a vector of fixed length `d` (rows of another length would make torch raise);
* sample indices given at caching time are natural numbers;
* per-sample gradients are inputs of the model (the network and autograd are outside it).  In the
  factorised mode without projection the code keeps the factors and rebuilds the rows in `cache`
  (lines 772-779); the model stores the rebuilt rows, see `FactorModel.lean` for the rebuilding;
* devices, dtypes, progress bars and the warning about mixing the two caching calls are left out.
-/

namespace Verif.DVEmb

open Verif Matrix

variable {K : Type} [Field K] {d : ℕ}

/-- A Python dictionary with integer keys, in insertion order. -/
abbrev Dict (α : Type) := List (ℤ × α)

/-- `dict[k] = v`: replaces the value in place if the key is present, else appends. -/
def dset {α : Type} (k : ℤ) (v : α) : Dict α → Dict α
  | [] => [(k, v)]
  | (k', v') :: t => if k' = k then (k, v) :: t else (k', v') :: dset k v t

/-- `dict[k].append(x)` when the key is present (the caller checks presence). -/
def dpush {α : Type} (k : ℤ) (x : α) (m : Dict (List α)) : Dict (List α) :=
  m.map fun p => if p.1 = k then (p.1, p.2 ++ [x]) else p

/-- A stored epoch embedding: `n` rows (dvemb.py:760-764). -/
structure Emb (K : Type) (d : ℕ) where
  n : ℕ
  row : ℕ → Fin d → K

/-- The attributor's dictionaries (dvemb.py:150-154). -/
structure St (K : Type) (d : ℕ) where
  grads : Dict (List (List (Fin d → K)))
  lrs : Dict (List K)
  idxs : Dict (List (List ℕ))
  emb : Dict (Emb K d)

/-- A fresh attributor. -/
def init : St K d := ⟨[], [], [], []⟩

/-- `_cache_full_gradients` / `_cache_factored_gradients` (dvemb.py:454-478, 644-678) with the
batch's per-sample gradients `g` given.  `len(indices) = 0` divides by zero after the gradients
have been appended; a key missing from the other dictionaries (possible only after external
dictionaries have been installed by `cache`) is a `KeyError`. -/
def cacheGradients (s : St K d) (e : ℤ) (g : List (Fin d → K)) (idx : List ℕ) (lr : K) :
    St K d × Except Err Unit :=
  let s1 : St K d :=
    if (s.grads.lookup e).isNone then
      { s with grads := dset e [] s.grads, lrs := dset e [] s.lrs, idxs := dset e [] s.idxs }
    else s
  let s2 : St K d := { s1 with grads := dpush e g s1.grads }
  if (s2.lrs.lookup e).isNone then (s2, .error .keyError)
  else if idx.length = 0 then (s2, .error .zeroDivisionError)
  else
    let s3 : St K d := { s2 with lrs := dpush e (lr / (idx.length : K)) s2.lrs }
    if (s3.idxs.lookup e).isNone then (s3, .error .keyError)
    else ({ s3 with idxs := dpush e idx s3.idxs }, .ok ())

/-- The arguments of one `cache_gradients` call (dvemb.py:263-305), with the per-sample gradients
of the batch: epoch, learning rate, sample indices, gradient rows. -/
structure Call (K : Type) (d : ℕ) where
  epoch : ℤ
  lr : K
  idx : List ℕ
  g : List (Fin d → K)

/-- A training run: consecutive `cache_gradients` calls, stopped by the first exception. -/
def record : St K d → List (Call K d) → Except Err (St K d)
  | s, [] => .ok s
  | s, c :: t =>
    match (cacheGradients s c.epoch c.g c.idx c.lr).2 with
    | .error x => .error x
    | .ok _ => record (cacheGradients s c.epoch c.g c.idx c.lr).1 t

/-- `clear_cache` (dvemb.py:680-686): the embeddings are not cleared. -/
def clearCache (s : St K d) : St K d := { s with grads := [], lrs := [], idxs := [] }

/-- One iteration of the inner loop (dvemb.py:769-789).
`eta * g - eta * (g @ M.T)` for every row, `index_add_`, then `M += dv.T @ g`.
`index_add_` raises when the number of indices differs from the number of rows. -/
def tick (M : Matrix (Fin d) (Fin d) K) (E : ℕ → Fin d → K) (eta : K) (idx : List ℕ)
    (g : List (Fin d → K)) :
    Except Err (Matrix (Fin d) (Fin d) K × (ℕ → Fin d → K)) :=
  let dv := g.map fun x => eta • x - eta • (M *ᵥ x)
  if idx.length ≠ g.length then .error .runtimeError
  else .ok
    (M + ((dv.zip g).map fun p => vecMulVec p.1 p.2).sum,
     fun i => E i + (((idx.zip dv).filter fun p => p.1 = i).map Prod.snd).sum)

/-- `d[epoch]` for a dictionary. -/
def getKey {α : Type} (m : Dict α) (e : ℤ) : Except Err α :=
  match m.lookup e with
  | none => .error .keyError
  | some v => .ok v

/-- `l[t]` for a list. -/
def getIdx {α : Type} (l : List α) (t : ℕ) : Except Err α :=
  match l[t]? with
  | none => .error .indexError
  | some v => .ok v

/-- Body of the inner loop for step `t` of epoch `e` (dvemb.py:768-789). -/
def iter (s : St K d) (e : ℤ) (st : Matrix (Fin d) (Fin d) K × (ℕ → Fin d → K)) (t : ℕ) :
    Except Err (Matrix (Fin d) (Fin d) K × (ℕ → Fin d → K)) := do
  let ls ← getKey s.lrs e
  let eta ← getIdx ls t
  let is ← getKey s.idxs e
  let idx ← getIdx is t
  let gs ← getKey s.grads e
  let g ← getIdx gs t
  tick st.1 st.2 eta idx g

/-- The body of the epoch loop: steps in reverse order (dvemb.py:759-789). -/
def epochRun (s : St K d) (e : ℤ) (M : Matrix (Fin d) (Fin d) K) :
    Except Err (Matrix (Fin d) (Fin d) K × (ℕ → Fin d → K)) := do
  let ls ← getKey s.lrs e
  (List.range ls.length).reverse.foldlM (iter s e) (M, fun _ => 0)

/-- The epoch loop (dvemb.py:759-799); embeddings written before an exception stay. -/
def epochLoop (s : St K d) (num : ℕ) :
    List ℤ → Matrix (Fin d) (Fin d) K → Dict (Emb K d) → Dict (Emb K d) × Except Err Unit
  | [], _, emb => (emb, .ok ())
  | e :: es, M, emb =>
    match epochRun s e M with
    | .error x => (emb, .error x)
    | .ok (M', E) => epochLoop s num es M' (dset e ⟨num, E⟩ emb)

/-- `torch.cat([torch.cat(indices) for indices in data_indices.values()]).max() + 1`
(dvemb.py:731-734).  `torch.cat([])` and `max` of an empty tensor raise. -/
def numSamples (idxs : Dict (List (List ℕ))) : Except Err ℕ :=
  if idxs.isEmpty ∨ (∃ p ∈ idxs, p.2 = []) then .error .runtimeError
  else
    let all := (idxs.map fun p => p.2.flatten).flatten
    if all = [] then .error .runtimeError else .ok (all.foldr max 0 + 1)

/-- `cached_gradients[0][0]` (dvemb.py:737-747): the type and dimension are read from the first
step of epoch `0`, whatever epochs were cached. -/
def probe (grads : Dict (List (List (Fin d → K)))) : Except Err (List (Fin d → K)) := do
  let l ← getKey grads 0
  getIdx l 0

/-- What a `cache` call leaves behind: the attributor's state, the dictionaries the caller passed
as `gradients` and `learning_rates` (the same objects the attributor now holds), and the
outcome. -/
structure CacheOut (K : Type) (d : ℕ) where
  st : St K d
  callerGrads : Option (Dict (List (List (Fin d → K))))
  callerLrs : Option (Dict (List K))
  res : Except Err Unit

/-- `cache` (dvemb.py:688-802).  `extG`, `extL` are the optional external dictionaries; they are
stored by reference, so the final `clear_cache` empties the caller's objects. -/
def cache (factor : Bool) (s : St K d) (extG : Option (Dict (List (List (Fin d → K)))))
    (extL : Option (Dict (List K))) (memorySaving : Bool) : CacheOut K d :=
  if factor ∧ extG.isSome then ⟨s, extG, extL, .error .valueError⟩
  else
    let s1 : St K d := { s with grads := extG.getD s.grads, lrs := extL.getD s.lrs }
    if ∀ p ∈ s1.grads, p.2 = [] then ⟨s1, extG, extL, .error .valueError⟩
    else
      match numSamples s1.idxs with
      | .error x => ⟨s1, extG, extL, .error x⟩
      | .ok num =>
        match probe s1.grads with
        | .error x => ⟨s1, extG, extL, .error x⟩
        | .ok _ =>
          let epochs := (s1.lrs.map Prod.fst).mergeSort fun a b => decide (b ≤ a)
          let r := epochLoop s1 num epochs 0 s1.emb
          let s2 : St K d := { s1 with emb := r.1 }
          match r.2 with
          | .error x => ⟨s2, extG, extL, .error x⟩
          | .ok _ =>
            if memorySaving then
              ⟨clearCache s2, extG.map fun _ => [], extL.map fun _ => [], .ok ()⟩
            else ⟨s2, extG, extL, .ok ()⟩

/-- Python list/tensor indexing of a dimension of size `n` with a possibly negative index. -/
def pyIndex (n : ℕ) (i : ℤ) : Except Err ℕ :=
  if 0 ≤ i ∧ i < n then .ok i.toNat
  else if i < 0 ∧ -(n : ℤ) ≤ i then .ok (i + n).toNat
  else .error .indexError

/-- `torch.stack(list(embeddings.values())).sum(dim=0)` (dvemb.py:858): raises unless all stored
embeddings have the same number of rows. -/
def stackSum : Dict (Emb K d) → Except Err (Emb K d)
  | [] => .error .runtimeError
  | p :: t =>
    if ∀ q ∈ t, q.2.n = p.2.n then
      .ok ⟨p.2.n, fun i => ((p :: t).map fun q => q.2.row i).sum⟩
    else .error .runtimeError

/-- Selection of the active embeddings (dvemb.py:852-858). -/
def active (emb : Dict (Emb K d)) : Option ℤ → Except Err (Emb K d)
  | some e =>
    match emb.lookup e with
    | none => .error .valueError
    | some E => .ok E
  | none => stackSum emb

/-- `active_embeddings[train_data_indices]` (dvemb.py:861-864). -/
def selectRows (n : ℕ) : Option (List ℤ) → Except Err (List ℕ)
  | none => .ok (List.range n)
  | some l => l.mapM (pyIndex n)

/-- `attribute` (dvemb.py:804-866); `test` is the list of test batches' gradient rows.
The test gradients are computed before the epoch is looked up. -/
def attribute' (s : St K d) (test : List (List (Fin d → K))) (epoch : Option ℤ)
    (sel : Option (List ℤ)) : Except Err (List (List K)) :=
  if s.emb = [] then .error .runtimeError
  else if test = [] then .error .runtimeError
  else do
    let E ← active s.emb epoch
    let rows ← selectRows E.n sel
    pure (rows.map fun i => test.flatten.map fun x => E.row i ⬝ᵥ x)

end Verif.DVEmb
