import Verif.EKFAC.Model
import Verif.Base.PyDict

/-!
# The layer cache of the EK-FAC attributor and its hooks

`IFAttributorEKFAC.cache` registers forward hooks that write inputs and outputs of the selected modules into `self.layer_cache`, a dictionary that is never
emptied; the two estimation loops read all its entries after every batch.  Simplifications: exact field arithmetic; two-dimensional inputs (C19 has the other
case); `torch.linalg.eigh` enters as an arbitrary function of the covariances.
-/

namespace Verif.EkCache

open Verif.EKFAC

variable {R : Type}

/-- What a hook stores for one application of a module: the inputs of the samples (with a one appended if there is a bias) and the gradient that the output
receives in the backward pass, `none` if it receives none (influence_function.py:954-987, fisher.py:263, 278). -/
structure Rec (R : Type) where
  a : List (ℕ → R)
  ds : Option (List (ℕ → R))

/-- `self.layer_cache` in insertion order (influence_function.py:916). -/
abbrev Cache (R : Type) := List (String × Rec R)

/-- The applications of the selected modules in one forward pass, in order; every one assigns to the dictionary (influence_function.py:984-987). -/
def fill (cache : Cache R) (fwd : List (String × Rec R)) : Cache R := fwd.foldl (fun c e => PyDict.set e.1 e.2 c) cache

/-- `a_prev * mask[..., None]` with inputs of shape `(n', 1, d)` and the mask of ones of shape `(n, 1)` (fisher.py:267-270, 427-430): equal sizes, or one of them is 1
and is repeated; else torch raises `RuntimeError`. -/
def maskRows (a : List (ℕ → R)) (n : ℕ) : Except Err (List (ℕ → R)) :=
  if a.length = n ∨ n = 1 then .ok a
  else if a.length = 1 then .ok (a.flatMap fun x => List.replicate n x)
  else .error .runtimeError

/-- The body of the loop over `layer_cache.items()` in `_update_covariance` (fisher.py:262-295).  `None.view` raises `AttributeError`. -/
def covOne [Field R] (total n : ℕ) (est : Dict (Cov R × Cov R)) (e : String × Rec R) : Except Err (Dict (Cov R × Cov R)) := do
  let a ← maskRows e.2.a n
  match e.2.ds with
  | none => .error .attributeError
  | some ds => pure fun k => if k = e.1 then some (covNew total n (est e.1) a ds) else est k

/-- One batch: its size and the applications of the modules in the forward pass. -/
structure Batch (R : Type) where
  size : ℕ
  fwd : List (String × Rec R)

/-- One iteration of `estimate_covariance` (fisher.py:422-449). -/
def covBatch [Field R] (st : Dict (Cov R × Cov R) × Cache R × ℕ) (b : Batch R) : Except Err (Dict (Cov R × Cov R) × Cache R × ℕ) := do
  let cache := fill st.2.1 b.fwd
  let est ← cache.foldlM (covOne st.2.2 b.size) st.1
  pure (est, cache, st.2.2 + b.size)

/-- `estimate_covariance` on the visited batches, from the cache as it is (fisher.py:417-451). -/
def covPass [Field R] (cache : Cache R) (bs : List (Batch R)) : Except Err (Dict (Cov R × Cov R) × Cache R × ℕ) := bs.foldlM covBatch ((fun _ => none), cache, 0)

/-- `ds_curr.unsqueeze(-1) @ a_prev_masked.unsqueeze(2)`: one product per sample, a single row being repeated (fisher.py:346-350). -/
def pairRows (ds a : List (ℕ → R)) : Except Err (List ((ℕ → R) × (ℕ → R))) :=
  if ds.length = a.length then .ok (a.zip ds)
  else if ds.length = 1 then .ok (a.flatMap fun x => ds.map fun y => (x, y))
  else if a.length = 1 then .ok (a.flatMap fun x => ds.map fun y => (x, y))
  else .error .runtimeError

/-- First access or weighted update of the eigenvalues of one layer (fisher.py:370-379). -/
def lamNew [Field R] (total rows : ℕ) (cur : Option (Cov R)) (new : Cov R) : Cov R :=
  match cur with
  | some old => mix total rows old new
  | none => new

/-- The body of the loop in `_update_lambda` (fisher.py:333-379).  `sq nm` gives the squares `square(q_s @ dtheta @ q_a.T)` of one sample for the stored
eigenvectors of `nm`; without stored eigenvectors `cached_q[layer_name]` raises. -/
def lamOne [Field R] (sq : String → Option ((ℕ → R) → (ℕ → R) → Cov R)) (total n : ℕ) (est : Dict (Cov R)) (e : String × Rec R) : Except Err (Dict (Cov R)) := do
  match e.2.ds with
  | none => .error .attributeError
  | some ds =>
    let a ← maskRows e.2.a n
    let rows ← pairRows ds a
    match sq e.1 with
    | none => .error .keyError
    | some f =>
      let new : Cov R := fun i j => (rows.map fun x => f x.1 x.2 i j).sum / (rows.length : R)
      pure fun k => if k = e.1 then some (lamNew total a.length (est e.1) new) else est k

/-- One iteration of `estimate_lambda` (fisher.py:517-544). -/
def lamBatch [Field R] (sq : String → Option ((ℕ → R) → (ℕ → R) → Cov R)) (st : Dict (Cov R) × Cache R × ℕ) (b : Batch R) :
    Except Err (Dict (Cov R) × Cache R × ℕ) := do
  let cache := fill st.2.1 b.fwd
  let est ← cache.foldlM (lamOne sq st.2.2 b.size) st.1
  pure (est, cache, st.2.2 + b.size)

/-- `estimate_lambda` on the visited batches, from the cache as it is (fisher.py:512-546). -/
def lamPass [Field R] (sq : String → Option ((ℕ → R) → (ℕ → R) → Cov R)) (cache : Cache R) (bs : List (Batch R)) : Except Err (Dict (Cov R) × Cache R × ℕ) :=
  bs.foldlM (lamBatch sq) ((fun _ => none), cache, 0)

/-- The three stages of `cache()` (influence_function.py:998-1017); `eig` turns the covariances into `sq`.  `bs2` are the batches of the second pass: the loader is
iterated again and may shuffle.  The result: covariances, eigenvalues and the dictionary that the next call starts from. -/
def cacheStats [Field R] (eig : Dict (Cov R × Cov R) → String → Option ((ℕ → R) → (ℕ → R) → Cov R)) (cache : Cache R) (bs bs2 : List (Batch R)) :
    Except Err (Dict (Cov R × Cov R) × Dict (Cov R) × Cache R) := do
  let r ← covPass cache bs
  let s ← lamPass (eig r.1) r.2.1 bs2
  pure (r.1, s.1, s.2.1)

/-! ## Hooks -/

/-- A registered hook: the handle (number of the `cache()` call), the module it sits on and the attributor that owns it (influence_function.py:989-994). -/
structure Hook where
  call : ℕ
  module_ : ℕ
  owner : ℕ

/-- The attributors of one model: the requested names, and the module a name stands for (`get_submodule`).  Two names may stand for one module. -/
structure Setup where
  names : ℕ → List String
  modOf : String → ℕ

/-- `self.module_to_name[module]`: a dictionary built from the requested names, so the last name wins (influence_function.py:911-914). -/
def Setup.nameOf (S : Setup) (owner m : ℕ) : Option String := (S.names owner).reverse.find? fun s => S.modOf s = m

/-- The model with its hooks and the caches of the attributors. -/
structure World (R : Type) where
  hooks : List Hook
  caches : ℕ → Cache R
  calls : ℕ

/-- One hook of a module called with outputs that require gradients or not: `outputs.retain_grad()` raises `RuntimeError` without gradients; then the entry is
assigned (influence_function.py:984-987).  A hook of another module is not called. -/
def fireHook (S : Setup) (rg : Bool) (m : ℕ) (r : Rec R) (caches : ℕ → Cache R) (h : Hook) : Except Err (ℕ → Cache R) :=
  if h.module_ ≠ m then .ok caches
  else if rg = false then .error .runtimeError
  else match S.nameOf h.owner m with
    | none => .error .keyError
    | some nm => .ok fun o => if o = h.owner then PyDict.set nm r (caches o) else caches o

/-- A forward pass: the modules it applies, in order, with what a hook would see; the hooks of a module run in order of registration. -/
def forward (S : Setup) (rg : Bool) (hooks : List Hook) (caches : ℕ → Cache R) (run : List (ℕ × Rec R)) : Except Err (ℕ → Cache R) :=
  run.foldlM (fun c x => hooks.foldlM (fireHook S rg x.1 x.2) c) caches

/-- The hooks that call number `call` of attributor `owner` registers (influence_function.py:989-994). -/
def newHooks (S : Setup) (call owner : ℕ) : List Hook := (S.names owner).map fun s => ⟨call, S.modOf s, owner⟩

/-- What happens: a call of `cache()` by an attributor, which makes forward passes with gradients and succeeds or raises; a forward pass outside. -/
inductive Op (R : Type)
  | cache (owner : ℕ) (runs : List (List (ℕ × Rec R))) (ok : Bool)
  | outside (rg : Bool) (run : List (ℕ × Rec R))

/-- One operation (influence_function.py:989-1021): the hooks are removed only at the end of a call that does not raise.  A forward pass that raises changes no
hooks; its effect on the caches is left out.  `none` in the second place: no exception in a forward pass. -/
def step (S : Setup) (w : World R) : Op R → World R × Option Err
  | .cache owner runs ok =>
    let hooks := w.hooks ++ newHooks S w.calls owner
    match runs.foldlM (fun c run => forward S true hooks c run) w.caches with
    | .error e => (⟨hooks, w.caches, w.calls + 1⟩, some e)
    | .ok c => (⟨if ok then hooks.filter fun h => h.call ≠ w.calls else hooks, c, w.calls + 1⟩, none)
  | .outside rg run =>
    match forward S rg w.hooks w.caches run with
    | .error e => (w, some e)
    | .ok c => (⟨w.hooks, c, w.calls⟩, none)

/-- A sequence of operations from a model without hooks. -/
def exec (S : Setup) (ops : List (Op R)) : World R := ops.foldl (fun w o => (step S w o).1) ⟨[], fun _ => [], 0⟩

end Verif.EkCache
