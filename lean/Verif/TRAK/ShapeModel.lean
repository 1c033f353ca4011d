import Verif.TRAK.Model

/-!
# `TRAKAttributor` when the correct-probability function returns one-element tensors, and after a failed `cache` (`dattri/algorithm/trak.py`)

`TRAK/Model` lets the user's function return a zero-dimensional tensor per sample.  If it returns a tensor with one element (as a loss with
`reduction="none"` or a sigmoid output of shape `(1,)` does), `vmap` gives a `(batch, 1)` tensor.  `cache` flattens it; `attribute` and `self_attribute`
do not, and broadcasting does the rest.  Same simplifications as in `TRAK/Model`.
-/

namespace Verif.TRAK

open Matrix

variable {R X C : Type} {d : ℕ}

/-- Broadcasting of two dimensions; `none` is a `RuntimeError`. -/
def bdim (a b : ℕ) : Option ℕ := if a = b then some a else if a = 1 then some b else if b = 1 then some a else none

/-- `torch.ones(batch_size) - p` for `p` of shape `(batch_size, 1)`: broadcasts to `(batch_size, batch_size)`, row `r` being constant
(trak.py:314-327, 484-497). -/
def wideBatch [Field R] (p : X → R) (b : List X) : Mat R := ⟨b.length, b.length, fun r _ => ((b.map fun x => 1 - p x)[r]?).getD 0⟩

/-- `ones - p.flatten()` for `p` of shape `(batch_size, 1)`: one number per sample (trak.py:180-192). -/
def flatBatch [Field R] (p : X → R) (b : List X) : List R := b.map fun x => 1 - p x

/-- `torch.cat(Q, dim=0)` of matrices: all must have the same width (trak.py:329, 499). -/
def catWide (ms : List (Mat R)) [Zero R] : Except Err (Mat R) :=
  match ms with
  | [] => .error .runtimeError
  | m :: ms' =>
    if (m :: ms').all fun m' => m'.c == m.c then
      .ok ⟨((m :: ms').map (·.r)).sum, m.c, fun i s => ((((m :: ms').flatMap fun m' => (List.range m'.r).map fun r : ℕ => m'.f r)[i]?).map (· s)).getD 0⟩
    else .error .runtimeError

/-- A 3-D tensor. -/
structure T3 (R : Type) where
  d0 : ℕ
  d1 : ℕ
  d2 : ℕ
  f : ℕ → ℕ → ℕ → R

/-- `(S * Q.unsqueeze(0)).T` for 2-D `S` and `Q`: `S` is broadcast with the `(1, n, w)` tensor `Q.unsqueeze(0)`, and `.T` reverses the three dimensions
(trak.py:391-393). -/
def finishWide [Field R] (S Q : Mat R) : Except Err (T3 R) :=
  match bdim S.r Q.r, bdim S.c Q.c with
  | some m, some k => .ok ⟨k, m, 1, fun a b _ =>
      S.f (if S.r = 1 then 0 else b) (if S.c = 1 then 0 else a) * Q.f (if Q.r = 1 then 0 else b) (if Q.c = 1 then 0 else a)⟩
  | _, _ => .error .runtimeError

/-- One checkpoint of `attribute` with a training loader, for such a function (trak.py:251-390). -/
noncomputable def attrStepW [Field R] (A : Attributor R X C d) (tr te : Loader X) (s : Option (Mat R) × Option (Mat R)) (ci : C × ℕ) :
    Except Err (Option (Mat R) × Option (Mat R)) := do
  let Φ ← catRows tr (A.phiLoss ci.1)
  let q ← catWide ((List.range tr.nb).map fun b : ℕ => wideBatch (A.prob ci.1) (tr.batch b))
  let Ψ ← catRows te (A.phiTarget ci.1)
  let inv ← solveT A.reg Φ
  pure (some (runMat s.1 ci.2 (prod Ψ inv)), some (runMat s.2 ci.2 q))

/-- `attribute(test, train)` on an attributor without cache, for such a function (trak.py:204-393). -/
noncomputable def attributeW [Field R] (A : Attributor R X C d) (tr te : Loader X) : Except Err (T3 R) := do
  let s ← A.ckpts.zipIdx.foldlM (attrStepW A tr te) (none, none)
  match s.1, s.2 with
  | some S, some Q => finishWide S Q
  | _, _ => .error .attributeError

/-- Train part of one checkpoint of `cache` for such a function: flattened batch by batch (trak.py:141-193). -/
def trainPartFlat [Field R] (A : Attributor R X C d) (c : C) (tr : Loader X) : Except Err (List (Fin d → R) × List R) := do
  let Φ ← catRows tr (A.phiLoss c)
  pure (Φ, ((List.range tr.nb).map fun b : ℕ => flatBatch (A.prob c) (tr.batch b)).flatten)

/-! ### Failing `cache` -/

/-- What an attributor object holds: `full_train_dataloader` is set at the start of `cache`, `inv_XTX_XT_list` and `Q` only at its end, and do not exist before the
first successful `cache` (trak.py:102, 119-121, 201-202). -/
structure Obj (R X : Type) (d : ℕ) where
  full : Option (Loader X) := none
  lists : Option (List (List (Fin d → R)) × Option (List R)) := none

/-- `cache` as a state change: outcome and the object afterwards, also when it raises (trak.py:105-202). -/
noncomputable def Obj.cache [Field R] (A : Attributor R X C d) (o : Obj R X d) (full : Loader X) : Except Err Unit × Obj R X d :=
  match Verif.TRAK.cache A fresh full with
  | .error e => (.error e, { o with full := some full })
  | .ok st => (.ok (), ⟨some full, some (st.inv, st.Q)⟩)

/-- One checkpoint of the loop of `attribute` without loader on an object that may lack the lists (trak.py:331-384). -/
def stepNoLists [Field R] (A : Attributor R X C d) (te : Loader X) (c : C) : Except Err Unit := do
  let _ ← catRows te (A.phiTarget c)
  .error .attributeError

/-- `attribute` on an object (trak.py:204-393): reading a missing attribute raises `AttributeError`, in the loop after the test features, or after the loop if there is
no checkpoint. -/
noncomputable def Obj.attribute' [Field R] (A : Attributor R X C d) (o : Obj R X d) (te : Loader X) (tr : Option (Loader X)) : Except Err (Mat R) :=
  match o.lists with
  | some ls => Verif.TRAK.attribute' A ⟨o.full, ls.1, ls.2⟩ te tr
  | none =>
    if tr.isSome || o.full.isNone then Verif.TRAK.attribute' A ⟨o.full, [], none⟩ te tr
    else do
      A.ckpts.forM (stepNoLists A te)
      .error .attributeError

end Verif.TRAK
