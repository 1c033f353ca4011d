import Verif.BlockIF.IFModel

/-!
# Storing and retrieving preconditioners

`/repo/dattri/algorithm/block_projected_if/offload/memory.py:164-189, 305-311`,
`offload/cpu.py:169-205, 325-331` and `offload/disk_io/manager.py:877-915, 929-982`.

A layer index is a value of `ι`, its preconditioner a value of `M i`.  Moving tensors between devices is
the identity.
-/

namespace Verif.Precond

variable {ι : Type} [DecidableEq ι] {M : ι → Type}

/-- One optional preconditioner per layer index: the list of the in-memory managers (memory.py:43,
cpu.py:43), or the files `precond/layer_{i}.pt`. -/
abbrev Slots (M : ι → Type) := (i : ι) → Option (M i)

/-- `store_preconditioner` in memory (memory.py:164-176, cpu.py:169-188): indices past the end of the
list (`valid` is false) are ignored. -/
def memStore (valid : ι → Bool) (s : Slots M) (i : ι) (p : Option (M i)) : Slots M :=
  if valid i then Function.update s i p else s

/-- `retrieve_preconditioner` in memory (memory.py:178-189, cpu.py:190-205). -/
def memRetrieve (valid : ι → Bool) (s : Slots M) (i : ι) : Option (M i) := if valid i then s i else none

/-- A sequence of calls of `store_preconditioner`. -/
def memStores (valid : ι → Bool) (calls : List ((i : ι) × Option (M i))) : Slots M :=
  calls.foldl (fun s c => memStore valid s c.1 c.2) fun _ => none

/-- The disk manager: the files and the saves submitted to the executor that have not finished, in the
order of submission (manager.py:178-179, 900-901). -/
structure Disk (M : ι → Type) where
  file : Slots M
  queue : List ((i : ι) × M i)

/-- What happens at a disk manager. -/
inductive Act (M : ι → Type)
  /-- `store_preconditioner(i, p)` -/
  | store (i : ι) (p : Option (M i))
  /-- the `k`-th unfinished save finishes -/
  | save (k : ℕ)
  /-- the `k`-th unfinished save raises -/
  | fail (k : ℕ)
  /-- `wait_for_async_operations` returns -/
  | wait

/-- One step with `threads` executor threads (manager.py:877-901, 929-953).  `None` is not stored.  The
executor starts saves in order, so only the first `threads` unfinished ones can finish.  A save that
raises is logged and forgotten (manager.py:955-971).  Simplified: a save replaces the file at once, and
one that raises leaves the file as it was. -/
def step (threads : ℕ) (d : Disk M) : Act M → Option (Disk M)
  | .store _ none => some d
  | .store i (some p) => some { d with queue := d.queue ++ [⟨i, p⟩] }
  | .save k =>
    if k < threads then
      match d.queue[k]? with
      | none => none
      | some x => some ⟨Function.update d.file x.1 (some x.2), d.queue.eraseIdx k⟩
    else none
  | .fail k =>
    if k < threads then
      match d.queue[k]? with
      | none => none
      | some _ => some ⟨d.file, d.queue.eraseIdx k⟩
    else none
  | .wait => if d.queue.isEmpty then some d else none

/-- A schedule. -/
def exec (threads : ℕ) (d : Disk M) (acts : List (Act M)) : Option (Disk M) :=
  acts.foldlM (step threads) d

end Verif.Precond

namespace Verif.BlockIF

open Verif

variable {K : Type} [Field K] [DecidableEq K] {L : ℕ} {d : Fin L → ℕ}

/-- The calls of `store_preconditioner` made by `compute_preconditioners`, and how it ends
(block_projected_if.py:417-431). -/
noncomputable def preStores (damping : Option K) (cs : List (List (Row K d) × List (ℕ × ℕ × ℕ))) :
    List (Fin L) → List ((l : Fin L) × Matrix (Fin (d l)) (Fin (d l)) K) × Except Err Unit
  | [] => ([], .ok ())
  | l :: ls =>
    if d l = 0 ∨ (accumulate l cs).2 = 0 then preStores damping cs ls
    else
      match stableInverse damping (((accumulate l cs).2 : K)⁻¹ • (accumulate l cs).1) with
      | .error e => ([], .error e)
      | .ok P => (⟨l, P⟩ :: (preStores damping cs ls).1, (preStores damping cs ls).2)

end Verif.BlockIF
