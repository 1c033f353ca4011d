import Verif.BlockIF.ConcatModel
import Verif.BlockIF.IFModel

/-!
# The in-memory stores
(`/repo/dattri/algorithm/block_projected_if/offload/memory.py`; `offload/cpu.py` has the same logic with tensors moved between devices)

Simplifications: devices are left out; batch and layer indices are natural numbers; a tensor without elements is the empty list of rows,
whatever its shape; a loader reads the stored tensors when it is created.
-/

namespace Verif.BlockIF

open Verif

variable {K P : Type} [Zero K]

/-- The three dictionaries of batches. -/
inductive Kind
  | train
  | test
  | ifvp
deriving DecidableEq

/-- `MemoryOffloadManager` (memory.py:21-44). -/
structure Mem (K P : Type) where
  layers : ℕ
  dims : Option (List ℕ)
  train : List (ℕ × Grad K)
  test : List (ℕ × Grad K)
  ifvp : List (ℕ × Grad K)
  pre : List (Option P)

/-- `__init__` (memory.py:21-44). -/
def Mem.new (K P : Type) (layers : ℕ) : Mem K P := ⟨layers, none, [], [], [], List.replicate layers none⟩

/-- The dictionary of a kind. -/
def Mem.cache (m : Mem K P) : Kind → List (ℕ × Grad K)
  | .train => m.train
  | .test => m.test
  | .ifvp => m.ifvp

/-- `cached_…[batch_idx] = concatenated` (memory.py:129-132, 199). -/
def Mem.put (m : Mem K P) (k : Kind) (i : ℕ) (t : Grad K) : Mem K P :=
  match k with
  | .train => { m with train := PyDict.set i t m.train }
  | .test => { m with test := PyDict.set i t m.test }
  | .ifvp => { m with ifvp := PyDict.set i t m.ifvp }

/-- `store_gradients` and `store_ifvp` (memory.py:114-132, 191-199). The dimensions stay set when the concatenation raises
(memory.py:70, 46-59). -/
def Mem.store (m : Mem K P) (k : Kind) (i : ℕ) (gs : List (Option (Grad K))) : Mem K P × Except Err Unit :=
  match ensureDims m.dims gs with
  | .error x => (m, .error x)
  | .ok d =>
    match concat (some d) gs with
    | .error x => ({ m with dims := some d }, .error x)
    | .ok r => (({ m with dims := some d } : Mem K P).put k i r.2, .ok ())

/-- `store_preconditioner` (memory.py:164-176). -/
def Mem.storePre (m : Mem K P) (i : ℕ) (p : Option P) : Mem K P :=
  if i < m.pre.length then { m with pre := m.pre.set i p } else m

/-- `clear_cache` (memory.py:321-327): the dimensions stay. -/
def Mem.clear (m : Mem K P) : Mem K P :=
  { m with train := [], test := [], ifvp := [], pre := List.replicate m.layers none }

/-- `retrieve_gradients` and `retrieve_ifvp` (memory.py:134-162, 201-214). -/
def Mem.retrieve (m : Mem K P) (k : Kind) (i : ℕ) : Except Err (List (Grad K)) :=
  match PyDict.get? (m.cache k) i with
  | some t => split m.dims t
  | none =>
    match m.dims with
    | none => .ok (List.replicate m.layers [])
    | some d => .ok (d.map fun _ => [])

/-- `retrieve_preconditioner` (memory.py:178-189). -/
def Mem.retrievePre (m : Mem K P) (i : ℕ) : Option P := if m.pre.length ≤ i then none else (m.pre[i]?).join

/-- `has_preconditioners` (memory.py:305-311). -/
def Mem.hasPre (m : Mem K P) : Bool := m.pre.any Option.isSome

/-- `has_ifvp` (memory.py:313-319). -/
def Mem.hasIfvp (m : Mem K P) : Bool := decide (0 < m.ifvp.length)

/-- The dictionary a loader reads (memory.py:236-242). -/
def Mem.select (m : Mem K P) (dataType : String) (isTest : Bool) : Option (List (ℕ × Grad K)) :=
  if dataType = "gradients" then some (if isTest then m.test else m.train)
  else if dataType = "ifvp" then some m.ifvp
  else none

/-- `start_batch <= idx < end_batch` (memory.py:246-250). -/
def inRange (range : Option (ℤ × ℤ)) (i : ℕ) : Bool :=
  match range with
  | none => true
  | some r => decide (r.1 ≤ (i : ℤ) ∧ (i : ℤ) < r.2)

/-- `create_gradient_dataloader` (memory.py:216-303): `none` for an unknown kind of data. -/
def Mem.loader (m : Mem K P) (dataType : String) (isTest : Bool) (g : ℕ) (range : Option (ℤ × ℤ)) :
    Option (List (Grad K × List (ℕ × ℕ × ℕ))) :=
  (m.select dataType isTest).map fun c => (Verif.batches g ((sortedItems c).filter fun q => inRange range q.1)).map collate

/-- A call that changes the store. -/
inductive MemOp (K P : Type)
  | store (k : Kind) (i : ℕ) (gs : List (Option (Grad K)))
  | storePre (i : ℕ) (p : Option P)
  | clear

/-- One call; an exception is caught by the caller. -/
def Mem.step (m : Mem K P) : MemOp K P → Mem K P
  | .store k i gs => (m.store k i gs).1
  | .storePre i p => m.storePre i p
  | .clear => m.clear

/-- A sequence of calls on a new manager. -/
def Mem.run (K P : Type) [Zero K] (layers : ℕ) (ops : List (MemOp K P)) : Mem K P := ops.foldl Mem.step (Mem.new K P layers)

end Verif.BlockIF
