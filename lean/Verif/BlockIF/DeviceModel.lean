import Verif.BlockIF.OffloadModel

/-!
# The stores with devices
(`/repo/dattri/algorithm/block_projected_if/offload/memory.py`, `offload/cpu.py`,
`offload/__init__.py`)

The two managers differ only in where tensors live, so one definition models a function of both files,
with the manager as a parameter.  Simplifications: as in `OffloadModel.lean`, but every tensor has a
device; moving a tensor never fails and never changes values; the data type of tensors is left out
(both managers store `float32`).
-/

namespace Verif.BlockIF

open Verif

variable {K P : Type} [Zero K]

/-- A device. -/
inductive Dev
  | cpu
  | gpu (n : ℕ)
deriving DecidableEq

/-- A tensor on a device. -/
structure Placed (α : Type) where
  dev : Dev
  val : α

/-- `tensor.to(device)`. -/
def Placed.to {α : Type} (t : Placed α) (dev : Dev) : Placed α := ⟨dev, t.val⟩

/-- `t.cpu() if t.device.type != "cpu" else t` (cpu.py:85, 195-198, 372). -/
def Placed.toCpu {α : Type} (t : Placed α) : Placed α := if t.dev ≠ .cpu then t.to .cpu else t

/-- The two managers. -/
inductive Manager
  | memory
  | cpu
deriving DecidableEq

/-- A manager with its tensors (memory.py:21-44, cpu.py:21-44). -/
structure DMem (K P : Type) where
  layers : ℕ
  device : Dev
  dims : Option (List ℕ)
  train : List (ℕ × Placed (Grad K))
  test : List (ℕ × Placed (Grad K))
  ifvp : List (ℕ × Placed (Grad K))
  pre : List (Option (Placed P))

/-- `__init__` (memory.py:21-44, cpu.py:21-44). -/
def DMem.new (K P : Type) (device : Dev) (layers : ℕ) : DMem K P :=
  ⟨layers, device, none, [], [], [], List.replicate layers none⟩

/-- The dictionary of a kind. -/
def DMem.cache (m : DMem K P) : Kind → List (ℕ × Placed (Grad K))
  | .train => m.train
  | .test => m.test
  | .ifvp => m.ifvp

/-- `cached_…[batch_idx] = concatenated` (memory.py:129-132, 199; cpu.py:140-143, 228). -/
def DMem.put (m : DMem K P) (k : Kind) (i : ℕ) (t : Placed (Grad K)) : DMem K P :=
  match k with
  | .train => { m with train := PyDict.set i t m.train }
  | .test => { m with test := PyDict.set i t m.test }
  | .ifvp => { m with ifvp := PyDict.set i t m.ifvp }

/-- The device on which the concatenated tensor is allocated (memory.py:74, 77: `self.device`;
cpu.py:74, 77: `"cpu"`). -/
def Manager.home (s : Manager) (device : Dev) : Dev :=
  match s with
  | .memory => device
  | .cpu => .cpu

/-- The right-hand side of the assignment (memory.py:84: `grad.to(self.device)`; cpu.py:84-86:
moved to the CPU unless it is there). -/
def Manager.source (s : Manager) (device : Dev) (g : Placed (Grad K)) : Placed (Grad K) :=
  match s with
  | .memory => g.to device
  | .cpu => g.toCpu

/-- `_concatenate_gradients` (memory.py:61-87, cpu.py:61-90). -/
def DMem.concat (s : Manager) (device : Dev) (dims : Option (List ℕ))
    (gs : List (Option (Placed (Grad K)))) : Except Err (List ℕ × Placed (Grad K)) :=
  (BlockIF.concat dims (gs.map (Option.map fun g => (s.source device g).val))).map
    fun r => (r.1, ⟨s.home device, r.2⟩)

/-- `store_gradients` and `store_ifvp` (memory.py:114-132, 191-199; cpu.py:125-143, 220-228). -/
def DMem.store (s : Manager) (m : DMem K P) (k : Kind) (i : ℕ) (gs : List (Option (Placed (Grad K)))) :
    DMem K P × Except Err Unit :=
  match ensureDims m.dims (gs.map (Option.map Placed.val)) with
  | .error x => (m, .error x)
  | .ok d =>
    match DMem.concat s m.device (some d) gs with
    | .error x => ({ m with dims := some d }, .error x)
    | .ok r => (({ m with dims := some d } : DMem K P).put k i r.2, .ok ())

/-- `store_preconditioner` (memory.py:164-176: as it is; cpu.py:177-200: moved to the CPU). -/
def DMem.storePre (s : Manager) (m : DMem K P) (i : ℕ) (p : Option (Placed P)) : DMem K P :=
  if i < m.pre.length then
    match s with
    | .memory => { m with pre := m.pre.set i p }
    | .cpu => { m with pre := m.pre.set i (p.map Placed.toCpu) }
  else m

/-- `clear_cache` (memory.py:321-327, cpu.py:344-350). -/
def DMem.clear (m : DMem K P) : DMem K P :=
  { m with train := [], test := [], ifvp := [], pre := List.replicate m.layers none }

/-- `_split_tensor` (memory.py:89-112: slices on the tensor's device; cpu.py:92-123: moved to the
compute device unless that is the CPU). -/
def DMem.split (s : Manager) (m : DMem K P) (t : Placed (Grad K)) : Except Err (List (Placed (Grad K))) :=
  (BlockIF.split m.dims t.val).map fun ts => ts.map fun g =>
    match s with
    | .memory => ⟨t.dev, g⟩
    | .cpu => if m.device ≠ .cpu then (⟨t.dev, g⟩ : Placed (Grad K)).to m.device else ⟨t.dev, g⟩

/-- `retrieve_gradients` and `retrieve_ifvp` (memory.py:134-162, 201-214; cpu.py:145-167, 230-246). -/
def DMem.retrieve (s : Manager) (m : DMem K P) (k : Kind) (i : ℕ) : Except Err (List (Placed (Grad K))) :=
  match PyDict.get? (m.cache k) i with
  | some t => m.split s t
  | none =>
    match m.dims with
    | none => .ok (List.replicate m.layers ⟨m.device, []⟩)
    | some d => .ok (d.map fun _ => ⟨m.device, []⟩)

/-- `retrieve_preconditioner` (memory.py:178-189: as it is; cpu.py:202-218: moved to the compute
device). -/
def DMem.retrievePre (s : Manager) (m : DMem K P) (i : ℕ) : Option (Placed P) :=
  if m.pre.length ≤ i then none
  else
    match s with
    | .memory => (m.pre[i]?).join
    | .cpu => (m.pre[i]?).join.map fun p => p.to m.device

/-- `move_to_device` (memory.py:332-341, cpu.py:355-364). -/
def DMem.moveTo {α : Type} (m : DMem K P) (t : Placed α) : Placed α :=
  if t.dev ≠ m.device then t.to m.device else t

/-- `move_from_device` (memory.py:343-355, cpu.py:366-375). -/
def Manager.moveFrom {α : Type} (s : Manager) (t : Placed α) : Placed α :=
  match s with
  | .memory => t
  | .cpu => t.toCpu

/-- The dictionary a loader reads (memory.py:236-242, cpu.py:266-272). -/
def DMem.select (m : DMem K P) (dataType : String) (isTest : Bool) :
    Option (List (ℕ × Placed (Grad K))) :=
  if dataType = "gradients" then some (if isTest then m.test else m.train)
  else if dataType = "ifvp" then some m.ifvp
  else none

/-- `torch.cat`: tensors on different devices raise, otherwise the result is on their device. -/
def catDev (ds : List Dev) : Except Err Dev :=
  match ds with
  | [] => .error .runtimeError
  | a :: r => if r.all (· == a) then .ok a else .error .runtimeError

/-- `collate_fn` (memory.py:278-296, cpu.py:302-322); a single item is returned as it is. -/
def collateD (items : List (ℕ × Placed (Grad K))) : Except Err (Placed (Grad K) × List (ℕ × ℕ × ℕ)) :=
  (catDev (items.map fun p => p.2.dev)).map fun a =>
    (⟨a, (collate (items.map fun p => (p.1, p.2.val))).1⟩,
      (collate (items.map fun p => (p.1, p.2.val))).2)

/-- `create_gradient_dataloader` and iterating over it (memory.py:216-303, cpu.py:248-330). -/
def DMem.loader (m : DMem K P) (dataType : String) (isTest : Bool) (g : ℕ) (range : Option (ℤ × ℤ)) :
    Option (List (Except Err (Placed (Grad K) × List (ℕ × ℕ × ℕ)))) :=
  (m.select dataType isTest).map fun c =>
    (Verif.batches g ((sortedItems c).filter fun q => inRange range q.1)).map collateD

/-- A call that changes the store. -/
inductive DMemOp (K P : Type)
  | store (k : Kind) (i : ℕ) (gs : List (Option (Placed (Grad K))))
  | storePre (i : ℕ) (p : Option (Placed P))
  | clear

/-- One call; an exception is caught by the caller. -/
def DMem.step (s : Manager) (m : DMem K P) : DMemOp K P → DMem K P
  | .store k i gs => (m.store s k i gs).1
  | .storePre i p => m.storePre s i p
  | .clear => m.clear

/-- A sequence of calls on a new manager. -/
def DMem.run {K P : Type} [Zero K] (s : Manager) (device : Dev) (layers : ℕ) (ops : List (DMemOp K P)) :
    DMem K P := ops.foldl (DMem.step s) (DMem.new K P device layers)

/-- What `create_offload_manager` returns (offload/__init__.py:20-49); `disk` raises without a
directory (disk.py:44-46). -/
inductive Created
  | store (s : Manager)
  | disk (dir : String)
deriving DecidableEq

def createManager (offload : String) (cacheDir : Option String) : Except Err Created :=
  if offload = "none" then .ok (.store .memory)
  else if offload = "cpu" then .ok (.store .cpu)
  else if offload = "disk" then
    match cacheDir with
    | none => .error .valueError
    | some dir => .ok (.disk dir)
  else .error .valueError

end Verif.BlockIF
