import Verif.Base.Tensor

/-!
# Which batches the attributors accept, and what they hand to the user's functions

The loaders given to an attributor yield tuples, lists, dicts or bare tensors.  Every attributor converts them in its own way before it calls the loss, target or
probability function of the user.  The model records these calls: the function and the data argument it receives.

Simplifications: a tensor is the list of its rows (its leading axis); what a row contains is abstract.  One checkpoint.  The numerical work between the calls raises
no exception and makes no further calls; a Hessian that is formed for a data argument counts as one call.
-/

namespace Verif.BatchKind

/-- A key of a dictionary: an integer or a string. -/
inductive Key
  | int (n : ℕ)
  | str (s : String)
  deriving DecidableEq, Repr

/-- Whether the key is an integer; such keys cannot be keyword arguments. -/
def Key.isInt : Key → Bool
  | .int _ => true
  | .str _ => false

/-- A tuple, a list or a dict (in insertion order). -/
inductive Struct (β : Type)
  | tup (l : List β)
  | lst (l : List β)
  | dct (l : List (Key × β))
  deriving DecidableEq, Repr

/-- A comprehension over the values that keeps the structure. -/
def Struct.map {β γ : Type} (f : β → γ) : Struct β → Struct γ
  | .tup l => .tup (l.map f)
  | .lst l => .lst (l.map f)
  | .dct l => .dct (l.map fun e => (e.1, f e.2))

/-- The values. -/
def Struct.vals {β : Type} : Struct β → List β
  | .tup l => l
  | .lst l => l
  | .dct l => l.map (·.2)

/-- A value in a batch: a tensor (its rows), or something without `.to` and `.shape`. -/
inductive Item (α : Type)
  | ten (rows : List α)
  | non
  deriving DecidableEq, Repr

/-- What a loader yields. -/
inductive Batch (α : Type)
  | str (s : Struct (Item α))
  | bare (rows : List α)
  deriving DecidableEq, Repr

/-- A tensor in the data argument of a user function: with a leading axis, or a single sample without one. -/
inductive Val (α : Type)
  | axis (l : List α)
  | one (a : α)
  deriving DecidableEq, Repr

/-- The functions of the user. -/
inductive Fn
  | loss
  | target
  | prob
  deriving DecidableEq, Repr

/-- How it is used: its gradient for one sample, its Hessian for a data argument, its value. -/
inductive Use
  | grad
  | hess
  | value
  deriving DecidableEq, Repr

/-- One use of a user function and the data argument it receives; a bare tensor is possible in one place. -/
structure Call (α : Type) where
  use : Use
  fn : Fn
  data : Struct (Val α) ⊕ List α
  deriving DecidableEq

variable {α : Type}

/-- `data.to(self.device)`. -/
def toDev : Item α → Except Err (List α)
  | .ten r => .ok r
  | .non => .error .attributeError

/-- `x.to(...)` for the keys that iterating over a dict gives: neither integers nor strings have it. -/
def keyTo (_ : Key) : Except Err (List α) := .error .attributeError

/-- `{k: v.to(self.device) for k, v in d.items()}` (base.py:356-359, tracin.py:143-145, trak.py:154-156). -/
def toDevD : List (Key × Item α) → Except Err (List (Key × List α))
  | [] => .ok []
  | (k, v) :: rest => do
    let r ← toDev v
    let rs ← toDevD rest
    pure ((k, r) :: rs)

/-- The conversion of a batch in `BaseInnerProductAttributor`, the IF attributors, TracIn and TRAK before a leading axis is added: tuples and lists become tuples,
dicts stay dicts, all else raises `TypeError` (base.py:351-365, 403-418, 511-525; influence_function.py:106-119, 249-262, 564-577, 711-725; tracin.py:138-151,
187-200, 325-338; trak.py:149-162, 278-291, 338-351, 466-479). -/
def checked : Batch α → Except Err (Struct (List α))
  | .str (.tup l) => do
    let r ← l.mapM toDev
    pure (.tup r)
  | .str (.lst l) => do
    let r ← l.mapM toDev
    pure (.tup r)
  | .str (.dct l) => do
    let r ← toDevD l
    pure (.dct r)
  | .bare _ => .error .typeError

/-- The batch size `torch.vmap` determines from the mapped tensors: `ValueError` if there is none or if sizes differ. -/
def vmapSize : List ℕ → Except Err ℕ
  | [] => .error .valueError
  | n :: rest => if rest.all (· == n) then .ok n else .error .valueError

variable [Inhabited α]

/-- `vmap(grad(f), in_dims=(None, 0))` on the batch (task.py:253-257, 339-343; tracin.py:124-128, trak.py:135-139): the data argument for row `i` has the rows themselves.
The sizes agree, so `default` is never taken. -/
def vmapAt0 (f : Fn) (d : Struct (List α)) : Except Err (List (Call α)) := do
  let n ← vmapSize (d.vals.map List.length)
  pure ((List.range n).map fun i : ℕ => ⟨.grad, f, .inl (d.map fun x => .one (x.getD i default))⟩)

/-- `unsqueeze(0)` on each tensor, then `vmap(grad(f), in_dims=(None, 1))` (base.py:353, 357, 150-154, 184-189; task.py:214, 301): axis 1 of the enlarged tensors is
mapped, the new axis of length one stays. -/
def vmapAt1 (f : Fn) (d : Struct (List α)) : Except Err (List (Call α)) := do
  let e := d.map fun x => [x]
  let n ← vmapSize (e.vals.map fun x => (x.headD []).length)
  pure ((List.range n).map fun i : ℕ => ⟨.grad, f, .inl (e.map fun x => .axis (x.map fun row => row.getD i default))⟩)

/-- The calls of a loop: all iterations one after the other, stopping at the first exception. -/
def loop {β : Type} (f : β → Except Err (List (Call α))) : List β → Except Err (List (Call α))
  | [] => .ok []
  | b :: bs => do
    let c ← f b
    let cs ← loop f bs
    pure (c ++ cs)

/-- `BaseInnerProductAttributor.attribute` with the calls that `transform_test_rep` makes (base.py:343-448), no normalisation. -/
def ifAttribute (transform : Except Err (List (Call α))) (train test : List (Batch α)) : Except Err (List (Call α)) :=
  loop (fun b => do
    let d ← checked b
    let g ← vmapAt1 .loss d
    let t ← loop (fun tb => do
      let dt ← checked tb
      let gt ← vmapAt1 .target dt
      let h ← transform
      pure (gt ++ h)) test
    pure (g ++ t)) train

/-- `transform_test_rep` of `IFAttributorExplicit` and `IFAttributorCG`: the Hessian of the loss on each batch of the cached loader, without a new axis
(influence_function.py:104-132, 247-275). -/
def hessBatches (full : List (Batch α)) : Except Err (List (Call α)) :=
  loop (fun b => do
    let d ← checked b
    pure [⟨.hess, .loss, .inl (d.map .axis)⟩]) full

/-- `_check_input_size` on `(model_params, *full_data)` (hessian.py:809-827) after unpacking (influence_function.py:584-588): unpacking a dict gives its keys, which have no
`shape`.  Differing sizes raise `IHVPUsageError`, here `valueError`; no data gives size 1. -/
def lissaSize : Struct (List α) → Except Err ℕ
  | .dct [] => .ok 1
  | .dct (_ :: _) => .error .attributeError
  | .tup l | .lst l =>
    match l.map List.length with
    | [] => .ok 1
    | n :: rest => if rest.all (· == n) then .ok n else .error .valueError

/-- `index_select` of the drawn rows and `.float()`, collected in a tuple (hessian.py:775-780, influence_function.py:603-606). -/
def lissaArg (float : α → α) (idx : List ℕ) (d : Struct (List α)) : Struct (Val α) :=
  .tup (d.vals.map fun x => .axis (idx.map fun i : ℕ => float (x.getD i default)))

/-- `transform_test_rep` of `IFAttributorLiSSA` (influence_function.py:562-589; hessian.py:896-915).  `draws n` are the index lists drawn for a batch of `n` rows, each of
`torch.randperm(n)[:batch_size]`. -/
def lissaBatches (float : α → α) (draws : ℕ → List (List ℕ)) (full : List (Batch α)) : Except Err (List (Call α)) :=
  loop (fun b => do
    let d ← checked b
    let n ← lissaSize d
    pure ((draws n).map fun idx => ⟨.hess, .loss, .inl (lissaArg float idx d)⟩)) full

/-- `IFAttributorDataInf.cache` on the first `m` batches (influence_function.py:699-735); concatenating no representations raises `RuntimeError`. -/
def dataInfCache (m : ℕ) (full : List (Batch α)) : Except Err (List (Call α)) := do
  let c ← loop (fun b => do
    let d ← checked b
    vmapAt1 .loss d) (full.take m)
  if (full.take m).isEmpty then .error .runtimeError else pure c

/-- `data_target_pair_list[batch_idx][j]` for a further batch (influence_function.py:400). -/
def getItem (j : ℕ) : Batch α → Except Err (Item α)
  | .str (.tup l) | .str (.lst l) =>
    match l[j]? with
    | some x => .ok x
    | none => .error .indexError
  | .str (.dct l) =>
    match l.find? (fun e => e.1 = .int j) with
    | some e => .ok e.2
    | none => .error .keyError
  | .bare rows =>
    match rows[j]? with
    | some a => .ok (.ten [a])
    | none => .error .indexError

/-- `torch.cat((a, b), dim=0)`: tensors are joined, other values raise `TypeError`. -/
def catItem : Item α → Item α → Except Err (List α)
  | .ten a, .ten b => .ok (a ++ b)
  | _, _ => .error .typeError

/-- `data_target_pair[j] = value`: lists and dicts take it, a tuple does not (influence_function.py:397, 407). -/
def setItem (j : ℕ) (v : List α) : Struct (Item α) → Except Err (Struct (Item α))
  | .tup _ => .error .typeError
  | .lst l => .ok (.lst (l.set j (.ten v)))
  | .dct l => .ok (.dct (l.map fun e => if e.1 = .int j then (e.1, .ten v) else e))

/-- `len(...)` of a batch. -/
def Struct.len {β : Type} (s : Struct β) : ℕ := s.vals.length

/-- The concatenation of one further batch, item by item (influence_function.py:396-403). -/
def arnoldiCat (b : Batch α) (len : ℕ) (s : Struct (Item α)) : Except Err (Struct (Item α)) :=
  (List.range len).foldlM (fun s j => do
    let x ← getItem j (.str s)
    let y ← getItem j b
    let v ← catItem x y
    setItem j v s) s

/-- `IFAttributorArnoldi.cache` on the first `m` batches (influence_function.py:385-417).  A first batch that is a bare tensor is written row by row; further batches then make
the row longer and do not fit (`RuntimeError`). -/
def arnoldiCache (m : ℕ) (full : List (Batch α)) : Except Err (List (Call α)) :=
  match full.take m with
  | [] => .error .indexError
  | .bare rows :: rest => if rows.isEmpty || rest.isEmpty then .ok [⟨.hess, .loss, .inr rows⟩] else .error .runtimeError
  | .str s :: rest => do
    let c ← rest.foldlM (fun s' b => arnoldiCat b s.len s') s
    let c ← (List.range c.len).foldlM (fun s' j => do
      let x ← getItem j (.str s')
      let r ← toDev x
      setItem j r s') c
    match c with
    | .tup l => do
      let r ← l.mapM toDev
      pure [⟨.hess, .loss, .inl (.tup (r.map .axis))⟩]
    | .lst l => do
      let r ← l.mapM toDev
      pure [⟨.hess, .loss, .inl (.lst (r.map .axis))⟩]
    | .dct l => do
      let r ← toDevD l
      pure [⟨.hess, .loss, .inl (.dct (r.map fun e => (e.1, .axis e.2)))⟩]

/-- The attributors built on `BaseInnerProductAttributor`. -/
inductive IFMethod
  | explicit
  | cg
  | lissa
  | arnoldi
  | datainf
  | ekfac
  deriving DecidableEq, Repr

/-- `batch[0].shape[0]` and `tuple(data.to(device) for data in batch)` (fisher.py:423-424, 518-519): the first asks a dict for the key 0, the second goes through its keys. -/
def ekfacData (s : Struct (Item α)) : Except Err (Struct (Val α)) := do
  let x ← getItem 0 (.str s)
  let _ ← toDev x
  match s with
  | .tup l | .lst l => do
    let r ← l.mapM toDev
    pure (.tup (r.map .axis))
  | .dct l => do
    let r ← (l.map (·.1)).mapM keyTo
    pure (.tup (r.map .axis))

/-- `IFAttributorEKFAC.cache`: the target function on each of the first `m` batches, in two passes (influence_function.py:996-1017, fisher.py:422-449, 517-543). -/
def ekfacCache (m : ℕ) (full : List (Struct (Item α))) : Except Err (List (Call α)) := do
  let pass := loop (fun s => do
    let d ← ekfacData s
    pure [⟨.value, .target, .inl d⟩]) (full.take m)
  let c ← pass
  let c' ← pass
  pure (c ++ c')

/-- `attributor.cache(full)` and `attributor.attribute(train, test)`; `m` batches are visited by the caches that look at the data.  The batches are tuples, lists or dicts. -/
def ifRun (float : α → α) (draws : ℕ → List (List ℕ)) (m : ℕ) (full train test : List (Struct (Item α))) : IFMethod → Except Err (List (Call α))
  | .explicit | .cg => ifAttribute (hessBatches (full.map .str)) (train.map .str) (test.map .str)
  | .lissa => ifAttribute (lissaBatches float draws (full.map .str)) (train.map .str) (test.map .str)
  | .arnoldi => do
    let c ← arnoldiCache m (full.map .str)
    let a ← ifAttribute (pure []) (train.map .str) (test.map .str)
    pure (c ++ a)
  | .datainf => do
    let c ← dataInfCache m (full.map .str)
    let a ← ifAttribute (pure []) (train.map .str) (test.map .str)
    pure (c ++ a)
  | .ekfac => do
    let c ← ekfacCache m full
    let a ← ifAttribute (pure []) (train.map .str) (test.map .str)
    pure (c ++ a)

/-- `TracInAttributor.attribute` for one checkpoint (tracin.py:130-258), also Grad-Dot and Grad-Cos. -/
def tracinRun (train test : List (Batch α)) : Except Err (List (Call α)) :=
  loop (fun b => do
    let d ← checked b
    let g ← vmapAt0 .loss d
    let t ← loop (fun tb => do
      let dt ← checked tb
      vmapAt0 .target dt) test
    pure (g ++ t)) train

/-- The loop over training batches in `TRAKAttributor.cache`, `attribute` and `self_attribute` (trak.py:143-191, 272-327, 460-515): gradients of the loss sample by sample,
then the probability function on the batch as it is. -/
def trakTrain (train : List (Batch α)) : Except Err (List (Call α)) :=
  loop (fun b => do
    let d ← checked b
    let g ← vmapAt0 .loss d
    pure (g ++ [⟨.value, .prob, .inl (d.map .axis)⟩])) train

/-- `TRAKAttributor.attribute(test, train)` without a cache (trak.py:270-370). -/
def trakRun (train test : List (Batch α)) : Except Err (List (Call α)) := do
  let c ← trakTrain train
  let t ← loop (fun tb => do
    let dt ← checked tb
    vmapAt0 .target dt) test
  pure (c ++ t)

/-- `for x, _ in dataloader: model(x.to(device))` (hook.py:61-62) and `[target for _, target in dataloader]` (rps.py:164): unpacking a dict gives its keys. -/
def unpack2 : Struct (Item α) → Except Err (List α × Item α)
  | .tup [x, y] | .lst [x, y] => do
    let r ← toDev x
    pure (r, y)
  | .dct [_, _] => .error .attributeError
  | _ => .error .valueError

/-- The inputs on which `get_final_layer_io` runs the model (hook.py:59-62). -/
def rpsInputs (batches : List (Struct (Item α))) : Except Err (List (List α)) :=
  batches.mapM fun s => do
    let p ← unpack2 s
    pure p.1

/-- `default_dist_func(test_batch, train_batch)` and the labels `train_batch[-1]` (data_shapley.py:37-39, 186, 189): the rows whose distances are computed, and the labels. -/
def knnBatch (s : Struct (Item α)) : Except Err (List α × Item α) := do
  let x ← getItem 0 (.str s)
  let r ← toDev x
  match s with
  | .tup l | .lst l => match l.getLast? with
    | some y => pure (r, y)
    | none => .error .indexError
  | .dct _ => .error .keyError

/-- `tuple(d.to(device) for d in batch_data)` and the gradients sample by sample in `DVEmbAttributor` without factorisation (dvemb.py:424-432): a dict gives its keys. -/
def dvembFull (s : Struct (Item α)) : Except Err (List (Call α)) :=
  match s with
  | .tup l | .lst l => do
    let r ← l.mapM toDev
    vmapAt0 .loss (.tup r)
  | .dct l => do
    let r ← (l.map (·.1)).mapM keyTo
    vmapAt0 .loss (.tup r)

/-- The loss of a test batch in `BlockProjectedIFAttributor` (block_projected_if.py:854-872): a dict is handed to the model as keyword arguments and the model has to return a
loss, other batches are pairs; no entries raise `StopIteration`, integer keys `TypeError`.  `hasLoss`: the outputs of the model have the attribute `loss`. -/
inductive TestLoss (α : Type)
  | ofModel (inputs : Struct (List α))
  | crossEntropy (inputs : List α) (targets : List α)
  deriving DecidableEq, Repr

/-- See `TestLoss` (block_projected_if.py:854-872). -/
def blockTest (hasLoss : Bool) : Struct (Item α) → Except Err (TestLoss α)
  | .dct l => do
    let r ← toDevD l
    if r.isEmpty then .error .stopIteration
    else if r.any (fun e => e.1.isInt) then .error .typeError
    else if hasLoss then pure (.ofModel (.dct r)) else .error .valueError
  | .tup [x, y] | .lst [x, y] => do
    let r ← toDev x
    let t ← toDev y
    pure (if hasLoss then .ofModel (.tup [r]) else .crossEntropy r t)
  | _ => .error .valueError

end Verif.BatchKind
