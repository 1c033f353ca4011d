import Verif.BlockIF.IFModel
import Verif.DVEmb.FactorModel
import Verif.EKFAC.GradModel
import Verif.Bench.LogRegModel

/-!
# Block-projected influence functions with derivatives (`block_projected_if.py:110-113, 248-297, 815-897`, `task.py:160-177`)

The compressed gradients that `BlockIF/IFModel` takes as given are here what the hooks see: the gradients of the batch's loss with respect to the outputs
of a layer, compressed together with the layer's inputs.  Simplifications: real arithmetic; two-dimensional layer inputs; a bias is a column of the
weights whose input is 1; each layer is used once in a forward pass; the samples of a batch do not influence each other's outputs; checkpoint indices
exist.
-/

namespace Verif.BlockIF

open Verif Verif.DVEmb Verif.EKFAC

variable {κ S : Type} {L c : ℕ} {din dout k₁ k₂ m : Fin L → ℕ}

/-! ### The task's model -/

/-- What a task and its attributors share: the index it remembers, the model objects with the index of the checkpoint whose weights they hold, and the
object the task refers to (task.py:112, 136, 160-177). -/
structure TaskSt where
  cur : Option ℕ
  heap : List (Option ℕ)
  ptr : ℕ

/-- A new task: one model, no checkpoint loaded. -/
def TaskSt.new : TaskSt := ⟨none, [none], 0⟩

/-- `_load_checkpoints` (task.py:160-177). The default load function changes the weights of the model it is given (task.py:35-36); a user's function may
return another model (`inPlace = false`). -/
def TaskSt.load (inPlace : Bool) (t : TaskSt) (i : ℕ) : TaskSt :=
  if t.cur = some i then t
  else if inPlace then ⟨some i, t.heap.set t.ptr (some i), t.ptr⟩
  else ⟨some i, t.heap ++ [some i], t.heap.length⟩

/-- Other attributors of the same task load checkpoints. -/
def TaskSt.loads (inPlace : Bool) (t : TaskSt) (l : List ℕ) : TaskSt := l.foldl (TaskSt.load inPlace) t

/-- The checkpoints whose weights the attributor's model holds when it caches and when it attributes: `before`, `between` and `after` are what other
attributors of the task load before the attributor is made (`task._load_checkpoints(0); self.model = task.get_model()`, block_projected_if.py:111-112),
between that and caching, and between caching and attribution. -/
def held (inPlace : Bool) (before between after : List ℕ) : Option ℕ × Option ℕ :=
  let t₀ := ((TaskSt.new.loads inPlace before).load inPlace 0)
  let t₁ := t₀.loads inPlace between
  let t₂ := t₁.loads inPlace after
  (t₁.heap.getD t₀.ptr none, t₂.heap.getD t₀.ptr none)

/-! ### Gradients -/

/-- The network around the selected layers, for each checkpoint: their weights, the input each sample gives a layer, and the network's outputs for a
sample as a function of that layer's output. -/
structure Net (κ S : Type) (c : ℕ) (din dout : Fin L → ℕ) where
  W : κ → Weights din dout
  inp : κ → (l : Fin L) → S → Fin (din l) → ℝ
  out : κ → (l : Fin L) → S → (Fin (dout l) → ℝ) → Fin c → ℝ

/-- The compressors of the layers: sparsifiers of the two factors and the projector. -/
structure Comp (din dout k₁ k₂ m : Fin L → ℕ) where
  P1 : (l : Fin L) → Matrix (Fin (k₁ l)) (Fin (dout l)) ℝ
  P2 : (l : Fin L) → Matrix (Fin (k₂ l)) (Fin (din l)) ℝ
  R : (l : Fin L) → Matrix (Fin (m l)) (Fin (k₁ l) × Fin (k₂ l)) ℝ

/-- A value of a batch as a function of the outputs of its samples. -/
abbrev BatchFn (S : Type) (c : ℕ) := (b : List S) → (Fin b.length → Fin c → ℝ) → ℝ

/-- `loss.backward()` and `get_compressed_grads()` for one batch (block_projected_if.py:257-261, 874-878, hook.py:171-296, compressor.py:140-210). -/
noncomputable def batchRows (N : Net κ S c din dout) (Q : Comp din dout k₁ k₂ m) (x : κ) (b : List S) (F : (Fin b.length → Fin c → ℝ) → ℝ) :
    List (Row ℝ m) :=
  List.ofFn fun k : Fin b.length => fun l => compress (Q.P1 l) (Q.P2 l) (Q.R l) b.length
    (.two (N.inp x l b[k]) (outGrad (fun z => F fun j => N.out x l b[j] (z j)) (fun j => layerOut (N.W x l) (N.inp x l b[j])) k))

/-! ### The two losses -/

/-- What the user gives the task: the loss function and the target function (task.py:113-122). -/
structure TaskFns (S : Type) (c : ℕ) where
  loss : BatchFn S c
  target : BatchFn S c

/-- The form of the test loader's batches. -/
inductive Form
  | dict
  | tuple (n : ℕ)
  deriving DecidableEq

/-- What the model returns: an object with an attribute `loss`, or the outputs only. -/
inductive Returns (S : Type) (c : ℕ)
  | withLoss (f : BatchFn S c)
  | plain

/-- `nn.functional.cross_entropy(outputs, targets)`: the sum over the samples whose label is not -100, divided by their number. If there is none the
value is not a number; here it is 0. -/
noncomputable def meanCE (lab : S → ℤ) : BatchFn S c := fun b z =>
  (∑ k : Fin b.length, if lab b[k] = -100 then 0 else
    if h : 0 ≤ lab b[k] ∧ lab b[k] < c then -LogReg.logSoftmax (z k) ⟨(lab b[k]).toNat, by omega⟩ else 0) /
  ((b.filter fun s => lab s ≠ -100).length : ℝ)

/-- The loss of a test batch (block_projected_if.py:854-872); a tuple that does not unpack into two is a `ValueError`, a label outside the classes an
`IndexError`. -/
noncomputable def testLoss (form : Form) (r : Returns S c) (lab : S → ℤ) (b : List S) : Except Err ((Fin b.length → Fin c → ℝ) → ℝ) :=
  match form, r with
  | .dict, .withLoss f => .ok (f b)
  | .dict, .plain => .error .valueError
  | .tuple n, .withLoss f => if n ≠ 2 then .error .valueError else .ok (f b)
  | .tuple n, .plain =>
    if n ≠ 2 then .error .valueError
    else if b.all fun s => lab s == -100 || (0 ≤ lab s && lab s < c) then .ok (meanCE lab b) else .error .indexError

/-- The batches of training gradients (block_projected_if.py:248-297): of the task's loss function. -/
noncomputable def trainBatches (N : Net κ S c din dout) (Q : Comp din dout k₁ k₂ m) (T : TaskFns S c) (x : κ) (bs : List (List S)) : List (List (Row ℝ m)) :=
  bs.map fun b => batchRows N Q x b (T.loss b)

/-- The batches of test gradients (block_projected_if.py:848-897). -/
noncomputable def testBatches (N : Net κ S c din dout) (Q : Comp din dout k₁ k₂ m) (form : Form) (r : Returns S c) (lab : S → ℤ) (x : κ) (bs : List (List S)) :
    Except Err (List (List (Row ℝ m))) :=
  bs.mapM fun b => (testLoss form r lab b).map fun F => batchRows N Q x b F

/-- Everything a run is made of. -/
structure Run (κ S : Type) (c : ℕ) (din dout k₁ k₂ m : Fin L → ℕ) where
  net : Net κ S c din dout
  comp : Comp din dout k₁ k₂ m
  task : TaskFns S c
  form : Form
  returns : Returns S c
  lab : S → ℤ
  hess : Hessian
  damping : Option ℝ

/-- `cache(train)` with the weights of `x₀`, then `attribute(again, test)` with those of `x₁` (block_projected_if.py:208-322, 681-813). -/
noncomputable def Run.scores (U : Run κ S c din dout k₁ k₂ m) (x₀ x₁ : κ) (spec spec' : Loader) (train test : List (List S)) (again : Data ℝ m) :
    Except Err (Mat ℝ) :=
  match cache U.hess U.damping (St.new ℝ m none) ⟨spec, trainBatches U.net U.comp U.task x₀ train⟩ with
  | (_, .error e) => .error e
  | (st, .ok ()) =>
    match testBatches U.net U.comp U.form U.returns U.lab x₁ test with
    | .error e => .error e
    | .ok rows => (attribute' U.hess U.damping st again ⟨spec', rows⟩).2

end Verif.BlockIF
