import Verif.EKFAC.Model
import Verif.Attr.DerivModel

/-!
# Model of EK-FAC with derivatives (`dattri/func/fisher.py:384-546`, `dattri/algorithm/influence_function.py:930-1093`)

The output gradients that `EKFAC/Model` takes as given are here the derivatives autograd computes: of the batch's target value, multiplied by the batch
size, with respect to the outputs of a layer.  Simplifications: real arithmetic; layers without bias and with two-dimensional inputs (biases and
sequences are in C18 and C19); each layer is used once in a forward pass; one checkpoint, whose other weights are fixed.
-/

namespace Verif.EKFAC

open Matrix

variable {S : Type} {p q : ℕ}

/-- How the user's target function reduces the samples of a batch.  The code "assumes the loss is obtained with reduction="mean"" (fisher.py:430). -/
inductive Reduction
  | mean
  | sum
  deriving DecidableEq

/-- The target value of a batch as a function of the layer's outputs `z` (one row per sample): `rest s` is the rest of the network together with the
target, for the sample `s`. -/
noncomputable def batchTarget (red : Reduction) (rest : S → (Fin q → ℝ) → ℝ) (b : List S) (z : Fin b.length → Fin q → ℝ) : ℝ :=
  match red with
  | .mean => (∑ k, rest b[k] (z k)) / (b.length : ℝ)
  | .sum => ∑ k, rest b[k] (z k)

/-- A linear layer without bias: its outputs for an input. -/
def layerOut (W : Fin q → Fin p → ℝ) (a : Fin p → ℝ) : Fin q → ℝ := fun i => ∑ j, W i j * a j

/-- `outputs.grad` after `backward()` for the row `k` (fisher.py:430-434, influence_function.py:981-984). -/
noncomputable def outGrad {B : ℕ} (F : (Fin B → Fin q → ℝ) → ℝ) (z : Fin B → Fin q → ℝ) (k : Fin B) : Fin q → ℝ :=
  fun i => fderiv ℝ F z (Pi.single k (Pi.single i 1))

/-- What one batch leaves in the layer cache: the inputs, and the gradients of `loss * batch_size` with respect to the outputs (fisher.py:418-434,
511-527). -/
noncomputable def recordBatch (red : Reduction) (rest : S → (Fin q → ℝ) → ℝ) (inp : S → Fin p → ℝ) (W : Fin q → Fin p → ℝ) (b : List S) :
    List ((Fin p → ℝ) × (Fin q → ℝ)) :=
  List.ofFn fun k : Fin b.length => (inp b[k], outGrad (fun z => batchTarget red rest b z * (b.length : ℝ)) (fun k => layerOut W (inp b[k])) k)

/-- `estimate_lambda` (fisher.py:476-546) for one layer on the cached loader. -/
noncomputable def lambdaOf (red : Reduction) (rest : S → (Fin q → ℝ) → ℝ) (inp : S → Fin p → ℝ) (W : Fin q → Fin p → ℝ)
    (qa : Matrix (Fin p) (Fin p) ℝ) (qs : Matrix (Fin q) (Fin q) ℝ) (bs : List (List S)) (maxIter : Option ℕ) : Option (Matrix (Fin q) (Fin p) ℝ) :=
  estimateLambda qa qs (bs.map (recordBatch red rest inp W)) maxIter

/-- The gradient of a function of the layer's weights. -/
noncomputable def weightGrad (f : (Fin q → Fin p → ℝ) → ℝ) (W : Fin q → Fin p → ℝ) : Matrix (Fin q) (Fin p) ℝ :=
  Matrix.of fun i j => fderiv ℝ f W (Pi.single i (Pi.single j 1))

/-! ### Several layers -/

variable {L : ℕ} {din dout : Fin L → ℕ}

/-- The weights of all selected layers. -/
abbrev Weights (din dout : Fin L → ℕ) := (l : Fin L) → Fin (dout l) → Fin (din l) → ℝ

/-- The gradient with respect to the weights of layer `l`, one block of a row of the representations (base.py:122-200). -/
noncomputable def blockGrad (f : Weights din dout → ℝ) (W : Weights din dout) (l : Fin L) : Matrix (Fin (dout l)) (Fin (din l)) ℝ :=
  weightGrad (fun V => f (Function.update W l V)) (W l)

/-- One entry of the scores (influence_function.py:1034-1093, base.py:334-450): the training sample's loss gradient times the transformed target gradient
of the test sample, all layers together; `none` if a transformed block is not finite. -/
noncomputable def ekfacScore (qa : (l : Fin L) → Matrix (Fin (din l)) (Fin (din l)) ℝ) (qs : (l : Fin L) → Matrix (Fin (dout l)) (Fin (dout l)) ℝ)
    (lam : (l : Fin L) → Matrix (Fin (dout l)) (Fin (din l)) ℝ) (damping : ℝ) (lossGrad targetGrad : (l : Fin L) → Matrix (Fin (dout l)) (Fin (din l)) ℝ) :
    Option ℝ :=
  open Classical in
  if ∃ l, ifvp (qa l) (qs l) (lam l) damping (targetGrad l) = none then none
  else some (∑ l, ∑ i, ∑ j, lossGrad l i j * ((ifvp (qa l) (qs l) (lam l) damping (targetGrad l)).getD 0) i j)

end Verif.EKFAC
