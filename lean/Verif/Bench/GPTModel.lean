import Verif.Base.Tensor
import Mathlib.Analysis.SpecialFunctions.Exp
import Mathlib.Analysis.SpecialFunctions.Log.Basic
import Mathlib.Analysis.Real.Sqrt
import Mathlib.Logic.Equiv.Fin.Basic
import Mathlib.Data.Matrix.Mul

/-!
# Model of the nanoGPT network (`dattri/benchmark/models/nanoGPT/model.py`)

Evaluation mode: the dropout layers are the identity.  Simplifications: real arithmetic; token indices are in the vocabulary; a sequence
of rows is a function of the position together with the number `T` of positions; the activation of the feed-forward layers is an arbitrary
function (`nn.GELU()` in the code).
-/

namespace Verif.GPT

open Verif

/-- A row of `d` numbers. -/
abbrev Vec (d : ℕ) := Fin d → ℝ

/-- `nn.Linear`: weight and bias (`bias=False` is a bias of zeros). -/
structure Linear (a b : ℕ) where
  w : Matrix (Fin b) (Fin a) ℝ
  b : Vec b

def Linear.app {a b : ℕ} (l : Linear a b) (x : Vec a) : Vec b := fun k => (∑ m, l.w k m * x m) + l.b k

/-- `LayerNorm.forward` on one row (model.py:20-27). -/
noncomputable def layerNorm {d : ℕ} (w b x : Vec d) : Vec d :=
  let mean := (∑ k, x k) / d
  let var := (∑ k, (x k - mean) ^ 2) / d
  fun k => (x k - mean) / Real.sqrt (var + 10 ^ (-5 : ℤ)) * w k + b k

/-- The softmax of a row in which `none` stands for `-inf`. -/
noncomputable def softmax (row : ℕ → Option ℝ) (T : ℕ) (j : ℕ) : ℝ :=
  ((row j).elim 0 Real.exp) / ∑ m ∈ Finset.range T, (row m).elim 0 Real.exp

/-- `CausalSelfAttention` with `h` heads of size `s` (model.py:29-50): the projections and, without flash attention, the size of the mask
buffer. -/
structure Attn (h s : ℕ) where
  cAttn : Linear (h * s) (3 * (h * s))
  cProj : Linear (h * s) (h * s)
  mask : Option ℕ

variable {h s : ℕ}

/-- `self.c_attn(x).split(self.n_embd, dim=2)` and the view by heads (model.py:56-59): part 0, 1, 2 is query, key, value; entry `m` of head
`a` is column `a * s + m`. -/
def Attn.part (A : Attn h s) (part : Fin 3) (x : Vec (h * s)) (a : Fin h) (m : Fin s) : ℝ :=
  A.cAttn.app x (finProdFinEquiv (part, finProdFinEquiv (a, m)))

/-- `(q @ k.transpose(-2, -1)) * (1.0 / math.sqrt(k.size(-1)))` for one head and two positions (model.py:67). -/
noncomputable def Attn.score (A : Attn h s) (xi xj : Vec (h * s)) (a : Fin h) : ℝ :=
  (∑ m, A.part 0 xi a m * A.part 1 xj a m) * (1 / Real.sqrt s)

/-- The attention weights of position `i` over the positions `j < T`.  Without flash attention (model.py:67-69): scores with
`tril(ones) == 0` replaced by `-inf`, then softmax.  `scaled_dot_product_attention(..., is_causal=True)` is documented to do the same:
positions `j ≤ i` only (model.py:64). -/
noncomputable def Attn.weight (A : Attn h s) (T : ℕ) (x : ℕ → Vec (h * s)) (a : Fin h) (i j : ℕ) : ℝ :=
  match A.mask with
  | some _ => softmax (fun j => if j ≤ i then some (A.score (x i) (x j) a) else none) T j
  | none =>
    if j ≤ i then Real.exp (A.score (x i) (x j) a) /
      ∑ m ∈ (Finset.range T).filter (· ≤ i), Real.exp (A.score (x i) (x m) a) else 0

/-- `CausalSelfAttention.forward` (model.py:52-76).  The mask `bias[:,:,:T,:T]` of a smaller buffer does not fit the scores
(`RuntimeError`). -/
noncomputable def Attn.forward (A : Attn h s) (T : ℕ) (x : ℕ → Vec (h * s)) : Except Err (ℕ → Vec (h * s)) :=
  if (match A.mask with | some n => decide (n < T) | none => false) then .error .runtimeError
  else .ok fun i => A.cProj.app fun c =>
    ∑ j ∈ Finset.range T, A.weight T x (finProdFinEquiv.symm c).1 i j *
      A.part 2 (x j) (finProdFinEquiv.symm c).1 (finProdFinEquiv.symm c).2

/-- `Block` with its `MLP` (model.py:78-106). -/
structure Block (h s : ℕ) where
  ln1w : Vec (h * s)
  ln1b : Vec (h * s)
  attn : Attn h s
  ln2w : Vec (h * s)
  ln2b : Vec (h * s)
  fc : Linear (h * s) (4 * (h * s))
  proj : Linear (4 * (h * s)) (h * s)

/-- `Block.forward` (model.py:87-92, 103-106). -/
noncomputable def Block.forward (act : ℝ → ℝ) (B : Block h s) (T : ℕ) (x : ℕ → Vec (h * s)) : Except Err (ℕ → Vec (h * s)) := do
  let y ← B.attn.forward T fun i => layerNorm B.ln1w B.ln1b (x i)
  let x := fun i => x i + y i
  pure fun i => x i + B.proj.app fun k => act (B.fc.app (layerNorm B.ln2w B.ln2b (x i)) k)

/-- `GPT` (model.py:118-138): `wte` is also the weight of `lm_head`. -/
structure Net (h s V : ℕ) where
  wte : Fin V → Vec (h * s)
  wpe : List (Vec (h * s))
  blocks : List (Block h s)
  lnw : Vec (h * s)
  lnb : Vec (h * s)
  blockSize : ℕ

variable {V : ℕ}

/-- Rows after the final layer norm (model.py:176-188). -/
noncomputable def Net.rows (act : ℝ → ℝ) (net : Net h s V) (idx : List (Fin V)) : Except Err (ℕ → Vec (h * s)) := do
  if net.blockSize < idx.length then .error .assertionError
  else if net.wpe.length < idx.length then .error .indexError
  else
    let x : ℕ → Vec (h * s) := fun t => ((idx[t]?).elim 0 net.wte) + net.wpe.getD t 0
    let x ← net.blocks.foldlM (fun x B => B.forward act idx.length x) x
    pure fun t => layerNorm net.lnw net.lnb (x t)

/-- `self.lm_head` with the tied weight (model.py:133-138). -/
def Net.head (net : Net h s V) (x : Vec (h * s)) : Fin V → ℝ := fun v => ∑ m, net.wte v m * x m

/-- `forward(idx)` without targets (model.py:194-197): the logits of the last position; an empty sequence has none (`IndexError`). -/
noncomputable def Net.infer (act : ℝ → ℝ) (net : Net h s V) (idx : List (Fin V)) : Except Err (Fin V → ℝ) := do
  let x ← net.rows act idx
  if idx = [] then .error .indexError else pure (net.head (x (idx.length - 1)))

/-- `forward(idx, targets)` (model.py:190-193) for one sequence: the logits of all positions. -/
noncomputable def Net.logits (act : ℝ → ℝ) (net : Net h s V) (idx : List (Fin V)) : Except Err (List (Fin V → ℝ)) := do
  let x ← net.rows act idx
  pure ((List.range idx.length).map fun t => net.head (x t))

/-- The terms of `F.cross_entropy` that count: `-log softmax(logits)[target]` where the target is not `-1`; `none` is a target `-1`. -/
noncomputable def ceTerms (logits : List (Fin V → ℝ)) (targets : List (Option (Fin V))) : List ℝ :=
  (logits.zip targets).filterMap fun z => z.2.map fun t => Real.log (∑ v, Real.exp (z.1 v)) - z.1 t

/-- The loss of a batch (model.py:193): the mean over all positions of all sequences whose target is not `-1`; without any the mean of
nothing, not a number (`none`).  Simplification: targets other than `-1` are in the vocabulary. -/
noncomputable def Net.loss (act : ℝ → ℝ) (net : Net h s V) (batch : List (List (Fin V) × List (Option (Fin V)))) :
    Except Err (Option ℝ) := do
  let l ← batch.mapM fun b => net.logits act b.1
  let terms := ((l.zip batch).map fun z => ceTerms z.1 z.2.2).flatten
  pure (if terms.length = 0 then none else some (terms.sum / terms.length))

/-- `crop_block_size` (model.py:201-210). -/
def Net.crop (net : Net h s V) (n : ℕ) : Except Err (Net h s V) :=
  if net.blockSize < n then .error .assertionError
  else .ok { net with
    blockSize := n
    wpe := net.wpe.take n
    blocks := net.blocks.map fun B => { B with attn := { B.attn with mask := B.attn.mask.map (min n) } } }

end Verif.GPT
