import Verif.Bench.GPTModel
import Mathlib.Data.List.Dedup

/-! # Sampling from the nanoGPT network, its parameters and their optimiser groups

Models `GPT.generate`, `GPT.configure_optimizers`, `GPT.get_num_params` and the parameters `GPT.__init__` registers
(dattri/benchmark/models/nanoGPT/model.py). -/

namespace Verif.GPT

open Verif

variable {h s V : ℕ}

/-! ### generate -/

/-- `idx_cond` (model.py:314): the sequence, or its last `block_size` tokens if it is longer.  `idx[:, -0:]` is the whole sequence. -/
def window (n : ℕ) (idx : List (Fin V)) : List (Fin V) :=
  if idx.length ≤ n then idx else if n = 0 then idx else idx.drop (idx.length - n)

/-- The smallest of the `k` values `torch.topk(logits, k)` returns (model.py:321-322: `v[:, [-1]]`): the values are sorted in descending
order and the first `k` kept. -/
noncomputable def kth (l : Fin V → ℝ) (k : ℕ) : Option ℝ :=
  ((((List.finRange V).map l).mergeSort (fun a b => decide (b ≤ a))).take k).getLast?

/-- `logits[logits < v[:, [-1]]] = -inf` (model.py:320-322); `none` is `-inf`.  `torch.topk` raises on a negative `k`, and `v[:, [-1]]`
raises on no values. -/
noncomputable def topK (l : Fin V → ℝ) : Option ℤ → Except Err (Fin V → Option ℝ)
  | none => .ok fun v => some (l v)
  | some k =>
    if min k V < 0 then .error .runtimeError
    else match kth l (min k V).toNat with
      | none => .error .indexError
      | some c => .ok fun v => if l v < c then none else some (l v)

/-- The probabilities of the next token (model.py:314-324).  With temperature 0 the quotients are infinite or not a number, the softmax
contains not-a-number, and `torch.multinomial` raises `RuntimeError`.  Simplification: one sequence (the rows of a batch are treated
alike), real numbers. -/
noncomputable def Net.next (act : ℝ → ℝ) (net : Net h s V) (temp : ℝ) (k : Option ℤ) (idx : List (Fin V)) :
    Except Err (Fin V → ℝ) := do
  let l ← net.infer act (window net.blockSize idx)
  let row ← topK (fun v => l v / temp) k
  if temp = 0 then .error .runtimeError
  else pure fun v => (row v).elim 0 Real.exp / ∑ w, (row w).elim 0 Real.exp

/-- `generate` (model.py:311-330) as the list of the possible results with their probabilities: every step draws one token
(`torch.multinomial`, model.py:326) and appends it. -/
noncomputable def Net.generate (act : ℝ → ℝ) (net : Net h s V) (temp : ℝ) (k : Option ℤ) :
    ℕ → List (Fin V) → Except Err (List (List (Fin V) × ℝ))
  | 0, idx => .ok [(idx, 1)]
  | n + 1, idx => do
    let p ← net.next act temp k idx
    let r ← (List.finRange V).mapM fun v => do
      let d ← Net.generate act net temp k n (idx ++ [v])
      pure (d.map fun z => (z.1, p v * z.2))
    pure r.flatten

/-! ### Parameters -/

/-- The parameters of a block (model.py:29-106): the names below `transformer.h.<i>`. -/
inductive Part
  | ln1w | ln1b | attnw | attnb | aprojw | aprojb | ln2w | ln2b | fcw | fcb | mprojw | mprojb
  deriving DecidableEq, Repr

/-- Names of the parameters of the network. -/
inductive PName
  | wte | wpe | block (i : ℕ) (p : Part) | lnfw | lnfb | lmHead
  deriving DecidableEq, Repr

/-- `GPTConfig` (model.py:108-116), as far as it decides shapes. -/
structure Cfg where
  blockSize : ℕ
  vocab : ℕ
  layers : ℕ
  d : ℕ
  bias : Bool

/-- A parameter object: its identity and its shape. -/
structure Param where
  ident : PName
  shape : List ℕ
  deriving DecidableEq, Repr

/-- The shapes of the parameters of a block, in the order they are registered; a missing bias is `None` and not listed
(model.py:18-26 LayerNorm, 29-48 attention, 78-87 MLP, 94-101 Block). -/
def blockParams (c : Cfg) (i : ℕ) : List (PName × Param) :=
  let w (p : Part) (sh : List ℕ) := [(PName.block i p, (⟨.block i p, sh⟩ : Param))]
  let b (p : Part) (sh : List ℕ) := if c.bias then [(PName.block i p, (⟨.block i p, sh⟩ : Param))] else []
  w .ln1w [c.d] ++ b .ln1b [c.d] ++ w .attnw [3 * c.d, c.d] ++ b .attnb [3 * c.d] ++ w .aprojw [c.d, c.d] ++ b .aprojb [c.d] ++
    w .ln2w [c.d] ++ b .ln2b [c.d] ++ w .fcw [4 * c.d, c.d] ++ b .fcb [4 * c.d] ++ w .mprojw [c.d, 4 * c.d] ++ b .mprojb [c.d]

/-- All names under which parameters are registered, with the parameter objects (model.py:126-138).  After line 138 `wte.weight` is the
object made for `lm_head.weight`. -/
def registered (c : Cfg) : List (PName × Param) :=
  [(.wte, ⟨.lmHead, [c.vocab, c.d]⟩), (.wpe, ⟨.wpe, [c.blockSize, c.d]⟩)] ++
    (List.range c.layers).flatMap (blockParams c) ++
    [(.lnfw, ⟨.lnfw, [c.d]⟩)] ++ (if c.bias then [(.lnfb, ⟨.lnfb, [c.d]⟩)] else []) ++
    [(.lmHead, ⟨.lmHead, [c.vocab, c.d]⟩)]

/-- `named_parameters()` (documented): every parameter object once, under the first name it is met. -/
def namedParameters (seen : List PName) : List (PName × Param) → List (PName × Param)
  | [] => []
  | (n, p) :: l => if p.ident ∈ seen then namedParameters seen l else (n, p) :: namedParameters (p.ident :: seen) l

/-- `numel()`. -/
def Param.numel (p : Param) : ℕ := p.shape.prod

/-- `get_num_params` (model.py:150-166). -/
def numParams (c : Cfg) (nonEmbedding : Bool) : ℤ :=
  let n : ℤ := ((namedParameters [] (registered c)).map fun z => (z.2.numel : ℤ)).sum
  if nonEmbedding then n - ((c.blockSize * c.d : ℕ) : ℤ) else n

/-- `configure_optimizers` (model.py:269-281): the two groups, decayed and not decayed, from all registered names; `grad` tells which
parameter objects require gradients. -/
def groups (reg : List (PName × Param)) (grad : PName → Bool) : List Param × List Param :=
  let l := (namedParameters [] reg).filter fun z => grad z.2.ident
  ((l.filter fun z => decide (2 ≤ z.2.shape.length)).map (·.2), (l.filter fun z => decide (z.2.shape.length < 2)).map (·.2))

end Verif.GPT
