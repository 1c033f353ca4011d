import Verif.Bench.Skew
import Mathlib.Analysis.SpecialFunctions.Exp
import Mathlib.Analysis.Real.Sqrt
import Mathlib.Analysis.SpecialFunctions.Trigonometric.Basic
import Mathlib.Analysis.SpecialFunctions.Log.Basic

/-!
# Model of the MusicTransformer network

`dattri/benchmark/models/MusicTransformer/music_transformer.py`, `rpr.py` and `positional_encoding.py`, in evaluation mode (the dropout
layers are the identity), in real arithmetic.  Tensors are functions of natural-number indices together with their sizes, so that views are
index arithmetic as in the code.  `nn.Transformer` without a custom encoder is the documented one of PyTorch: the same layers without
relative embeddings.
-/

namespace Verif.Music

open Verif Verif.Skew

/-- A row of numbers. -/
abbrev Row := ℕ → ℝ

/-- `nn.Linear` / `linear(x, weight, bias)` on a row of `n` numbers. -/
def linear (n : ℕ) (w : ℕ → ℕ → ℝ) (b : Row) (x : Row) : Row := fun k => (∑ m ∈ Finset.range n, w k m * x m) + b k

/-- `LayerNorm(d_model)` on a row (eps 1e-5). -/
noncomputable def layerNorm (n : ℕ) (w b x : Row) : Row :=
  let mean := (∑ k ∈ Finset.range n, x k) / n
  let var := (∑ k ∈ Finset.range n, (x k - mean) ^ 2) / n
  fun k => (x k - mean) / Real.sqrt (var + 10 ^ (-5 : ℤ)) * w k + b k

/-- Sizes: number of heads, head size, feed-forward size. -/
structure Dims where
  h : ℕ
  s : ℕ
  ff : ℕ

/-- `embed_dim`. -/
def Dims.e (D : Dims) : ℕ := D.h * D.s

/-- `TransformerEncoderLayerRPR` with its `MultiheadAttentionRPR` (rpr.py:68-79, 107-146). -/
structure Layer where
  inW : ℕ → ℕ → ℝ
  inB : Row
  outW : ℕ → ℕ → ℝ
  outB : Row
  er : Option (Grid ℝ)
  l1W : ℕ → ℕ → ℝ
  l1B : Row
  l2W : ℕ → ℕ → ℝ
  l2B : Row
  n1W : Row
  n1B : Row
  n2W : Row
  n2B : Row

/-- Part 0, 1, 2 of `linear(query, in_proj_weight, in_proj_bias).chunk(3, dim=-1)` (rpr.py:234). -/
def Layer.part (D : Dims) (L : Layer) (p : ℕ) (x : ℕ → ℕ → Row) (t b : ℕ) : Row :=
  fun c => linear D.e L.inW L.inB (x t b) (p * D.e + c)

/-- `q.contiguous().view(tgt_len, bsz * num_heads, head_dim)` (rpr.py:333-337): entry `m` of the row `n` of the view. -/
def viewHeads (D : Dims) (f : ℕ → ℕ → Row) (t n : ℕ) : Row :=
  fun m => f t ((n * D.s + m) / D.e) ((n * D.s + m) % D.e)

/-- The logits of the row `n` of the view (rpr.py:310, 369-378): scaled queries times keys, plus the relative part if there are relative
embeddings. -/
noncomputable def Layer.logits (D : Dims) (L : Layer) (T : ℕ) (x : ℕ → ℕ → Row) (n : ℕ) : Except Err (Grid ℝ) :=
  let q : Grid ℝ := ⟨T, D.s, fun t m => viewHeads D (fun t b c => L.part D 0 x t b c * (1 / Real.sqrt D.s)) t n m⟩
  let k : Grid ℝ := ⟨T, D.s, fun t m => viewHeads D (L.part D 1 x) t n m⟩
  match L.er with
  | some Er => Skew.logits q k Er
  | none => .ok (Skew.dot q k)

/-- The softmax over `T` entries in which `none` stands for `-inf`. -/
noncomputable def softmax (T : ℕ) (row : ℕ → Option ℝ) (j : ℕ) : ℝ :=
  ((row j).elim 0 Real.exp) / ∑ m ∈ Finset.range T, (row m).elim 0 Real.exp

/-- `multi_head_attention_forward_rpr` (rpr.py:177-407) as called by the layers, on `T` positions of `B` sequences.  The mask of
`generate_square_subsequent_mask` is `-inf` above the diagonal.  Simplification: the branches for separate projections, biases of keys and
values, static keys and padding masks are never taken by these callers. -/
noncomputable def Layer.attention (D : Dims) (L : Layer) (T B : ℕ) (mask : Bool) (x : ℕ → ℕ → Row) : Except Err (ℕ → ℕ → Row) := do
  let gs ← (List.range (B * D.h)).mapM fun n => L.logits D T x n
  let w (n t j : ℕ) : ℝ := match gs[n]? with
    | none => 0
    | some g => softmax T (fun j => if mask && decide (t < j) then none else some (g.at' t j)) j
  let o (n t m : ℕ) : ℝ := ∑ j ∈ Finset.range T, w n t j * viewHeads D (L.part D 2 x) j n m
  -- `attn_output.transpose(0, 1).contiguous().view(tgt_len, bsz, embed_dim)` (rpr.py:399)
  let y (t b : ℕ) : Row := fun c => o ((b * D.e + c) / D.s) t ((b * D.e + c) % D.s)
  pure fun t b => linear D.e L.outW L.outB (y t b)

/-- `TransformerEncoderLayerRPR.forward` (rpr.py:81-89). -/
noncomputable def Layer.forward (D : Dims) (L : Layer) (T B : ℕ) (mask : Bool) (x : ℕ → ℕ → Row) : Except Err (ℕ → ℕ → Row) := do
  let y ← L.attention D T B mask x
  let x1 : ℕ → ℕ → Row := fun t b => layerNorm D.e L.n1W L.n1B (fun c => x t b c + y t b c)
  pure fun t b => layerNorm D.e L.n2W L.n2B fun c =>
    x1 t b c + linear D.ff L.l2W L.l2B (fun k => max (linear D.e L.l1W L.l1B (x1 t b) k) 0) c

/-- `PositionalEncoding.pe` (positional_encoding.py:15-20). -/
noncomputable def pe (d : ℕ) (t c : ℕ) : ℝ :=
  if c % 2 = 0 then Real.sin (t * Real.exp (c * (-Real.log 10000 / d)))
  else Real.cos (t * Real.exp ((c - 1 : ℕ) * (-Real.log 10000 / d)))

/-- `MusicTransformer` (music_transformer.py:34-77); `V` is `VOCAB_SIZE`. -/
structure Net where
  dims : Dims
  vocab : ℕ
  emb : ℕ → Row
  maxSeq : ℕ
  layers : List Layer
  normW : Row
  normB : Row
  woutW : ℕ → ℕ → ℝ
  woutB : Row

/-- `forward` (music_transformer.py:80-118; TransformerEncoderRPR.forward, rpr.py:39-50; positional_encoding.py:23-25) on a batch of `B`
sequences of length `T` given as a function; the positional encoding has `maxSeq` rows, and fewer rows than positions fit only if there is
one.  Tokens outside the vocabulary raise `IndexError`.  Simplification: `maxSeq` is positive. -/
noncomputable def Net.forward (net : Net) (T B : ℕ) (tok : ℕ → ℕ → ℕ) (mask : Bool) : Except Err (ℕ → ℕ → Row) := do
  if ∃ t < T, ∃ b < B, net.vocab ≤ tok b t then .error .indexError
  else if net.maxSeq < T ∧ net.maxSeq ≠ 1 then .error .runtimeError
  else
    let x : ℕ → ℕ → Row := fun t b c => net.emb (tok b t) c + pe net.dims.e (if net.maxSeq = 1 then 0 else t) c
    let x ← net.layers.foldlM (fun x L => L.forward net.dims T B mask x) x
    pure fun t b => linear net.dims.e net.woutW net.woutB (layerNorm net.dims.e net.normW net.normB (x t b))

end Verif.Music
