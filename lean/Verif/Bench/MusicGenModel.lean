import Verif.Bench.MusicNetModel

/-!
# Model of music generation

`MusicTransformer.generate` (`dattri/benchmark/models/MusicTransformer/music_transformer.py`) and the loop of `generate.py`.  Random draws
of tokens are modelled by the list of possible results with their probabilities; the draws `random.uniform(0,1)` of the beam decision are
an input.
-/

namespace Verif.Music

open Verif

/-- `TOKEN_END` (utilities/constants.py:26): 128 + 128 + 32 + 100. -/
def tokenEnd : ℕ := 388

/-- `VOCAB_SIZE` (utilities/constants.py:26-29): also `TOKEN_END` and `TOKEN_PAD`. -/
def vocabSize : ℕ := 390

/-- `self.softmax(self.forward(gen_seq[..., :cur_i]))[..., :TOKEN_END]` at the position `cur_i-1` (music_transformer.py:147-148): for every
row the probabilities of the tokens, of which the first `TOKEN_END` are used.  An empty sequence has no last position (`IndexError`; with
relative embeddings a `view` of an empty tensor raises `RuntimeError` before). -/
noncomputable def lastProbs (net : Net) (rows : List (List ℕ)) (cur : ℕ) : Except Err (List Row) := do
  if cur = 0 then .error (if net.layers.any (fun L => L.er.isSome) then .runtimeError else .indexError)
  else
    let y ← net.forward cur rows.length (fun b t => (rows.getD b []).getD t 0) true
    pure ((List.range rows.length).map fun b v => Real.exp (y (cur - 1) b v) / ∑ w ∈ Finset.range vocabSize, Real.exp (y (cur - 1) b w))

/-- One beam decision (music_transformer.py:156-163): `topk` gives the positions of the `beam` largest entries of the flattened
probabilities, which are decoded with `VOCAB_SIZE`. -/
noncomputable def beamStep (topk : List ℝ → ℕ → List ℕ) (beam : ℕ) (rows : List (List ℕ)) (y : List Row) : Except Err (List (List ℕ)) :=
  let flat := y.flatMap fun p => (List.range tokenEnd).map p
  if flat.length < beam then .error .runtimeError
  else (topk flat beam).mapM fun f => match rows[f / vocabSize]? with
    | none => .error .indexError
    | some r => .ok (r ++ [f % vocabSize])

/-- The loop of `generate` (music_transformer.py:145-179) with `n` positions left; `rows` is `gen_seq[:, :cur_i]`.  With several rows the
condition `next_token == TOKEN_END` has several values and raises `RuntimeError`, with none too. -/
noncomputable def gen (net : Net) (topk : List ℝ → ℕ → List ℕ) (beam : ℕ) (chance : ℝ) (coin : ℕ → ℝ) :
    ℕ → List (List ℕ) → ℕ → Except Err (List (List (List ℕ) × ℝ))
  | 0, rows, _ => .ok [(rows, 1)]
  | n + 1, rows, cur => do
    let y ← lastProbs net rows cur
    let ran := if beam = 0 then 2 else coin cur
    if ran ≤ chance then do
      let rows' ← beamStep topk beam rows y
      gen net topk beam chance coin n rows' (cur + 1)
    else match rows, y with
      | [r], [p] => do
        let z := ∑ w ∈ Finset.range tokenEnd, p w
        let ds ← (List.range tokenEnd).mapM fun v => do
          let d ← if v = tokenEnd then .ok [([r], 1)] else gen net topk beam chance coin n [r ++ [v]] (cur + 1)
          pure (d.map fun q => (q.1, p v / z * q.2))
        pure ds.flatten
      | _, _ => .error .runtimeError

/-- `generate` (music_transformer.py:133-181) in evaluation mode.  A primer longer than the target does not fit its slice (`RuntimeError`),
unless it has one token and the target none. -/
noncomputable def generate (net : Net) (topk : List ℝ → ℕ → List ℕ) (beam : ℕ) (chance : ℝ) (coin : ℕ → ℝ) (primer : List ℕ)
    (target : ℕ) : Except Err (List (List (List ℕ) × ℝ)) :=
  if target < primer.length ∧ ¬ (target = 0 ∧ primer.length = 1) then .error .runtimeError
  else gen net topk beam chance coin (target - primer.length) [primer.take target] primer.length

/-- The generation loop of `main` (generate.py:67-76) with `n` iterations left, in iteration `i`; `acc` is `generate_list`. -/
noncomputable def slide (net : Net) (topk : List ℝ → ℕ → List ℕ) (coin : ℕ → ℝ) (P : ℕ) :
    ℕ → ℕ → List ℕ → Option (List ℕ) → Except Err (List (Option (List ℕ) × ℝ))
  | 0, _, _, acc => .ok [(acc, 1)]
  | n + 1, i, primer, acc => do
    let D ← generate net topk 0 1 coin ((primer.take (P + i)).drop i) (P + 1)
    let ds ← D.mapM fun q => do
      let row := q.1.headD []
      let last := row.drop (row.length - 1)
      let d ← slide net topk coin P n (i + 1) (primer ++ last) (some (match acc with | none => row | some a => a ++ last))
      pure (d.map fun z => (z.1, q.2 * z.2))
    pure ds.flatten

/-- `main` for one piece (generate.py:67-99): without any iteration `generate_list` is `None`, which has no `shape`
(`AttributeError`). -/
noncomputable def mainPiece (net : Net) (topk : List ℝ → ℕ → List ℕ) (coin : ℕ → ℝ) (P target : ℕ) (primer : List ℕ) :
    Except Err (List (List ℕ × ℝ)) := do
  let D ← slide net topk coin P (target - P) 0 primer none
  D.mapM fun z => match z.1 with
    | none => .error .attributeError
    | some l => .ok (l, z.2)

end Verif.Music
