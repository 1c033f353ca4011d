import Verif.Projection.BasicModel

/-!
# Setting up the layer compressors

`/repo/dattri/algorithm/block_projected_if/core/compressor.py` lines 213-412 with 415-808, and the
configurations of `/repo/dattri/algorithm/logra.py` and `/repo/dattri/algorithm/factgrass.py`.

Modelled are which layers get a compressor and the seeds and dimensions of its three random projectors;
the projectors themselves are in `Projection/`.  The sample forward passes are represented by which modules
ran.  Seeds are integers.
-/

namespace Verif.Compress

open Verif Verif.Projection

/-- The kinds of modules the set-up distinguishes (compressor.py:333-355). -/
inductive LayerKind where
  | linear
  /-- with `elementwise_affine` -/
  | layerNorm (affine : Bool)
  | other
  deriving DecidableEq

/-- A module of the model: name, kind, and whether the sample forward pass ran it (its input and output
were captured, compressor.py:288-314). -/
structure Module where
  name : String
  kind : LayerKind
  ran : Bool

/-- The seeds of one compressor: output-gradient sparsifier, input sparsifier, projector. -/
structure Seeds where
  comp1 : ℤ
  comp2 : ℤ
  proj : ℤ
  deriving DecidableEq

/-- The seeds for the module at position `id` of `named_modules()` (compressor.py:328, 369, 478, 497, 648;
for layer norms 699, 718, 801). -/
def seedsOf (s p : ℤ) (id : ℕ) : Seeds := ⟨s + 10000 * id, s + 10000 * id + 1, p + 10000 * id + 1⟩

/-- Does the set-up of a module succeed (compressor.py:439-440, 546-547, 682-683, 767-768)? -/
def Module.complete (m : Module) : Bool :=
  match m.kind with
  | .linear => m.ran
  | .layerNorm affine => affine && m.ran
  | .other => false

/-- `name_to_index[name]` (compressor.py:248): the last position. -/
def indexOf (names : List String) (name : String) : ℕ := names.length - 1 - names.reverse.idxOf name

/-- One turn of the loop (compressor.py:319-410). -/
def setupStep (names : List String) (s p : ℤ) (acc : List (Option Seeds)) (m : Module × ℕ) :
    Except Err (List (Option Seeds)) :=
  if m.1.name ∈ names then
    if m.1.kind = .other then .error .valueError
    else if m.1.complete then .ok (acc.set (indexOf names m.1.name) (some (seedsOf s p m.2)))
    else .ok acc
  else .ok acc

/-- `setup_model_compressors` (compressor.py:213-412); `s` and `p` are the seeds of the sparsifier and the
projector parameters. -/
def setup (net : List Module) (names : List String) (s p : ℤ) : Except Err (List (Option Seeds)) :=
  net.zipIdx.foldlM (setupStep names s p) (List.replicate names.length none)

/-- The parameters of one stage (`GeneralProjectionParams`, params/projection.py:34-49). -/
structure Stage where
  dim : ℤ
  maxBatch : ℕ
  seed : ℤ
  kind : Kind

/-- What a user passes (`LoGraProjectionParams`, `FactGrassProjectionParams`;
params/projection.py:52-82). -/
structure UserParams where
  perLayer : ℤ
  maxBatch : ℕ
  seed : ℤ
  kind : Kind

/-- The perfect-square test (logra.py:79-86, factgrass.py:85-95): `math.sqrt` of a negative number raises
`ValueError` as well.  Simplified: `int(math.sqrt(n))` is the integer square root (floats are exact in this
respect below 2^52). -/
def squareRoot (n : ℤ) : Except Err ℤ :=
  if n < 0 then .error .valueError
  else if (Nat.sqrt n.toNat : ℤ) * Nat.sqrt n.toNat ≠ n then .error .valueError
  else .ok (Nat.sqrt n.toNat)

/-- `LoGraAttributor.__init__` (logra.py:76-104): sparsifier and projector stages. -/
def logra (u : UserParams) : Except Err (Stage × Stage) :=
  match squareRoot u.perLayer with
  | .error e => .error e
  | .ok k => .ok (⟨k, u.maxBatch, u.seed, .normal⟩, ⟨-1, u.maxBatch, u.seed, .identity⟩)

/-- `FactGraSSAttributor.__init__` (factgrass.py:81-111): the stages take the default seed 0 and fixed
types and batch size. -/
def factgrass (u : UserParams) (blowup : ℤ) (cuda : Bool) : Except Err (Stage × Stage) :=
  match squareRoot (u.perLayer * blowup) with
  | .error e => .error e
  | .ok k => .ok (⟨k, 64, 0, .randomMask⟩, ⟨u.perLayer, 64, 0, if cuda then .sjlt else .normal⟩)

/-- The projector stage of the layer at position `id` on the CPU (compressor.py:642-652): a
`BasicProjector` with the default block size (projection.py:213-223). -/
def projector {d : ℕ} (rng : Rng d) (n : ℕ) (kind : Kind) (p : ℤ) (id : ℕ) : Basic d :=
  { projDim := n, seed := (seedsOf 0 p id).proj, kind := kind, rng := rng }

end Verif.Compress
