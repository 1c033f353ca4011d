import Verif.Base.Tensor
import Mathlib.Data.Real.Basic
import Mathlib.Data.List.Basic

/-!
# Preparing MIDI data (`dattri/benchmark/models/MusicTransformer/dataset/preprocess_midi.py`)

`encode_midi` is a parameter here (its model is in `Midi/Model`).  Simplifications: every entry of the JSON file has the keys `midi_filename` and `split`; writing a
pickle file does not fail; the counters are only printed.
-/

namespace Verif.Midi.Prep

/-- File names. -/
abbrev Name := List Char

/-- The three folders `train`, `val`, `test` of the output directory (preprocess_midi.py:28-33, 93-98). -/
inductive Split
  | train
  | val
  | test
  deriving DecidableEq

/-- The pickle files in the three folders. -/
abbrev Out (T : Type) := Split → Name → Option T

/-- `pickle.dump` to a file opened with "wb": replaces its content (preprocess_midi.py:69-71, 134-136). -/
def put {T : Type} (o : Out T) (s : Split) (n : Name) (x : T) : Out T := fun s' n' => if s' = s ∧ n' = n then some x else o s' n'

/-- `os.path.join(root, f)`: an absolute `f` replaces the root (preprocess_midi.py:50, 119). -/
def join (root f : Name) : Name :=
  if f.head? = some '/' then f
  else if root = [] ∨ root.getLast? = some '/' then root ++ f
  else root ++ '/' :: f

/-- `s.split("/")[-1]` (preprocess_midi.py:52). -/
def base (s : Name) : Name := (s.reverse.takeWhile (· ≠ '/')).reverse

/-- `s.split(".")[0]` (preprocess_midi.py:120). -/
def stem (s : Name) : Name := s.takeWhile (· ≠ '.')

/-- The appended suffix (preprocess_midi.py:52, 120). -/
def suffix : Name := ".pickle".toList

/-- An entry of the JSON file (preprocess_midi.py:50-51). -/
structure Piece where
  file : Name
  split : String

/-- Which folder a split type means (preprocess_midi.py:54-65); `none` if unrecognised. -/
def splitOf (s : String) : Option Split :=
  if s = "train" then some .train else if s = "validation" then some .val else if s = "test" then some .test else none

variable {T : Type}

/-- The loop of `prep_maestro_midi` (preprocess_midi.py:49-80): an unrecognised split type ends it with `False`, an exception of the encoder propagates before the file is
opened. -/
def maestroLoop (enc : Name → Except Err T) (root : Name) : List Piece → Out T → Except Err Bool × Out T
  | [], o => (.ok true, o)
  | p :: ps, o =>
    match splitOf p.split with
    | none => (.ok false, o)
    | some s =>
      match enc (join root p.file) with
      | .error e => (.error e, o)
      | .ok x => maestroLoop enc root ps (put o s (base (join root p.file) ++ suffix) x)

/-- `prep_maestro_midi` (preprocess_midi.py:16-80): `json = none` if the JSON file is missing. -/
def prepMaestro (enc : Name → Except Err T) (root : Name) (json : Option (List Piece)) (o : Out T) : Except Err Bool × Out T :=
  match json with
  | none => (.ok false, o)
  | some ps => maestroLoop enc root ps o

/-- The folder chosen for a piece, and how many numbers have been drawn afterwards: `r k` is the `k`-th value of `random.random()` (preprocess_midi.py:109-117). -/
noncomputable def draw (v t : ℝ) (r : ℕ → ℝ) (k : ℕ) : Split × ℕ :=
  if r k > v then (.train, k + 1) else if r (k + 1) > t then (.val, k + 2) else (.test, k + 2)

/-- The loop of `prep_custom_midi` over the directory listing (preprocess_midi.py:107-145). -/
noncomputable def customLoop (enc : Name → Except Err T) (root : Name) (v t : ℝ) (r : ℕ → ℝ) : List Name → ℕ → Out T → Except Err Bool × Out T
  | [], _, o => (.ok true, o)
  | f :: fs, k, o =>
    match enc (join root f) with
    | .error e => (.error e, o)
    | .ok x => customLoop enc root v t r fs (draw v t r k).2 (put o (draw v t r k).1 (stem f ++ suffix) x)

/-- `prep_custom_midi` (preprocess_midi.py:82-145) with its parameters `valid_p` and `test_p`. -/
noncomputable def prepCustom (enc : Name → Except Err T) (root : Name) (v t : ℝ) (r : ℕ → ℝ) (listing : List Name) (o : Out T) : Except Err Bool × Out T :=
  customLoop enc root v t r listing 0 o

end Verif.Midi.Prep
