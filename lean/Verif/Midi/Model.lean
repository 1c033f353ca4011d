import Mathlib.Algebra.Order.Floor.Ring
import Mathlib.Data.Rat.Floor
import Mathlib.Data.List.Sort

/-!
# The MIDI event code

`/repo/dattri/benchmark/models/MusicTransformer/midi_processor/processor.py`, all functions but reading and
writing of files (`pretty_midi`) and the sustain pedal (`Sustain*.lean`).

Simplified: times are rational numbers of seconds (the code has floats); pitches and velocities are integers.
The encoder starts from the notes of all instruments.
-/

namespace Verif.Midi

/-- The event types, the keys of `START_IDX` (processor.py:11-16). -/
inductive EvType where
  | noteOn
  | noteOff
  | timeShift
  | velocity
  deriving DecidableEq

/-- `Event` (processor.py:58-61). -/
structure Event where
  type : EvType
  value : ℤ
  deriving DecidableEq

/-- `START_IDX` (processor.py:6-16). -/
def startIdx : EvType → ℤ
  | .noteOn => 0
  | .noteOff => 128
  | .timeShift => 256
  | .velocity => 356

/-- `Event.to_int` (processor.py:66-67). -/
def Event.toInt (e : Event) : ℤ := startIdx e.type + e.value

/-- `Event.from_int` with `_type_check` (processor.py:69-92). -/
def Event.fromInt (n : ℤ) : Event :=
  if 0 ≤ n ∧ n < 128 then ⟨.noteOn, n⟩
  else if 128 ≤ n ∧ n < 256 then ⟨.noteOff, n - 128⟩
  else if 256 ≤ n ∧ n < 356 then ⟨.timeShift, n - 256⟩
  else ⟨.velocity, n - 356⟩

/-- A note of `pretty_midi` (velocity, pitch, start, end). -/
structure Note where
  vel : ℤ
  pitch : ℤ
  start : ℚ
  stop : ℚ
  deriving DecidableEq

/-- `SplitNote` (processor.py:45-51). -/
structure SNote where
  type : EvType
  time : ℚ
  value : ℤ
  vel : Option ℤ
  deriving DecidableEq

/-- Python's `sort(key=...)`, a stable sort. -/
def sortBy {α : Type} (key : α → ℚ) (l : List α) : List α := l.mergeSort fun a b => decide (key a ≤ key b)

/-- `_divide_note` (processor.py:95-103). -/
def divide (notes : List Note) : List SNote :=
  (sortBy Note.start notes).flatMap fun n => [⟨.noteOn, n.start, n.pitch, some n.vel⟩, ⟨.noteOff, n.stop, n.pitch, none⟩]

/-- Python's `round` to an integer: halves go to the even neighbour. -/
def pyRound (x : ℚ) : ℤ :=
  if Int.fract x < 1 / 2 then ⌊x⌋
  else if 1 / 2 < Int.fract x then ⌊x⌋ + 1
  else if ⌊x⌋ % 2 = 0 then ⌊x⌋ else ⌊x⌋ + 1

/-- The loop of `_make_time_sift_events` (processor.py:155-162). -/
def shifts (t : ℤ) : List Event :=
  if 100 ≤ t then ⟨.timeShift, 99⟩ :: shifts (t - 100)
  else if t = 0 then [] else [⟨.timeShift, t - 1⟩]
termination_by t.toNat

/-- `_make_time_sift_events` (processor.py:153-162). -/
def timeShifts (prev post : ℚ) : List Event := shifts (pyRound ((post - prev) * 100))

/-- `_snote2events` (processor.py:127-134). -/
def snoteEvents (s : SNote) (prevVel : Option ℤ) : List Event :=
  (match s.vel with
    | some v => if prevVel ≠ some (v / 4) then [⟨.velocity, v / 4⟩] else []
    | none => []) ++ [⟨s.type, s.value⟩]

/-- The loop of `encode_midi` (processor.py:222-230) from the given `cur_time` and `cur_vel`. -/
def toEvents (time : ℚ) (vel : Option ℤ) : List SNote → List Event
  | [] => []
  | s :: rest => timeShifts time s.time ++ snoteEvents s vel ++ toEvents s.time s.vel rest

/-- `encode_midi` from the preprocessed notes on (processor.py:216-232). -/
def encode (notes : List Note) : List ℤ :=
  (toEvents 0 (some 0) (sortBy SNote.time (divide notes))).map Event.toInt

/-- `_event_seq2snote_seq` (processor.py:137-150) from the given timeline and velocity; time shifts also
append a split note. -/
def toSNotes (time : ℚ) (vel : ℤ) : List Event → List SNote
  | [] => []
  | e :: rest =>
    if e.type = .velocity then toSNotes time (e.value * 4) rest
    else if e.type = .timeShift then
      ⟨e.type, time + (e.value + 1) / 100, e.value, some vel⟩ :: toSNotes (time + (e.value + 1) / 100) vel rest
    else ⟨e.type, time, e.value, some vel⟩ :: toSNotes time vel rest

/-- `_merge_note` (processor.py:106-124) with the dictionary `on`; an entry is never removed.  An end without
a start is printed and skipped; a note of no duration is skipped.  (`pretty_midi` raises for a negative
duration, which the bare `except` turns into a skip as well.) -/
def merge (on : ℤ → Option SNote) : List SNote → List Note
  | [] => []
  | s :: rest =>
    if s.type = .noteOn then merge (Function.update on s.value (some s)) rest
    else if s.type = .noteOff then
      match on s.value with
      | none => merge on rest
      | some o =>
        if s.time - o.time = 0 then merge on rest
        else if s.time < o.time then merge on rest
        else ⟨o.vel.getD 0, s.value, o.time, s.time⟩ :: merge on rest
    else merge on rest

/-- `decode_midi` up to the creation of the file (processor.py:235-240). -/
def decode (codes : List ℤ) : List Note :=
  sortBy Note.start (merge (fun _ => none) (toSNotes 0 0 (codes.map Event.fromInt)))

end Verif.Midi
