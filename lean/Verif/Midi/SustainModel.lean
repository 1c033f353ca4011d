import Verif.Midi.Model

/-!
# The sustain pedal

`/repo/dattri/benchmark/models/MusicTransformer/midi_processor/processor.py` lines 19-41 and 165-214.

Notes are mutable objects that can be in several lists; in the model they are positions in the list of notes,
whose entries change.  Only the ends of notes ever change.
-/

namespace Verif.Midi

/-- A control change of the sustain pedal (number 64): time and value. -/
structure Ctrl where
  time : ℚ
  value : ℤ

/-- `SustainDownManager` (processor.py:25-33) without its lists. -/
structure Sustain where
  start : ℚ
  stop : ℚ
  deriving DecidableEq

/-- State of the loop of `_control_preprocess`: the sustains so far, the start of the open one. -/
structure CtrlSt where
  done : List Sustain
  opened : Option ℚ

/-- One turn of the loop (processor.py:169-179). -/
def ctrlStep (st : CtrlSt) (c : Ctrl) : CtrlSt :=
  if 64 ≤ c.value ∧ st.opened = none then { st with opened := some c.time }
  else if c.value < 64 ∧ st.opened.isSome then ⟨st.done ++ [⟨st.opened.getD 0, c.time⟩], none⟩
  else if c.value < 64 ∧ st.done ≠ [] then
    { st with done := st.done.dropLast ++ (st.done.getLast?.toList.map fun s => { s with stop := c.time }) }
  else st

/-- `_control_preprocess` (processor.py:165-180); a sustain that is never released is left out. -/
def controlPreprocess (ctrls : List Ctrl) : List Sustain := (ctrls.foldl ctrlStep ⟨[], none⟩).done

/-- What the inner loop does to one sustain: notes sent to the stream, notes managed, and the remaining
notes if the loop was left by `break`. -/
structure Sweep where
  stream : List ℕ
  managed : List ℕ
  rest : Option (List ℕ)

/-- The inner loop of `_note_preprocess` (processor.py:187-195). -/
def sweep (s : Sustain) (start : ℕ → ℚ) : List ℕ → Sweep
  | [] => ⟨[], [], none⟩
  | i :: l =>
    if start i < s.start then { sweep s start l with stream := i :: (sweep s start l).stream }
    else if s.stop < start i then ⟨[], [], some (i :: l)⟩
    else { sweep s start l with managed := i :: (sweep s start l).managed }

/-- The loop of `transposition_notes` (processor.py:35-41) over the managed notes in reverse order; `next` is
`_note_dict`. -/
def transposeGo (stop : ℚ) (next : ℤ → Option ℚ) : List ℕ → List Note → List Note
  | [], ns => ns
  | i :: l, ns =>
    match ns[i]? with
    | none => transposeGo stop next l ns
    | some n =>
      transposeGo stop (Function.update next n.pitch (some n.start)) l
        (ns.set i { n with stop := (next n.pitch).getD (max stop n.stop) })

/-- `transposition_notes` (processor.py:35-41). -/
def transpose (s : Sustain) (managed : List ℕ) (ns : List Note) : List Note :=
  transposeGo s.stop (fun _ => none) managed.reverse ns

/-- The lists of `_note_preprocess` and the state of the notes. -/
structure Pedal where
  stream : List ℕ
  managed : List ℕ
  notes : List Note

/-- The start of a note. -/
def startOf (ns : List Note) (i : ℕ) : ℚ := (ns[i]?.map Note.start).getD 0

/-- The loop over the sustains (processor.py:186-198): `rem` is the variable `notes`, which is cut at a
`break` only; the managed notes are appended to the stream afterwards. -/
def pedal : List Sustain → List ℕ → List Note → Pedal
  | [], _, ns => ⟨[], [], ns⟩
  | s :: ss, rem, ns =>
    match (sweep s (startOf ns) rem).rest with
    | none =>
      ⟨(sweep s (startOf ns) rem).stream ++ (pedal ss rem ns).stream,
        (sweep s (startOf ns) rem).managed ++ (pedal ss rem ns).managed, (pedal ss rem ns).notes⟩
    | some rem' =>
      ⟨(sweep s (startOf ns) rem).stream ++
          (pedal ss rem' (transpose s (sweep s (startOf ns) rem).managed ns)).stream,
        (sweep s (startOf ns) rem).managed ++
          (pedal ss rem' (transpose s (sweep s (startOf ns) rem).managed ns)).managed,
        (pedal ss rem' (transpose s (sweep s (startOf ns) rem).managed ns)).notes⟩

/-- The positions of the notes that `_note_preprocess` returns, before sorting. -/
def kept (ss : List Sustain) (notes : List Note) : List ℕ :=
  (pedal ss (List.range notes.length) notes).stream ++ (pedal ss (List.range notes.length) notes).managed

/-- `_note_preprocess` (processor.py:183-201). -/
def notePreprocess (ss : List Sustain) (notes : List Note) : List Note :=
  sortBy Note.start ((kept ss notes).filterMap fun i => (pedal ss (List.range notes.length) notes).notes[i]?)

/-- The notes of one instrument in `encode_midi` (processor.py:210-214). -/
def instrumentNotes (ctrls : List Ctrl) (notes : List Note) : List Note :=
  notePreprocess (controlPreprocess ctrls) notes

end Verif.Midi
