import Mathlib.Algebra.Order.Archimedean.Basic
import Mathlib.Tactic.NormNum
import Verif.Midi.Lemmas

/-!
# The MIDI event code: properties
-/

namespace Verif.Midi

/-! ### C70: the code of an event -/

/-- The vocabulary: 128 starts, 128 ends, 100 time shifts and 32 velocities. -/
def Event.InRange (e : Event) : Prop :=
  0 ≤ e.value ∧ (e.type = .noteOn → e.value < 128) ∧ (e.type = .noteOff → e.value < 128) ∧
    (e.type = .timeShift → e.value < 100) ∧ (e.type = .velocity → e.value < 32)

/-- C70: an event of the vocabulary has a code below 388, the end token, from which it is decoded. -/
theorem C70_round_trip {e : Event} (h : e.InRange) :
    Event.fromInt e.toInt = e ∧ 0 ≤ e.toInt ∧ e.toInt < 388 := by
  obtain ⟨t, v⟩ := e
  obtain ⟨h0, h1, h2, h3, h4⟩ := h
  simp only at *
  cases t
  · have := h1 rfl
    have e : Event.toInt ⟨.noteOn, v⟩ = v := by simp [Event.toInt, startIdx]
    rw [e, Event.fromInt]
    rw [if_pos (by omega)]
    exact ⟨by simp, by omega, by omega⟩
  · have := h2 rfl
    have e : Event.toInt ⟨.noteOff, v⟩ = 128 + v := by simp [Event.toInt, startIdx]
    rw [e, Event.fromInt]
    rw [if_neg (by omega), if_pos (by omega)]
    exact ⟨by simp, by omega, by omega⟩
  · have := h3 rfl
    have e : Event.toInt ⟨.timeShift, v⟩ = 256 + v := by simp [Event.toInt, startIdx]
    rw [e, Event.fromInt]
    rw [if_neg (by omega), if_neg (by omega), if_pos (by omega)]
    exact ⟨by simp, by omega, by omega⟩
  · have := h4 rfl
    have e : Event.toInt ⟨.velocity, v⟩ = 356 + v := by simp [Event.toInt, startIdx]
    rw [e, Event.fromInt]
    rw [if_neg (by omega), if_neg (by omega), if_neg (by omega)]
    exact ⟨by simp, by omega, by omega⟩

/-- C70: distinct events of the vocabulary have distinct codes. -/
theorem C70_injective {e e' : Event} (h : e.InRange) (h' : e'.InRange) (he : e.toInt = e'.toInt) : e = e' := by
  rw [← (C70_round_trip h).1, he, (C70_round_trip h').1]

/-- C70: every integer is the code of what it is decoded to, and this is in the vocabulary exactly for the
codes from 0 below 388; the end and the padding token are decoded to velocities out of range. -/
theorem C70_onto (n : ℤ) :
    (Event.fromInt n).toInt = n ∧ ((Event.fromInt n).InRange ↔ 0 ≤ n ∧ n < 388) := by
  unfold Event.fromInt
  split
  · refine ⟨by simp [Event.toInt, startIdx], ?_⟩
    simp [Event.InRange]; omega
  · split
    · refine ⟨by simp [Event.toInt, startIdx], ?_⟩
      simp [Event.InRange]; omega
    · split
      · refine ⟨by simp [Event.toInt, startIdx], ?_⟩
        simp [Event.InRange]; omega
      · refine ⟨by simp [Event.toInt, startIdx], ?_⟩
        simp [Event.InRange]; omega

example : Event.InRange ⟨.timeShift, 99⟩ ∧ Event.toInt ⟨.timeShift, 99⟩ = 355 ∧
    Event.fromInt 388 = ⟨.velocity, 32⟩ := by
  simp [Event.InRange, Event.toInt, startIdx, Event.fromInt]

/-! ### C71: time shifts -/

/-- C71: the time shifts between two moments in order are in the vocabulary, add up to the interval in
hundredths of a second, rounded to the nearest integer, and no fewer events of the vocabulary do. -/
theorem C71_sum {prev post : ℚ} (h : prev ≤ post) :
    ∃ t : ℤ, |(t : ℚ) - (post - prev) * 100| ≤ 1 / 2 ∧
      (∀ e ∈ timeShifts prev post, e.type = .timeShift ∧ e.InRange) ∧
      ((timeShifts prev post).map fun e => e.value + 1).sum = t ∧
      ∀ l : List Event, (∀ e ∈ l, e.type = .timeShift ∧ e.InRange) → (l.map fun e => e.value + 1).sum = t →
        (timeShifts prev post).length ≤ l.length := by
  obtain ⟨a, b, c⟩ := shifts_spec (pyRound ((post - prev) * 100)) (pyRound_nonneg (by linarith))
  refine ⟨_, pyRound_near _, ?_, b, ?_⟩
  · intro e he
    obtain ⟨h1, h2, h3⟩ := a e he
    exact ⟨h1, h2, fun _ => by omega, fun _ => by omega, fun _ => h3, fun e => by rw [h1] at e; cases e⟩
  · intro l hl hs
    have : (l.map fun e => e.value + 1).sum ≤ (l.length : ℤ) * 100 := by
      clear hs
      induction l with
      | nil => simp
      | cons e l ih =>
        obtain ⟨h1, h2⟩ := hl e (by simp)
        have := h2.2.2.2.1 h1
        have := ih fun x hx => hl x (List.mem_cons_of_mem _ hx)
        simp only [List.map_cons, List.sum_cons, List.length_cons]
        push_cast; omega
    have hc : ((timeShifts prev post).length : ℤ) * 100 < (l.length + 1) * 100 := by
      show ((shifts _).length : ℤ) * 100 < _
      omega
    omega

example : timeShifts 1 (7 / 2) = [⟨.timeShift, 99⟩, ⟨.timeShift, 99⟩, ⟨.timeShift, 49⟩] := by
  have : (7 / 2 - 1) * 100 = ((250 : ℤ) : ℚ) := by norm_num
  unfold timeShifts
  rw [this, pyRound_intCast]
  simp [shifts]

/-! ### Encoding a whole piece -/

/-- Notes a MIDI file can contain. -/
def Note.Admissible (n : Note) : Prop :=
  0 ≤ n.pitch ∧ n.pitch < 128 ∧ 0 ≤ n.vel ∧ n.vel < 128 ∧ 0 ≤ n.start ∧ n.start ≤ n.stop

/-- The starts and ends of the notes in the order of the encoder. -/
def splits (notes : List Note) : List SNote := sortBy SNote.time (divide notes)

/-- The starts and ends decoded from the encoding. -/
def decoded (notes : List Note) : List SNote :=
  (toSNotes 0 0 ((encode notes).map Event.fromInt)).filter fun s => s.type ≠ .timeShift

theorem mem_divide {notes : List Note} {s : SNote} (h : s ∈ divide notes) : ∃ n ∈ notes,
    s = ⟨.noteOn, n.start, n.pitch, some n.vel⟩ ∨ s = ⟨.noteOff, n.stop, n.pitch, none⟩ := by
  unfold divide at h
  rw [List.mem_flatMap] at h
  obtain ⟨n, hn, hs⟩ := h
  refine ⟨n, (sortBy_perm _ _).mem_iff.1 hn, ?_⟩
  simpa using hs

theorem mem_splits {notes : List Note} {s : SNote} (h : s ∈ splits notes) : ∃ n ∈ notes,
    s = ⟨.noteOn, n.start, n.pitch, some n.vel⟩ ∨ s = ⟨.noteOff, n.stop, n.pitch, none⟩ :=
  mem_divide ((sortBy_perm _ _).mem_iff.1 h)

theorem splits_chain {notes : List Note} (h : ∀ n ∈ notes, n.Admissible) :
    List.Pairwise (fun a b => a ≤ b) ((0 : ℚ) :: (splits notes).map SNote.time) := by
  rw [List.pairwise_cons]
  constructor
  · intro t ht
    obtain ⟨s, hs, rfl⟩ := List.mem_map.1 ht
    obtain ⟨n, hn, rfl | rfl⟩ := mem_splits hs
    · exact (h n hn).2.2.2.2.1
    · exact (h n hn).2.2.2.2.1.trans (h n hn).2.2.2.2.2
  · rw [List.pairwise_map]; exact sortBy_sorted _ _

theorem toEvents_range (l : List SNote) : ∀ (t : ℚ) (v : Option ℤ),
    (∀ s ∈ l, Proper s ∧ 0 ≤ s.value ∧ s.value < 128 ∧ ∀ w, s.vel = some w → 0 ≤ w ∧ w < 128) →
    List.Pairwise (fun a b => a ≤ b) (t :: l.map SNote.time) → ∀ e ∈ toEvents t v l, e.InRange := by
  induction l with
  | nil => intro _ _ _ _ e h; cases h
  | cons s l ih =>
    intro t v hl ht e he
    rw [List.map_cons, List.pairwise_cons] at ht
    obtain ⟨hp, h1, h2, h3⟩ := hl s (by simp)
    rw [toEvents, List.append_assoc, List.mem_append, List.mem_append] at he
    rcases he with he | he | he
    · obtain ⟨_, _, a, _⟩ := C71_sum (ht.1 s.time (by simp))
      exact (a e he).2
    · unfold snoteEvents at he
      rw [List.mem_append, List.mem_singleton] at he
      rcases he with he | rfl
      · cases hw : s.vel with
        | none => rw [hw] at he; cases he
        | some w =>
          rw [hw] at he
          simp only at he
          split at he
          · rw [List.mem_singleton] at he
            subst he
            have := h3 w hw
            simp [Event.InRange]
            omega
          · cases he
      · rcases hp with ⟨e1, _⟩ | ⟨e1, _⟩ <;>
          simp [Event.InRange, e1] <;> omega
    · exact ih _ _ (fun x hx => hl x (List.mem_cons_of_mem _ hx)) ht.2 e he

theorem events_range {notes : List Note} (h : ∀ n ∈ notes, n.Admissible) :
    ∀ e ∈ toEvents 0 (some 0) (splits notes), e.InRange := by
  refine toEvents_range _ _ _ (fun s hs => ?_) (splits_chain h)
  refine ⟨divide_proper notes s ((sortBy_perm _ _).mem_iff.1 hs), ?_⟩
  obtain ⟨n, hn, rfl | rfl⟩ := mem_splits hs
  · obtain ⟨a, b, c, d, _⟩ := h n hn
    refine ⟨a, b, fun w hw => ?_⟩
    cases hw; exact ⟨c, d⟩
  · obtain ⟨a, b, _⟩ := h n hn
    exact ⟨a, b, fun w hw => by cases hw⟩

/-- C104: every token of an encoded piece is in the vocabulary (no end or padding token, nothing negative). -/
theorem C104_tokens {notes : List Note} (h : ∀ n ∈ notes, n.Admissible) :
    ∀ c ∈ encode notes, 0 ≤ c ∧ c < 388 := by
  intro c hc
  unfold encode at hc
  obtain ⟨e, he, rfl⟩ := List.mem_map.1 hc
  exact (C70_round_trip (events_range h e he)).2

theorem map_fromInt {notes : List Note} (h : ∀ n ∈ notes, n.Admissible) :
    (encode notes).map Event.fromInt = toEvents 0 (some 0) (splits notes) := by
  unfold encode
  rw [List.map_map]
  conv_rhs => rw [← List.map_id (toEvents 0 (some 0) (splits notes))]
  exact List.map_congr_left fun e he => (C70_round_trip (events_range h e he)).1

theorem decoded_eq {notes : List Note} (h : ∀ n ∈ notes, n.Admissible) :
    decoded notes = trace 0 0 0 (some 0) (splits notes) := by
  unfold decoded
  rw [map_fromInt h]
  exact toSNotes_toEvents _ _ _ _ _ (fun s hs => divide_proper notes s ((sortBy_perm _ _).mem_iff.1 hs))
    (splits_chain h)

/-- C72: decoding an encoded piece gives the same starts and ends in the same order. -/
theorem C72_same_events {notes : List Note} (h : ∀ n ∈ notes, n.Admissible) :
    (decoded notes).map (fun s => (s.type, s.value)) = (splits notes).map fun s => (s.type, s.value) := by
  rw [decoded_eq h]
  generalize (0 : ℚ) = T, (0 : ℤ) = V
  generalize (some V : Option ℤ) = v
  generalize T = t
  suffices ∀ l T V t v, (trace T V t v l).map (fun s => (s.type, s.value)) =
      l.map fun s => (s.type, s.value) from this _ _ _ _ _
  intro l
  induction l with
  | nil => intros; rfl
  | cons s l ih => intros; simp [trace, ih]

/-- C72: the velocity of a note is decoded as its largest multiple of 4, except exactly if the event before
it is the start of another note whose velocity is the quantised velocity (velocity divided by 4) of this
one, and this is not 0; then the decoded velocity is at most a quarter of the true one. -/
theorem C72_velocity {notes : List Note} (h : ∀ n ∈ notes, n.Admissible) {k : ℕ} {b : SNote} {v : ℤ}
    (hb : (splits notes)[k]? = some b) (hv : b.vel = some v) :
    ∃ d x, (decoded notes)[k]? = some d ∧ d.vel = some x ∧
      (x = 4 * (v / 4) ↔
        ¬ ∃ a j, k = j + 1 ∧ (splits notes)[j]? = some a ∧ a.vel = some (v / 4) ∧ 4 ≤ v) ∧
      (x ≠ 4 * (v / 4) → 4 * x ≤ v) := by
  obtain ⟨d, x, h1, h2, h3, h4, h5, h6⟩ := trace_vel (splits notes) 0 0 0 (some 0) le_rfl
    (fun w e => by cases e; exact le_rfl)
    (fun s hs w hw => by
      obtain ⟨n, hn, rfl | rfl⟩ := mem_splits hs
      · cases hw; exact (h n hn).2.2.1
      · cases hw) k b v hb hv
  refine ⟨d, x, by rw [decoded_eq h]; exact h1, h2, ?_⟩
  have hbad : (prevVel (some 0) (splits notes) k = some (v / 4) ∧ 4 ≤ v) ↔
      ∃ a j, k = j + 1 ∧ (splits notes)[j]? = some a ∧ a.vel = some (v / 4) ∧ 4 ≤ v := by
    cases k with
    | zero =>
      simp only [prevVel, Option.some.injEq]
      constructor
      · rintro ⟨e, e'⟩; omega
      · rintro ⟨a, j, e, _⟩; omega
    | succ k =>
      simp only [prevVel, Option.bind_eq_some_iff]
      constructor
      · rintro ⟨⟨a, ha, e⟩, e'⟩; exact ⟨a, k, rfl, ha, e, e'⟩
      · rintro ⟨a, j, e, ha, ha', e'⟩
        obtain rfl : k = j := by omega
        exact ⟨⟨a, ha, ha'⟩, e'⟩
  rw [hbad] at h5 h6
  refine ⟨⟨fun hx hb' => ?_, h6⟩, fun hx => ?_⟩
  · have := h5 hb'
    obtain ⟨_, _, _, _, _, e⟩ := hb'
    omega
  · by_cases hb' : ∃ a j, k = j + 1 ∧ (splits notes)[j]? = some a ∧ a.vel = some (v / 4) ∧ 4 ≤ v
    · have := h5 hb'; omega
    · exact absurd (h6 hb') hx

/-- C105: every event is decoded within half a hundredth of a second per event so far of its time; if all
times are multiples of a hundredth it is decoded exactly. -/
theorem C105_drift {notes : List Note} (h : ∀ n ∈ notes, n.Admissible) {k : ℕ} {s : SNote}
    (hs : (splits notes)[k]? = some s) :
    ∃ d, (decoded notes)[k]? = some d ∧ |d.time - s.time| ≤ (k + 1) / 200 := by
  obtain ⟨d, h1, h2⟩ := trace_time (splits notes) 0 0 0 (some 0) 0 (by simp) k s hs
  exact ⟨d, by rw [decoded_eq h]; exact h1, by simpa using h2⟩

/-- C105: exact for times in hundredths. -/
theorem C105_exact {notes : List Note} (h : ∀ n ∈ notes, n.Admissible)
    (hc : ∀ n ∈ notes, (∃ a : ℤ, n.start = a / 100) ∧ ∃ a : ℤ, n.stop = a / 100) {k : ℕ} {s : SNote}
    (hs : (splits notes)[k]? = some s) : ∃ d, (decoded notes)[k]? = some d ∧ d.time = s.time := by
  rw [decoded_eq h]
  refine trace_time_exact (splits notes) 0 0 (some 0) ⟨0, by simp⟩ (fun s hs => ?_) k s hs
  obtain ⟨n, hn, rfl | rfl⟩ := mem_splits hs
  · exact (hc n hn).1
  · exact (hc n hn).2

theorem merge_skip_shifts (l : List SNote) : ∀ f, merge f (l.filter fun s => s.type ≠ .timeShift) = merge f l := by
  induction l with
  | nil => intro f; rfl
  | cons s l ih =>
    intro f
    by_cases e : s.type = .timeShift
    · rw [List.filter_cons_of_neg (by simp [e]), ih]
      conv_rhs => unfold merge
      rw [e]; simp
    · rw [List.filter_cons_of_pos (by simp [e])]
      unfold merge
      simp only [ih]

theorem decode_encode (notes : List Note) :
    decode (encode notes) = sortBy Note.start (merge (fun _ => none) (decoded notes)) := by
  unfold decode decoded
  rw [merge_skip_shifts]

/-- C105: rounding is per event and not corrected: a piece in which no two consecutive events are half a
hundredth of a second or more apart is decoded to nothing, however long it is. -/
theorem C105_vanishes {notes : List Note} (h : ∀ n ∈ notes, n.Admissible)
    (hd : List.IsChain (fun a b => b - a < 1 / 200) ((0 : ℚ) :: (splits notes).map SNote.time)) :
    decode (encode notes) = [] := by
  have hc : List.IsChain (fun a b => a ≤ b ∧ b - a < 1 / 200) ((0 : ℚ) :: (splits notes).map SNote.time) := by
    have := (splits_chain h).isChain
    rw [List.isChain_iff_getElem] at *
    exact fun i hi => ⟨this i hi, hd i hi⟩
  have hz := trace_collapse (splits notes) 0 0 0 (some 0) hc
  rw [decode_encode, decoded_eq h, merge_zero _ 0 _ (fun p o e => by cases e) hz]
  simp [sortBy]

/-- C106: if times are in hundredths, notes have positive durations and notes of one pitch do not overlap,
and no velocity is another note's velocity divided by 4 (for instance if all are at least 32), then
decoding an encoded piece gives back its notes, with velocities rounded down to a multiple of 4. -/
theorem C106_round_trip {notes : List Note} (h : ∀ n ∈ notes, n.Admissible)
    (hc : ∀ n ∈ notes, (∃ a : ℤ, n.start = a / 100) ∧ ∃ a : ℤ, n.stop = a / 100)
    (hpos : ∀ n ∈ notes, n.start < n.stop)
    (hover : notes.Pairwise fun a b => a.pitch = b.pitch → a.stop ≤ b.start ∨ b.stop ≤ a.start)
    (hvel : ∀ a ∈ notes, ∀ b ∈ notes, 4 ≤ b.vel → a.vel ≠ b.vel / 4) :
    (decode (encode notes)).Perm (notes.map fun n => { n with vel := 4 * (n.vel / 4) }) := by
  rw [decode_encode]
  refine (sortBy_perm _ _).trans ?_
  -- what is decoded is what was encoded, with rounded velocities
  have hlen : (decoded notes).length = ((splits notes).map quant).length := by
    rw [decoded_eq h, trace_length, List.length_map]
  have hsim : List.Forall₂ Sim (decoded notes) ((splits notes).map quant) := by
    rw [List.forall₂_iff_get]
    refine ⟨hlen, fun k h1 h2 => ?_⟩
    have hk : k < (splits notes).length := by simpa using h2
    have hs : (splits notes)[k]? = some (splits notes)[k] := List.getElem?_eq_getElem hk
    have hg : (decoded notes)[k]? = some ((decoded notes).get ⟨k, h1⟩) := List.getElem?_eq_getElem h1
    have hq : ((splits notes).map quant).get ⟨k, h2⟩ = quant (splits notes)[k] := by simp
    rw [hq]
    obtain ⟨d, hd1, hd2⟩ := C105_exact h hc hs
    rw [hg] at hd1; cases hd1
    obtain ⟨d, hd3, hd4, hd5⟩ := trace_same (splits notes) 0 0 0 (some 0) k _ hs
    rw [← decoded_eq h, hg] at hd3; cases hd3
    refine ⟨hd4, hd2, hd5, fun ht => ?_⟩
    obtain ⟨n, hn, e | e⟩ := mem_splits (List.getElem_mem hk)
    · obtain ⟨d, x, hd6, hd7, hd8, _⟩ := C72_velocity h hs (v := n.vel) (by rw [e])
      rw [hg] at hd6; cases hd6
      rw [hd7, e]
      simp only [quant, Option.map_some, Option.some.injEq]
      apply hd8.2
      rintro ⟨a, j, _, ha, ha', h4⟩
      obtain ⟨n', hn', rfl | rfl⟩ := mem_splits (List.mem_of_getElem? ha)
      · exact hvel n' hn' n hn h4 (Option.some.inj ha')
      · cases ha'
    · rw [hd4, e] at ht; cases ht
  rw [merge_sim hsim]
  -- pitch by pitch
  have pitch : ∀ p, (merge (fun _ => none) ((splits notes).map quant)).filter (fun n => n.pitch = p) =
      ((sortBy Note.start notes).map fun n => { n with vel := 4 * (n.vel / 4) }).filter
        fun n => n.pitch = p := by
    intro p
    rw [merge_filter p _ _ (fun _ => none) rfl]
    have f1 : ((splits notes).map quant).filter (fun s => s.value = p) =
        ((splits notes).filter fun s => s.value = p).map quant := by
      rw [List.filter_map]; rfl
    have f2 : (divide notes).filter (fun s => s.value = p) =
        ((sortBy Note.start notes).filter fun n => n.pitch = p).flatMap fun n =>
          [⟨.noteOn, n.start, n.pitch, some n.vel⟩, ⟨.noteOff, n.stop, n.pitch, none⟩] := by
      unfold divide
      generalize sortBy Note.start notes = m
      induction m with
      | nil => rfl
      | cons n m ih =>
        rw [List.flatMap_cons, List.filter_append, ih]
        by_cases e : n.pitch = p
        · simp [e]
        · simp [e]
    have order : ((sortBy Note.start notes).filter fun n => n.pitch = p).Pairwise fun a b => a.stop ≤ b.start := by
      have s1 : (sortBy Note.start notes).Pairwise fun a b => a.start ≤ b.start := sortBy_sorted _ _
      have s2 : (sortBy Note.start notes).Pairwise
          fun a b => a.pitch = b.pitch → a.stop ≤ b.start ∨ b.stop ≤ a.start :=
        ((sortBy_perm _ _).pairwise_iff (fun {a b} hab e => (hab e.symm).symm)).2 hover
      have s3 : (sortBy Note.start notes).Pairwise fun a b => a.pitch = b.pitch → a.stop ≤ b.start := by
        refine List.Pairwise.imp_of_mem ?_ (s1.and s2)
        rintro a b ha hb ⟨h1, h2⟩ e
        rcases h2 e with h3 | h3
        · exact h3
        · have := hpos b ((sortBy_perm _ _).mem_iff.1 hb)
          linarith
      refine List.Pairwise.imp_of_mem ?_ (s3.filter _)
      intro a b ha hb hab
      have ea : a.pitch = p := by simpa using (List.mem_filter.1 ha).2
      have eb : b.pitch = p := by simpa using (List.mem_filter.1 hb).2
      exact hab (ea.trans eb.symm)
    have sorted : ((divide notes).filter fun s => s.value = p).Pairwise fun a b => a.time ≤ b.time := by
      rw [f2]
      have hm : ∀ n ∈ (sortBy Note.start notes).filter (fun n => n.pitch = p), n.start < n.stop := fun n hn =>
        hpos n ((sortBy_perm _ _).mem_iff.1 (List.mem_filter.1 hn).1)
      generalize (sortBy Note.start notes).filter (fun n => n.pitch = p) = m at order hm
      induction m with
      | nil => exact List.Pairwise.nil
      | cons n m ih =>
        rw [List.pairwise_cons] at order
        have hn := hm n (by simp)
        have later : ∀ s ∈ (m.flatMap fun n => [(⟨.noteOn, n.start, n.pitch, some n.vel⟩ : SNote),
            ⟨.noteOff, n.stop, n.pitch, none⟩]), n.stop ≤ s.time := by
          intro s hs
          rw [List.mem_flatMap] at hs
          obtain ⟨n', hn', hs⟩ := hs
          have h1 := order.1 n' hn'
          have h2 := hm n' (List.mem_cons_of_mem _ hn')
          rcases List.mem_cons.1 hs with rfl | hs
          · exact h1
          · rw [List.mem_singleton] at hs; subst hs; exact h1.trans h2.le
        rw [List.flatMap_cons, List.cons_append, List.cons_append, List.nil_append, List.pairwise_cons,
          List.pairwise_cons]
        refine ⟨?_, later, ih order.2 fun x hx => hm x (List.mem_cons_of_mem _ hx)⟩
        intro s hs
        rcases List.mem_cons.1 hs with rfl | hs
        · exact hn.le
        · exact hn.le.trans (later s hs)
    have f3 : (splits notes).filter (fun s => s.value = p) = (divide notes).filter fun s => s.value = p :=
      sortBy_filter _ _ _ sorted
    rw [f1, f3, f2, merge_pairs _ _ fun n hn =>
      hpos n ((sortBy_perm _ _).mem_iff.1 (List.mem_filter.1 hn).1), List.filter_map]
    rfl
  have perm : (merge (fun _ => none) ((splits notes).map quant)).Perm
      ((sortBy Note.start notes).map fun n => { n with vel := 4 * (n.vel / 4) }) := by
    rw [List.perm_iff_count]
    intro a
    have := congrArg (List.count a) (pitch a.pitch)
    rwa [List.count_filter (by simp), List.count_filter (by simp)] at this
  exact perm.trans ((sortBy_perm _ _).map _)

/-! ### Concrete pieces -/

theorem sortBy_of_sorted {α : Type} (key : α → ℚ) {l : List α} (h : l.Pairwise fun a b => key a ≤ key b) :
    sortBy key l = l := by
  have := sortBy_filter key l (fun _ => true) (by simpa using h)
  simpa using this

/-- Two notes of velocities 16 and 64, the second start directly after the first: the second velocity event
is left out, and both notes are decoded with velocity 16. -/
example : ∃ d, (decoded [⟨16, 60, 0, 2⟩, ⟨64, 64, 1, 2⟩])[1]? = some d ∧ d.vel ≠ some 64 := by
  have hs : splits [⟨16, 60, 0, 2⟩, ⟨64, 64, 1, 2⟩] = [⟨.noteOn, 0, 60, some 16⟩, ⟨.noteOn, 1, 64, some 64⟩,
      ⟨.noteOff, 2, 60, none⟩, ⟨.noteOff, 2, 64, none⟩] := by
    have hd : divide [⟨16, 60, 0, 2⟩, ⟨64, 64, 1, 2⟩] = [⟨.noteOn, 0, 60, some 16⟩, ⟨.noteOff, 2, 60, none⟩,
        ⟨.noteOn, 1, 64, some 64⟩, ⟨.noteOff, 2, 64, none⟩] := by
      unfold divide
      rw [sortBy_of_sorted _ (by simp)]
      rfl
    unfold splits sortBy
    rw [hd]
    simp [List.mergeSort, List.MergeSort.Internal.splitInTwo]
  have h : ∀ n ∈ [(⟨16, 60, 0, 2⟩ : Note), ⟨64, 64, 1, 2⟩], n.Admissible := by
    simp [Note.Admissible]
  obtain ⟨d, x, h1, h2, h3, _⟩ := C72_velocity h (k := 1) (b := ⟨.noteOn, 1, 64, some 64⟩) (v := 64)
    (by rw [hs]; rfl) rfl
  refine ⟨d, h1, fun e => ?_⟩
  rw [h2] at e; cases e
  exact h3.1 (by decide) ⟨_, 0, rfl, by rw [hs]; rfl, rfl, by decide⟩

/-- Notes of a five hundredth of a second, one every 250th. -/
def dense (k : ℕ) : ℕ → List Note
  | 0 => []
  | n + 1 => ⟨64, 60, k / 250, k / 250 + 1 / 500⟩ :: dense (k + 1) n

theorem dense_chain (n : ℕ) : ∀ (k : ℕ) (t : ℚ), t ≤ k / 250 → (k : ℚ) / 250 - t < 1 / 200 →
    List.IsChain (fun a b => a ≤ b ∧ b - a < 1 / 200) (t :: ((dense k n).flatMap fun n =>
      [(⟨.noteOn, n.start, n.pitch, some n.vel⟩ : SNote), ⟨.noteOff, n.stop, n.pitch, none⟩]).map SNote.time) := by
  induction n with
  | zero => intros; simp [dense]
  | succ n ih =>
    intro k t h1 h2
    have := ih (k + 1) (k / 250 + 1 / 500) (by push_cast; linarith) (by push_cast; linarith)
    simp only [dense, List.flatMap_cons, List.cons_append, List.nil_append, List.map_cons,
      List.isChain_cons_cons]
    exact ⟨⟨h1, h2⟩, ⟨by linarith, by linarith⟩, this⟩

theorem dense_mem (n : ℕ) : ∀ (k : ℕ) (x : Note), x ∈ dense k n → x.Admissible ∧ (k : ℚ) / 250 ≤ x.start := by
  induction n with
  | zero => intro k x h; cases h
  | succ n ih =>
    intro k x h
    rcases List.mem_cons.1 h with rfl | h
    · refine ⟨⟨by simp, by simp, by simp, by simp, ?_, ?_⟩, le_rfl⟩
      · show (0 : ℚ) ≤ k / 250
        positivity
      · show (k : ℚ) / 250 ≤ k / 250 + 1 / 500
        linarith
    · obtain ⟨a, b⟩ := ih (k + 1) x h
      refine ⟨a, le_trans ?_ b⟩
      push_cast; linarith

theorem dense_last (n : ℕ) : ∀ k, ∃ x ∈ dense k (n + 1), x.start = ((k + n : ℕ) : ℚ) / 250 := by
  induction n with
  | zero => intro k; exact ⟨_, List.mem_cons_self, by simp⟩
  | succ n ih =>
    intro k
    obtain ⟨x, hx, e⟩ := ih (k + 1)
    refine ⟨x, List.mem_cons_of_mem _ hx, ?_⟩
    rw [e]; congr 2; omega

/-- C105: for every duration there is a piece, of admissible notes of positive duration, that lasts longer
and is decoded to nothing. -/
theorem C105_any_length (T : ℚ) : ∃ notes : List Note, (∀ n ∈ notes, n.Admissible ∧ n.start < n.stop) ∧
    (∃ n ∈ notes, T ≤ n.start) ∧ decode (encode notes) = [] := by
  obtain ⟨n, hn⟩ := exists_nat_ge (T * 250)
  obtain ⟨x, hx, ex⟩ := dense_last n 0
  have adm : ∀ y ∈ dense 0 (n + 1), y.Admissible := fun y hy => (dense_mem _ _ y hy).1
  have pos : ∀ (n k : ℕ), ∀ y ∈ dense k n, y.start < y.stop := by
    intro n
    induction n with
    | zero => intro k y h; cases h
    | succ n ih =>
      intro k y h
      rcases List.mem_cons.1 h with rfl | h
      · show (k : ℚ) / 250 < k / 250 + 1 / 500
        linarith
      · exact ih _ y h
  refine ⟨dense 0 (n + 1), fun y hy => ⟨adm y hy, pos _ _ y hy⟩, ⟨x, hx, by rw [ex]; push_cast; linarith⟩, ?_⟩
  have hc := dense_chain (n + 1) 0 0 (by simp) (by norm_num)
  have hle : List.Pairwise (fun a b : ℚ => a ≤ b) ((0 : ℚ) :: ((dense 0 (n + 1)).flatMap fun n =>
      [(⟨.noteOn, n.start, n.pitch, some n.vel⟩ : SNote), ⟨.noteOff, n.stop, n.pitch, none⟩]).map SNote.time) :=
    List.isChain_iff_pairwise.1 (hc.imp fun _ _ h => h.1)
  have h1 : sortBy Note.start (dense 0 (n + 1)) = dense 0 (n + 1) := by
    apply sortBy_of_sorted
    clear hc hle hx ex adm hn
    generalize 0 = k
    induction n + 1 generalizing k with
    | zero => exact List.Pairwise.nil
    | succ m ih =>
      rw [dense, List.pairwise_cons]
      refine ⟨fun y hy => ?_, ih _⟩
      have := (dense_mem _ _ y hy).2
      push_cast at this
      show (k : ℚ) / 250 ≤ y.start
      linarith
  have h2 : splits (dense 0 (n + 1)) = divide (dense 0 (n + 1)) := by
    unfold splits
    apply sortBy_of_sorted
    unfold divide
    rw [h1]
    rw [List.pairwise_cons, List.pairwise_map] at hle
    exact hle.2
  apply C105_vanishes adm
  rw [h2]
  unfold divide
  rw [h1]
  exact hc.imp fun _ _ h => h.2

/-- Two overlapping notes and a repeated pitch, decoded exactly. -/
example : (decode (encode [⟨40, 60, 0, 1⟩, ⟨45, 64, 1 / 2, 2⟩, ⟨127, 60, 1, 3⟩])).Perm
    [⟨40, 60, 0, 1⟩, ⟨44, 64, 1 / 2, 2⟩, ⟨124, 60, 1, 3⟩] := by
  have := C106_round_trip (notes := [⟨40, 60, 0, 1⟩, ⟨45, 64, 1 / 2, 2⟩, ⟨127, 60, 1, 3⟩])
    (by simp [Note.Admissible]; norm_num)
    (by
      simp only [List.mem_cons, List.not_mem_nil, or_false, forall_eq_or_imp, forall_eq]
      exact ⟨⟨⟨0, by norm_num⟩, ⟨100, by norm_num⟩⟩, ⟨⟨50, by norm_num⟩, ⟨200, by norm_num⟩⟩,
        ⟨100, by norm_num⟩, ⟨300, by norm_num⟩⟩)
    (by simp; norm_num) (by simp) (by simp)
  simpa using this

end Verif.Midi
