import Mathlib.Data.List.Induction
import Mathlib.Tactic.NormNum
import Verif.Midi.SustainLemmas
import Verif.Midi.Props

/-!
# The sustain pedal: properties
-/

namespace Verif.Midi

/-! ### C73: which notes are kept, and how often -/

/-- C73: without a completed use of the pedal there are no notes. -/
theorem C73_no_pedal (notes : List Note) : notePreprocess [] notes = [] ∧
    ∀ ctrls : List Ctrl, (∀ c ∈ ctrls, c.value < 64) → instrumentNotes ctrls notes = [] := by
  have h0 : notePreprocess [] notes = [] := by
    simp [notePreprocess, kept, pedal, sortBy]
  refine ⟨h0, fun ctrls h => ?_⟩
  have : ctrls.foldl ctrlStep ⟨[], none⟩ = ⟨[], none⟩ := by
    induction ctrls with
    | nil => rfl
    | cons c l ih =>
      have hc := h c (by simp)
      have : ctrlStep ⟨[], none⟩ c = ⟨[], none⟩ := by
        unfold ctrlStep
        rw [if_neg (by simp; omega), if_neg (by simp), if_neg (by simp)]
      rw [List.foldl_cons, this]
      exact ih fun x hx => h x (List.mem_cons_of_mem _ hx)
  unfold instrumentNotes controlPreprocess
  rw [this]; exact h0

theorem sweep_mem {s : Sustain} {st : ℕ → ℚ} {i : ℕ} (hs : s.start ≤ s.stop) (l : List ℕ)
    (h : i ∈ (sweep s st l).stream ∨ i ∈ (sweep s st l).managed) : st i ≤ s.stop := by
  rw [sweep_eq s hs] at h
  simp only [List.mem_filter] at h
  have hm := h.elim (·.1) (·.1)
  clear h
  induction l with
  | nil => simp at hm
  | cons a l ih =>
    by_cases ha : st a ≤ s.stop
    · rw [List.takeWhile_cons_of_pos (by simpa using ha), List.mem_cons] at hm
      rcases hm with rfl | hm
      · exact ha
      · exact ih hm
    · rw [List.takeWhile_cons_of_neg (by simpa using ha)] at hm
      cases hm

/-- C73: whatever the order of the notes, a note that starts after the end of every sustain is not kept. -/
theorem C73_dropped {ss : List Sustain} (hs : ∀ s ∈ ss, s.start ≤ s.stop) {notes : List Note} {i : ℕ}
    (h : ∀ s ∈ ss, s.stop < startOf notes i) : i ∉ kept ss notes := by
  suffices ∀ rem (ns : List Note), startOf ns i = startOf notes i →
      i ∉ (pedal ss rem ns).stream ++ (pedal ss rem ns).managed from this _ _ rfl
  induction ss with
  | nil => intro rem ns _ hm; simp [pedal] at hm
  | cons s ss ih =>
    intro rem ns he hm
    have ih' := ih (fun x hx => hs x (List.mem_cons_of_mem _ hx)) fun x hx => h x (List.mem_cons_of_mem _ hx)
    have hsw : ¬ (i ∈ (sweep s (startOf ns) rem).stream ∨ i ∈ (sweep s (startOf ns) rem).managed) := fun hx => by
      have := sweep_mem (hs s (by simp)) rem hx
      rw [he] at this
      exact absurd (h s (by simp)) (not_lt.2 this)
    rw [not_or] at hsw
    unfold pedal at hm
    split at hm
    · have := ih' rem ns he
      simp only [List.mem_append] at hm this
      tauto
    · rename_i rem' _
      have := ih' rem' (transpose s (sweep s (startOf ns) rem).managed ns) (by
        rw [(transpose_same _ _ _).startOf]; exact he)
      simp only [List.mem_append] at hm this
      tauto

/-- The notes are in the order of their starts. -/
def InOrder (notes : List Note) : Prop := notes.Pairwise fun a b => a.start ≤ b.start

theorem startOf_mono {notes : List Note} (h : InOrder notes) {i j : ℕ} (hij : i ≤ j) (hj : j < notes.length) :
    startOf notes i ≤ startOf notes j := by
  unfold startOf
  rw [List.getElem?_eq_getElem hj, List.getElem?_eq_getElem (hij.trans_lt hj)]
  rcases Nat.lt_or_eq_of_le hij with h' | rfl
  · exact List.pairwise_iff_getElem.1 h i j (hij.trans_lt hj) hj h'
  · exact le_rfl

theorem range_sorted {notes : List Note} (h : InOrder notes) :
    (List.range notes.length).Pairwise fun a b => startOf notes a ≤ startOf notes b := by
  refine List.Pairwise.imp_of_mem ?_ (List.pairwise_lt_range (n := notes.length))
  intro a b _ hb hab
  exact startOf_mono h (Nat.le_of_lt hab) (List.mem_range.1 hb)

/-- C73: how often each note is returned.  Never if it starts after the end of all sustains; otherwise, with
`s` the first sustain that does not end before it starts: once if some note starts after `s`, and else once
for `s` and once more for every later sustain. -/
theorem C73_count {ss : List Sustain} (ho : Ordered ss) {notes : List Note} (hn : InOrder notes) {i : ℕ}
    (hi : i < notes.length) :
    ((∀ s ∈ ss, s.stop < startOf notes i) → (kept ss notes).count i = 0) ∧
    ∀ pre s post, ss = pre ++ s :: post → (∀ p ∈ pre, p.stop < startOf notes i) → startOf notes i ≤ s.stop →
      ((∃ j < notes.length, s.stop < startOf notes j) → (kept ss notes).count i = 1) ∧
      ((∀ j < notes.length, startOf notes j ≤ s.stop) → (kept ss notes).count i = 1 + post.length) := by
  have := times_spec ss (List.range notes.length) notes ho List.nodup_range (range_sorted hn) i
    (List.mem_range.2 hi)
  simp only [List.mem_range] at this
  exact this

theorem first_cover (t : ℚ) (ss : List Sustain) : (∀ s ∈ ss, s.stop < t) ∨
    ∃ pre s post, ss = pre ++ s :: post ∧ (∀ p ∈ pre, p.stop < t) ∧ t ≤ s.stop := by
  induction ss with
  | nil => exact Or.inl fun s hs => by cases hs
  | cons s ss ih =>
    by_cases h : t ≤ s.stop
    · exact Or.inr ⟨[], s, ss, rfl, (fun p hp => by cases hp), h⟩
    · rcases ih with ih | ⟨pre, x, post, rfl, h1, h2⟩
      · refine Or.inl fun x hx => ?_
        rcases List.mem_cons.1 hx with rfl | hx
        · exact not_le.1 h
        · exact ih x hx
      · refine Or.inr ⟨s :: pre, x, post, rfl, fun p hp => ?_, h2⟩
        rcases List.mem_cons.1 hp with rfl | hp
        · exact not_le.1 h
        · exact h1 p hp

/-- C73: every note is kept exactly once exactly if the last note starts no later than the last sustain
ends, and after the end of every other sustain. -/
theorem C73_each_once {ss : List Sustain} {s : Sustain} (ho : Ordered (ss ++ [s])) {notes : List Note} {last : Note}
    (hn : InOrder (notes ++ [last])) :
    (∀ i < notes.length + 1, (kept (ss ++ [s]) (notes ++ [last])).count i = 1) ↔
      last.start ≤ s.stop ∧ ∀ x ∈ ss, x.stop < last.start := by
  have hlast : startOf (notes ++ [last]) notes.length = last.start := by simp [startOf]
  have hlen : (notes ++ [last]).length = notes.length + 1 := by simp
  have hmax : ∀ j < (notes ++ [last]).length, startOf (notes ++ [last]) j ≤ last.start := by
    intro j hj
    rw [← hlast]
    exact startOf_mono hn (by omega) (by omega)
  constructor
  · intro h
    have h1 := h notes.length (by omega)
    obtain ⟨c0, c1⟩ := C73_count ho hn (i := notes.length) (by omega)
    rw [hlast] at c0 c1
    rcases first_cover last.start (ss ++ [s]) with hno | ⟨pre, x, post, he, hpre, hx⟩
    · rw [c0 hno] at h1; cases h1
    · have h2 := (c1 pre x post he hpre hx).2 fun j hj => (hmax j hj).trans hx
      rw [h1] at h2
      have hp : post = [] := List.length_eq_zero_iff.1 (by omega)
      subst hp
      obtain ⟨rfl, he2⟩ := List.append_inj' he rfl
      cases he2
      exact ⟨hx, hpre⟩
  · rintro ⟨h1, h2⟩ i hi
    obtain ⟨c0, c1⟩ := C73_count ho hn (i := i) (by omega)
    have hle : startOf (notes ++ [last]) i ≤ s.stop := (hmax i (by omega)).trans h1
    rcases first_cover (startOf (notes ++ [last]) i) (ss ++ [s]) with hno | ⟨pre, x, post, he, hpre, hx⟩
    · exact absurd (hno s (by simp)) (not_lt.2 hle)
    · obtain ⟨d1, d2⟩ := c1 pre x post he hpre hx
      by_cases hp : post = []
      · subst hp
        by_cases hb : ∃ j < (notes ++ [last]).length, x.stop < startOf (notes ++ [last]) j
        · exact d1 hb
        · exact d2 fun j hj => not_lt.1 fun h => hb ⟨j, hj, h⟩
      · refine d1 ⟨notes.length, by omega, ?_⟩
        rw [hlast]
        apply h2
        have : x ∈ (ss ++ [s]).dropLast := by
          rw [he, List.dropLast_append_of_ne_nil (by simp), List.mem_append]
          right
          rw [List.dropLast_cons_of_ne_nil hp]
          simp
        simpa using this

/-- Two notes under one pedal, which is used once more later: both notes are returned twice. -/
example : (kept [⟨0, 2⟩, ⟨5, 6⟩] [⟨64, 60, 1, 2⟩, ⟨64, 62, 1, 3⟩]).count 0 = 2 := by
  have ho : Ordered [(⟨0, 2⟩ : Sustain), ⟨5, 6⟩] :=
    ⟨(by norm_num), (by norm_num)⟩
  have hn : InOrder [(⟨64, 60, 1, 2⟩ : Note), ⟨64, 62, 1, 3⟩] := by simp [InOrder]
  refine (((C73_count ho hn (i := 0) (by decide)).2 [] ⟨0, 2⟩ [⟨5, 6⟩] rfl (fun p hp => by cases hp) ?_).2 ?_)
  · norm_num [startOf]
  · intro j hj
    rcases (by simp at hj; omega : j = 0 ∨ j = 1) with rfl | rfl <;> norm_num [startOf]

/-! ### C107: when the pedal counts as pressed -/

/-- One use of the pedal: first press, further presses, all releases but the last, last release. -/
structure Use where
  press : Ctrl
  presses : List Ctrl
  releases : List Ctrl
  last : Ctrl

/-- The messages of one use. -/
def Use.messages (u : Use) : List Ctrl := u.press :: u.presses ++ u.releases ++ [u.last]

/-- Presses have values of at least 64. -/
def Use.Ok (u : Use) : Prop :=
  64 ≤ u.press.value ∧ (∀ c ∈ u.presses, 64 ≤ c.value) ∧ (∀ c ∈ u.releases, c.value < 64) ∧ u.last.value < 64

theorem fold_down {t : ℚ} {done : List Sustain} {l : List Ctrl} (h : ∀ c ∈ l, 64 ≤ c.value) :
    l.foldl ctrlStep ⟨done, some t⟩ = ⟨done, some t⟩ := by
  induction l with
  | nil => rfl
  | cons c l ih =>
    have hc := h c (by simp)
    have : ctrlStep ⟨done, some t⟩ c = ⟨done, some t⟩ := by
      unfold ctrlStep
      rw [if_neg (by simp), if_neg (by simp; omega), if_neg (by simp; intro; omega)]
    rw [List.foldl_cons, this]
    exact ih fun x hx => h x (List.mem_cons_of_mem _ hx)

theorem fold_up {done : List Sustain} (l : List Ctrl) (h : ∀ c ∈ l, c.value < 64) : ∀ (s : Sustain),
    ∃ e, l.foldl ctrlStep ⟨done ++ [s], none⟩ = ⟨done ++ [⟨s.start, e⟩], none⟩ := by
  induction l with
  | nil => intro s; exact ⟨s.stop, rfl⟩
  | cons c l ih =>
    intro s
    have hc := h c (by simp)
    have : ctrlStep ⟨done ++ [s], none⟩ c = ⟨done ++ [⟨s.start, c.time⟩], none⟩ := by
      unfold ctrlStep
      rw [if_neg (by simp; omega), if_neg (by simp), if_pos (by simp [hc])]
      simp
    rw [List.foldl_cons, this]
    exact ih (fun x hx => h x (List.mem_cons_of_mem _ hx)) _

theorem fold_use {done : List Sustain} {u : Use} (h : u.Ok) :
    u.messages.foldl ctrlStep ⟨done, none⟩ = ⟨done ++ [⟨u.press.time, u.last.time⟩], none⟩ := by
  obtain ⟨h1, h2, h3, h4⟩ := h
  have p : ctrlStep ⟨done, none⟩ u.press = ⟨done, some u.press.time⟩ := by
    unfold ctrlStep; rw [if_pos ⟨h1, rfl⟩]
  have close : ∀ c : Ctrl, c.value < 64 →
      ctrlStep ⟨done, some u.press.time⟩ c = ⟨done ++ [⟨u.press.time, c.time⟩], none⟩ := by
    intro c hc
    unfold ctrlStep
    rw [if_neg (by simp), if_pos (by simp [hc])]
    rfl
  have extend : ∀ (s : Sustain) (c : Ctrl), c.value < 64 →
      ctrlStep ⟨done ++ [s], none⟩ c = ⟨done ++ [⟨s.start, c.time⟩], none⟩ := by
    intro s c hc
    unfold ctrlStep
    rw [if_neg (by simp; omega), if_neg (by simp), if_pos (by simp [hc])]
    simp
  unfold Use.messages
  rw [List.foldl_append, List.foldl_append, show (u.press :: u.presses).foldl ctrlStep ⟨done, none⟩ = ⟨done, some u.press.time⟩ by
    rw [List.foldl_cons, p, fold_down h2]]
  cases hr : u.releases with
  | nil =>
    rw [List.foldl_nil, List.foldl_cons, close _ h4]
    rfl
  | cons c l =>
    rw [hr] at h3
    have hcl : (c :: l).foldl ctrlStep ⟨done, some u.press.time⟩ =
        l.foldl ctrlStep ⟨done ++ [⟨u.press.time, c.time⟩], none⟩ := by
      rw [List.foldl_cons, close _ (h3 c (by simp))]
    rw [hcl]
    obtain ⟨e, he⟩ := fold_up (done := done) l (fun x hx => h3 x (List.mem_cons_of_mem _ hx))
      ⟨u.press.time, c.time⟩
    rw [he, List.foldl_cons, extend _ _ h4]
    rfl

/-- C107: the sustains are one per use of the pedal, from the first press of the use to its *last* release
message before the next press; releases before the first press and a use that is never released count for
nothing. -/
theorem C107_uses {before after : List Ctrl} {us : List Use} (hb : ∀ c ∈ before, c.value < 64)
    (hu : ∀ u ∈ us, u.Ok) (ha : ∀ c ∈ after, 64 ≤ c.value) :
    controlPreprocess (before ++ us.flatMap Use.messages ++ after) =
      us.map fun u => ⟨u.press.time, u.last.time⟩ := by
  have h1 : before.foldl ctrlStep ⟨[], none⟩ = ⟨[], none⟩ := by
    clear hu ha
    induction before with
    | nil => rfl
    | cons c l ih =>
      have hc := hb c (by simp)
      have : ctrlStep ⟨[], none⟩ c = ⟨[], none⟩ := by
        unfold ctrlStep
        rw [if_neg (by simp; omega), if_neg (by simp), if_neg (by simp)]
      rw [List.foldl_cons, this]
      exact ih fun x hx => hb x (List.mem_cons_of_mem _ hx)
  have h2 : ∀ done : List Sustain, (us.flatMap Use.messages).foldl ctrlStep ⟨done, none⟩ =
      ⟨done ++ us.map fun u => ⟨u.press.time, u.last.time⟩, none⟩ := by
    clear ha hb h1
    induction us with
    | nil => intro done; simp
    | cons u us ih =>
      intro done
      rw [List.flatMap_cons, List.foldl_append, fold_use (hu u (by simp)),
        ih fun x hx => hu x (List.mem_cons_of_mem _ hx)]
      simp
  unfold controlPreprocess
  rw [List.foldl_append, List.foldl_append, h1, h2]
  cases after with
  | nil => simp
  | cons c l =>
    have p : ∀ done : List Sustain, ctrlStep ⟨done, none⟩ c = ⟨done, some c.time⟩ := by
      intro done
      unfold ctrlStep; rw [if_pos ⟨ha c (by simp), rfl⟩]
    rw [List.foldl_cons, p, fold_down fun x hx => ha x (List.mem_cons_of_mem _ hx)]
    simp

/-- C107: every list of messages is of this form. -/
theorem C107_every_list (l : List Ctrl) : ∃ (before : List Ctrl) (us : List Use) (after : List Ctrl), (∀ c ∈ before, c.value < 64) ∧
    (∀ u ∈ us, Use.Ok u) ∧ (∀ c ∈ after, 64 ≤ c.value) ∧ l =
      before ++ us.flatMap Use.messages ++ after := by
  induction l using List.reverseRecOn with
  | nil => exact ⟨[], [], [], by simp⟩
  | append_singleton l c ih =>
    obtain ⟨before, us, after, hb, hu, ha, rfl⟩ := ih
    by_cases hc : 64 ≤ c.value
    · refine ⟨before, us, after ++ [c], hb, hu, ?_, by simp⟩
      intro x hx
      rcases List.mem_append.1 hx with hx | hx
      · exact ha x hx
      · rw [List.mem_singleton] at hx; subst hx; exact hc
    · have hc' : c.value < 64 := by omega
      cases after with
      | cons p ps =>
        refine ⟨before, us ++ [⟨p, ps, [], c⟩], [], hb, ?_, by simp, ?_⟩
        · intro u hx
          rcases List.mem_append.1 hx with hx | hx
          · exact hu u hx
          · rw [List.mem_singleton] at hx; subst hx
            exact ⟨ha p (by simp), fun x hx => ha x (List.mem_cons_of_mem _ hx), by simp, hc'⟩
        · simp [Use.messages]
      | nil =>
        induction us using List.reverseRecOn with
        | nil =>
          refine ⟨before ++ [c], [], [], ?_, by simp, by simp, by simp⟩
          intro x hx
          rcases List.mem_append.1 hx with hx | hx
          · exact hb x hx
          · rw [List.mem_singleton] at hx; subst hx; exact hc'
        | append_singleton us u _ =>
          refine ⟨before, us ++ [⟨u.press, u.presses, u.releases ++ [u.last], c⟩], [], hb, ?_, by simp, ?_⟩
          · intro x hx
            rcases List.mem_append.1 hx with hx | hx
            · exact hu x (List.mem_append_left _ hx)
            · rw [List.mem_singleton] at hx; subst hx
              obtain ⟨a, b, d, e⟩ := hu u (by simp)
              refine ⟨a, b, fun y hy => ?_, hc'⟩
              rcases List.mem_append.1 hy with hy | hy
              · exact d y hy
              · rw [List.mem_singleton] at hy; subst hy; exact e
          · simp [Use.messages]

/-- C107: for messages in the order of time the sustains are in order and do not overlap. -/
theorem C107_ordered {l : List Ctrl} (h : l.Pairwise fun a b => a.time ≤ b.time) : Ordered (controlPreprocess l) := by
  obtain ⟨before, us, after, hb, hu, ha, rfl⟩ := C107_every_list l
  rw [C107_uses hb hu ha]
  have h2 : (us.flatMap Use.messages).Pairwise fun a b => a.time ≤ b.time :=
    (List.pairwise_append.1 (List.pairwise_append.1 h).1).2.1
  clear h hb hu ha
  constructor
  · intro s hs
    obtain ⟨u, hu, rfl⟩ := List.mem_map.1 hs
    have : (Use.messages u).Pairwise fun a b => a.time ≤ b.time := by
      obtain ⟨p, q, rfl⟩ := List.append_of_mem hu
      rw [List.flatMap_append, List.flatMap_cons, List.pairwise_append, List.pairwise_append] at h2
      exact h2.2.1.1
    unfold Use.messages at this
    rw [List.pairwise_append] at this
    exact this.2.2 _ (by simp) _ (by simp)
  · rw [List.pairwise_map]
    induction us with
    | nil => exact List.Pairwise.nil
    | cons u us ih =>
      rw [List.flatMap_cons, List.pairwise_append] at h2
      refine List.pairwise_cons.2 ⟨fun v hv => ?_, ih h2.2.1⟩
      exact h2.2.2 _ (by simp [Use.messages]) _
        (List.mem_flatMap.2 ⟨v, hv, by simp [Use.messages]⟩)

/-- A pedal that is released in two messages. -/
example : controlPreprocess [⟨0, 0⟩, ⟨1, 127⟩, ⟨2, 64⟩, ⟨3, 30⟩, ⟨9, 0⟩, ⟨10, 80⟩] = [⟨1, 9⟩] := by
  exact C107_uses (before := [⟨0, 0⟩]) (us := [⟨⟨1, 127⟩, [⟨2, 64⟩], [⟨3, 30⟩], ⟨9, 0⟩⟩]) (after := [⟨10, 80⟩])
    (by simp) (by simp [Use.Ok]) (by simp)

/-! ### C108: how long notes sound -/

/-- C108: the end of a note after the preprocessing.  It changes only if the note starts during a sustain
(the first that does not end before the note starts) after which another note starts.  Then the note ends
at the start of the next note of its pitch that starts before the sustain ends, even if that is earlier
than it was; if there is none it ends no earlier than the sustain.  Nothing but ends changes. -/
theorem C108_ends {ss : List Sustain} (ho : Ordered ss) {notes : List Note} (hn : InOrder notes) {i : ℕ} {n : Note}
    (hi : notes[i]? = some n) :
    ((∀ s ∈ ss, s.stop < n.start) → (pedal ss (List.range notes.length) notes).notes[i]? = some n) ∧
    ∀ pre s post, ss = pre ++ s :: post → (∀ p ∈ pre, p.stop < n.start) → n.start ≤ s.stop →
      ((∃ m ∈ notes, s.stop < m.start) → s.start ≤ n.start →
        (pedal ss (List.range notes.length) notes).notes[i]? = some ⟨n.vel, n.pitch, n.start,
          (((notes.drop (i + 1)).find? fun m => m.start ≤ s.stop ∧ m.pitch = n.pitch).map Note.start).getD
            (max s.stop n.stop)⟩) ∧
      (n.start < s.start ∨ (∀ m ∈ notes, m.start ≤ s.stop) →
        (pedal ss (List.range notes.length) notes).notes[i]? = some n) := by
  have hlt : i < notes.length := (List.getElem?_eq_some_iff.1 hi).1
  have hst : startOf notes i = n.start := by unfold startOf; rw [hi]; rfl
  have hsplit : List.range notes.length = List.range i ++ i :: (List.range notes.length).drop (i + 1) := by
    have h1 := (List.take_append_drop i (List.range notes.length)).symm
    rw [List.drop_eq_getElem_cons (by simpa using hlt)] at h1
    simpa [List.take_range, Nat.min_eq_left hlt.le] using h1
  obtain ⟨h1, h2⟩ := stop_spec ss (List.range notes.length) notes ho List.nodup_range
    (fun j hj => List.mem_range.1 hj) (range_sorted hn) _ i _ n hsplit hi
  rw [hst] at h1 h2
  refine ⟨h1, fun pre s post he hpre hs => ?_⟩
  obtain ⟨q1, q2⟩ := h2 pre s post he hpre hs
  have conv : ∀ P : ℚ → Prop, (∃ j ∈ List.range notes.length, P (startOf notes j)) ↔ ∃ m ∈ notes, P m.start := by
    intro P
    constructor
    · rintro ⟨j, hj, hp⟩
      have hj' := List.mem_range.1 hj
      refine ⟨notes[j], List.getElem_mem hj', ?_⟩
      unfold startOf at hp
      rw [List.getElem?_eq_getElem hj'] at hp
      exact hp
    · rintro ⟨m, hm, hp⟩
      obtain ⟨j, hj, rfl⟩ := List.getElem_of_mem hm
      refine ⟨j, List.mem_range.2 hj, ?_⟩
      unfold startOf
      rw [List.getElem?_eq_getElem hj]
      exact hp
  have hfind : ((((List.range notes.length).drop (i + 1)).filter fun j => startOf notes j ≤ s.stop).find?
      (fun j => pitchOf notes j = n.pitch)).map (startOf notes) =
      ((notes.drop (i + 1)).find? fun m => m.start ≤ s.stop ∧ m.pitch = n.pitch).map Note.start := by
    rw [List.find?_filter]
    generalize i + 1 = k
    by_cases hk : notes.length ≤ k
    · rw [List.drop_eq_nil_of_le (by simpa using hk), List.drop_eq_nil_of_le hk]; rfl
    · have : ∀ (m k : ℕ), k + m = notes.length →
          (((List.range notes.length).drop k).find? fun a =>
            decide (startOf notes a ≤ s.stop) && decide (pitchOf notes a = n.pitch)).map (startOf notes) =
          ((notes.drop k).find? fun m => m.start ≤ s.stop ∧ m.pitch = n.pitch).map Note.start := by
        intro m
        induction m with
        | zero =>
          intro k e
          rw [List.drop_eq_nil_of_le (by simp; omega), List.drop_eq_nil_of_le (by omega)]; rfl
        | succ m ih =>
          intro k e
          have hk : k < notes.length := by omega
          rw [List.drop_eq_getElem_cons (by simpa using hk), List.drop_eq_getElem_cons hk, List.find?_cons,
            List.find?_cons, List.getElem_range]
          have e1 : startOf notes k = notes[k].start := by
            unfold startOf; rw [List.getElem?_eq_getElem hk]; rfl
          have e2 : pitchOf notes k = notes[k].pitch := by
            unfold pitchOf; rw [List.getElem?_eq_getElem hk]; rfl
          rw [e1, e2, ← Bool.decide_and]
          split
          · simp [e1]
          · exact ih (k + 1) (by omega)
      have h := this (notes.length - k) k (by omega)
      simpa using h
  constructor
  · intro hb hs'
    rw [q1 ((conv fun x => s.stop < x).2 hb) hs', hfind]
  · intro hor
    refine q2 (hor.imp_right fun hall j hj => ?_)
    by_contra hx
    obtain ⟨m, hm, hm'⟩ := (conv fun x => ¬ x ≤ s.stop).1 ⟨j, hj, hx⟩
    exact hm' (hall m hm)

/-- A held note is cut at the next note of its pitch although it was played for longer. -/
example : ∃ ns, (pedal [⟨0, 4⟩] (List.range 3) [⟨64, 60, 1, 3⟩, ⟨64, 60, 2, 4⟩, ⟨64, 72, 5, 6⟩]).notes = ns ∧
    ns[0]? = some ⟨64, 60, 1, 2⟩ := by
  refine ⟨_, rfl, ?_⟩
  have ho : Ordered [(⟨0, 4⟩ : Sustain)] := ⟨by simp, by simp⟩
  have hn : InOrder [(⟨64, 60, 1, 3⟩ : Note), ⟨64, 60, 2, 4⟩, ⟨64, 72, 5, 6⟩] := by simp [InOrder]; norm_num
  have := ((C108_ends ho hn (i := 0) rfl).2 [] ⟨0, 4⟩ [] rfl (fun p hp => by cases hp) (by norm_num)).1
    ⟨⟨64, 72, 5, 6⟩, by simp, by norm_num⟩ (by norm_num)
  simpa [List.find?_cons, show (2 : ℚ) ≤ 4 by norm_num] using this

end Verif.Midi
