import Mathlib.Tactic.Linarith
import Mathlib.Tactic.Ring
import Mathlib.Tactic.Positivity
import Verif.Midi.Model

/-!
# The MIDI event code: lemmas
-/

namespace Verif.Midi

/-! ### Rounding -/

theorem pyRound_near (x : ℚ) : |(pyRound x : ℚ) - x| ≤ 1 / 2 := by
  have h0 := Int.floor_add_fract x
  have h1 := Int.fract_nonneg x
  have h2 := Int.fract_lt_one x
  unfold pyRound
  rw [abs_le]
  split
  · constructor <;> linarith
  · split
    · push_cast; constructor <;> linarith
    · split
      · constructor <;> linarith
      · push_cast; constructor <;> linarith

theorem pyRound_intCast (n : ℤ) : pyRound n = n := by
  unfold pyRound
  rw [Int.fract_intCast, if_pos (by norm_num), Int.floor_intCast]

theorem pyRound_nonneg {x : ℚ} (h : 0 ≤ x) : 0 ≤ pyRound x := by
  have := Int.floor_nonneg.2 h
  unfold pyRound
  split
  · exact this
  · split
    · omega
    · split <;> omega

/-! ### Time shifts -/

theorem shifts_spec (t : ℤ) (h : 0 ≤ t) :
    (∀ e ∈ shifts t, e.type = .timeShift ∧ 0 ≤ e.value ∧ e.value < 100) ∧
      ((shifts t).map fun e => e.value + 1).sum = t ∧ (shifts t).length * 100 < t + 100 := by
  induction t using shifts.induct with
  | case1 t h1 ih =>
    obtain ⟨a, b, c⟩ := ih (by omega)
    rw [shifts, if_pos h1]
    refine ⟨?_, ?_, ?_⟩
    · intro e he
      rcases List.mem_cons.1 he with rfl | he
      · exact ⟨rfl, by decide, by decide⟩
      · exact a e he
    · simp [b]
    · rw [List.length_cons]; push_cast; omega
  | case2 h1 => rw [shifts]; simp
  | case3 t h1 h2 =>
    rw [shifts, if_neg h1, if_neg h2]
    refine ⟨?_, by simp, by simp; omega⟩
    intro e he
    rw [List.mem_singleton] at he
    subst he
    exact ⟨rfl, by show (0 : ℤ) ≤ t - 1; omega, by show t - 1 < 100; omega⟩

theorem shifts_neg {t : ℤ} (h : t < 0) : shifts t = [⟨.timeShift, t - 1⟩] := by
  rw [shifts, if_neg (by omega), if_neg (by omega)]

/-- Decoding a run of time shifts advances the timeline by their sum. -/
theorem toSNotes_shifts (l : List Event) : ∀ (_ : ∀ e ∈ l, e.type = .timeShift) (T : ℚ) (V : ℤ) (rest : List Event),
    (toSNotes T V (l ++ rest)).filter (fun s => s.type ≠ .timeShift) =
      (toSNotes (T + ((l.map fun e => e.value + 1).sum : ℤ) / 100) V rest).filter
        (fun s => s.type ≠ .timeShift) := by
  induction l with
  | nil => intro _ T V rest; simp
  | cons e l ih =>
    intro h T V rest
    have he := h e (by simp)
    have hl := fun x hx => h x (List.mem_cons_of_mem _ hx)
    rw [List.cons_append, toSNotes, if_neg (by rw [he]; decide), if_pos he,
      List.filter_cons_of_neg (by simp [he]), ih hl]
    congr 2
    simp only [List.map_cons, List.sum_cons]
    push_cast
    ring

/-- What is decoded from the encoding of a sequence of split notes, with `T`, `V` the timeline and velocity
of the decoder and `t`, `v` the current time and velocity of the encoder. -/
def trace (T : ℚ) (V : ℤ) (t : ℚ) (v : Option ℤ) : List SNote → List SNote
  | [] => []
  | s :: rest =>
    let T' := T + pyRound ((s.time - t) * 100) / 100
    let V' := match s.vel with
      | none => V
      | some w => if v = some (w / 4) then V else 4 * (w / 4)
    ⟨s.type, T', s.value, some V'⟩ :: trace T' V' s.time s.vel rest

/-- The split notes the encoder works on: starts carry a velocity and ends do not. -/
def Proper (s : SNote) : Prop := s.type = .noteOn ∧ s.vel.isSome ∨ s.type = .noteOff ∧ s.vel = none

theorem toSNotes_toEvents (l : List SNote) : ∀ (T : ℚ) (V : ℤ) (t : ℚ) (v : Option ℤ),
    (∀ s ∈ l, Proper s) → List.Pairwise (fun a b => a ≤ b) (t :: l.map SNote.time) →
    (toSNotes T V (toEvents t v l)).filter (fun s => s.type ≠ .timeShift) = trace T V t v l := by
  induction l with
  | nil => intros; rfl
  | cons s l ih =>
    intro T V t v hp ht
    rw [List.map_cons, List.pairwise_cons] at ht
    obtain ⟨h1, h2⟩ := ht
    have h0 : t ≤ s.time := h1 _ (by simp)
    obtain ⟨a, b, _⟩ := shifts_spec (pyRound ((s.time - t) * 100)) (pyRound_nonneg (by linarith))
    have hs := hp s (by simp)
    rw [toEvents, List.append_assoc, timeShifts, toSNotes_shifts _ (fun e he => (a e he).1), b, trace]
    have tail := ih (T + (pyRound ((s.time - t) * 100) : ℚ) / 100)
    unfold snoteEvents
    rcases hs with ⟨e1, e2⟩ | ⟨e1, e2⟩
    · obtain ⟨w, hw⟩ := Option.isSome_iff_exists.1 e2
      rw [hw]
      by_cases hv : v = some (w / 4)
      · simp only [hv, ne_eq, not_true_eq_false, if_false, List.nil_append, List.singleton_append, if_true]
        rw [toSNotes, if_neg (by simp [e1]), if_neg (by simp [e1]),
          List.filter_cons_of_pos (by simp [e1])]
        rw [← hw, tail V s.time s.vel (fun x hx => hp x (List.mem_cons_of_mem _ hx)) h2]
      · simp only [hv, ne_eq, not_false_eq_true, if_true, if_false, List.cons_append, List.nil_append]
        rw [toSNotes, if_pos rfl, toSNotes, if_neg (by simp [e1]), if_neg (by simp [e1]),
          List.filter_cons_of_pos (by simp [e1]), mul_comm (w / 4) 4]
        rw [← hw, tail _ s.time s.vel (fun x hx => hp x (List.mem_cons_of_mem _ hx)) h2]
    · rw [e2]
      simp only [List.nil_append, List.singleton_append]
      rw [toSNotes, if_neg (by simp [e1]), if_neg (by simp [e1]),
          List.filter_cons_of_pos (by simp [e1])]
      rw [← e2, tail V s.time s.vel (fun x hx => hp x (List.mem_cons_of_mem _ hx)) h2]

/-! ### Sorting and splitting -/

theorem sortBy_perm {α : Type} (key : α → ℚ) (l : List α) : (sortBy key l).Perm l := List.mergeSort_perm _ _

theorem sortBy_sorted {α : Type} (key : α → ℚ) (l : List α) :
    (sortBy key l).Pairwise fun a b => key a ≤ key b := by
  have := List.pairwise_mergeSort (le := fun a b : α => decide (key a ≤ key b))
    (fun a b c h1 h2 => by simp only [decide_eq_true_eq] at *; exact h1.trans h2)
    (fun a b => by simp only [Bool.or_eq_true, decide_eq_true_eq]; exact le_total _ _) l
  simpa [sortBy] using this

/-- The stable sort keeps the order of any part of the list that is in order. -/
theorem sortBy_filter {α : Type} (key : α → ℚ) (l : List α) (p : α → Bool)
    (h : (l.filter p).Pairwise fun a b => key a ≤ key b) : (sortBy key l).filter p = l.filter p := by
  have sub : (l.filter p).Sublist (sortBy key l) :=
    List.sublist_mergeSort (le := fun a b : α => decide (key a ≤ key b))
      (fun a b c h1 h2 => by simp only [decide_eq_true_eq] at *; exact h1.trans h2)
      (fun a b => by simp only [Bool.or_eq_true, decide_eq_true_eq]; exact le_total _ _)
      (by simpa using h) List.filter_sublist
  have s2 := sub.filter p
  rw [List.filter_filter] at s2
  simp only [Bool.and_self] at s2
  exact (s2.eq_of_length ((sortBy_perm key l).filter p).length_eq.symm).symm

theorem divide_proper (notes : List Note) : ∀ s ∈ divide notes, Proper s := by
  intro s hs
  unfold divide at hs
  rw [List.mem_flatMap] at hs
  obtain ⟨n, _, hn⟩ := hs
  rcases List.mem_cons.1 hn with rfl | hn
  · exact Or.inl ⟨rfl, rfl⟩
  · rw [List.mem_singleton] at hn; subst hn; exact Or.inr ⟨rfl, rfl⟩

/-! ### Velocities -/

/-- The velocity before position `k`. -/
def prevVel (v : Option ℤ) (l : List SNote) : ℕ → Option ℤ
  | 0 => v
  | k + 1 => l[k]?.bind SNote.vel

theorem trace_length (l : List SNote) : ∀ T V t v, (trace T V t v l).length = l.length := by
  induction l with
  | nil => intros; rfl
  | cons s l ih => intros; simp [trace, ih]

theorem trace_same (l : List SNote) : ∀ T V t v (k : ℕ) (s : SNote), l[k]? = some s →
    ∃ d, (trace T V t v l)[k]? = some d ∧ d.type = s.type ∧ d.value = s.value := by
  induction l with
  | nil => intro _ _ _ _ k s h; simp at h
  | cons u l ih =>
    intro T V t v k s h
    cases k with
    | zero => cases h; exact ⟨_, rfl, rfl, rfl⟩
    | succ k => exact ih _ _ _ _ k s h

theorem trace_vel (l : List SNote) : ∀ (T : ℚ) (V : ℤ) (t : ℚ) (v : Option ℤ), 0 ≤ V → (∀ w, v = some w → V ≤ w) →
    (∀ s ∈ l, ∀ w, s.vel = some w → 0 ≤ w) →
    ∀ (k : ℕ) (b : SNote) (w : ℤ), l[k]? = some b → b.vel = some w →
      ∃ d x, (trace T V t v l)[k]? = some d ∧ d.vel = some x ∧ 0 ≤ x ∧ x ≤ w ∧
        (prevVel v l k = some (w / 4) ∧ 4 ≤ w → x ≤ w / 4) ∧
        (¬ (prevVel v l k = some (w / 4) ∧ 4 ≤ w) → x = 4 * (w / 4)) := by
  induction l with
  | nil => intro _ _ _ _ _ _ _ k b w h; simp at h
  | cons s l ih =>
    intro T V t v h0 hv hn k b w hk hb
    have hn' := fun x hx => hn x (List.mem_cons_of_mem _ hx)
    cases k with
    | zero =>
      cases hk
      have hw := hn s (by simp) w hb
      refine ⟨_, _, rfl, rfl, ?_⟩
      rw [hb]
      simp only [prevVel]
      by_cases e : v = some (w / 4)
      · have := hv _ e
        simp only [e, true_and, if_true]
        omega
      · simp only [e, false_and, if_false]
        exact ⟨by omega, by omega, fun h => h.elim, fun _ => trivial⟩
    | succ k =>
      have hpv : prevVel v (s :: l) (k + 1) = prevVel s.vel l k := by
        cases k <;> rfl
      rw [hpv]
      have V0 : 0 ≤ (match s.vel with
          | none => V
          | some w => if v = some (w / 4) then V else 4 * (w / 4)) := by
        cases hs : s.vel with
        | none => exact h0
        | some u =>
          have := hn s (by simp) u hs
          simp only
          split <;> omega
      have V1 : ∀ u, s.vel = some u → (match s.vel with
          | none => V
          | some w => if v = some (w / 4) then V else 4 * (w / 4)) ≤ u := by
        intro u hs
        have := hn s (by simp) u hs
        rw [hs]
        simp only
        split
        · rename_i e
          have := hv _ e
          omega
        · omega
      exact ih _ _ s.time s.vel V0 V1 hn' k b w hk hb

/-! ### Times -/

theorem trace_time (l : List SNote) : ∀ (T : ℚ) (V : ℤ) (t : ℚ) (v : Option ℤ) (ε : ℚ), |T - t| ≤ ε →
    ∀ (k : ℕ) (s : SNote), l[k]? = some s →
      ∃ d, (trace T V t v l)[k]? = some d ∧ |d.time - s.time| ≤ ε + (k + 1) / 200 := by
  induction l with
  | nil => intro _ _ _ _ _ _ k s h; simp at h
  | cons u l ih =>
    intro T V t v ε hε k s hk
    have near := pyRound_near ((u.time - t) * 100)
    have step : |(T + (pyRound ((u.time - t) * 100) : ℚ) / 100) - u.time| ≤ ε + 1 / 200 := by
      rw [abs_le] at *
      constructor <;> linarith [near.1, near.2, hε.1, hε.2]
    cases k with
    | zero =>
      cases hk
      exact ⟨_, rfl, by simpa using step⟩
    | succ k =>
      obtain ⟨d, h1, h2⟩ := ih _ _ u.time u.vel _ step k s hk
      refine ⟨d, h1, h2.trans (le_of_eq ?_)⟩
      push_cast; ring

theorem trace_time_exact (l : List SNote) : ∀ (V : ℤ) (t : ℚ) (v : Option ℤ), (∃ n : ℤ, t = n / 100) →
    (∀ s ∈ l, ∃ n : ℤ, s.time = n / 100) → ∀ (k : ℕ) (s : SNote), l[k]? = some s →
      ∃ d, (trace t V t v l)[k]? = some d ∧ d.time = s.time := by
  induction l with
  | nil => intro _ _ _ _ _ k s h; simp at h
  | cons u l ih =>
    rintro V t v ⟨n, hn⟩ hl k s hk
    obtain ⟨m, hm⟩ := hl u (by simp)
    have e : t + (pyRound ((u.time - t) * 100) : ℚ) / 100 = u.time := by
      have : (u.time - t) * 100 = ((m - n : ℤ) : ℚ) := by rw [hm, hn]; push_cast; ring
      rw [this, pyRound_intCast, hm, hn]; push_cast; ring
    cases k with
    | zero => cases hk; exact ⟨_, rfl, e⟩
    | succ k =>
      have := ih (match u.vel with
          | none => V
          | some w => if v = some (w / 4) then V else 4 * (w / 4)) u.time u.vel ⟨m, hm⟩
        (fun x hx => hl x (List.mem_cons_of_mem _ hx)) k s hk
      unfold trace
      simp only [e]
      exact this

theorem trace_collapse (l : List SNote) : ∀ (T : ℚ) (V : ℤ) (t : ℚ) (v : Option ℤ),
    List.IsChain (fun a b => a ≤ b ∧ b - a < 1 / 200) (t :: l.map SNote.time) →
    ∀ d ∈ trace T V t v l, d.time = T := by
  induction l with
  | nil => intro _ _ _ _ _ d h; cases h
  | cons u l ih =>
    intro T V t v hc d hd
    rw [List.map_cons, List.isChain_cons_cons] at hc
    obtain ⟨⟨h1, h2⟩, h3⟩ := hc
    have z : pyRound ((u.time - t) * 100) = 0 := by
      unfold pyRound
      have f : ⌊(u.time - t) * 100⌋ = 0 := by
        rw [Int.floor_eq_iff]; constructor
        · push_cast; linarith
        · push_cast; linarith
      have fr : Int.fract ((u.time - t) * 100) = (u.time - t) * 100 := by
        rw [Int.fract, f]; simp
      rw [fr, if_pos (by linarith), f]
    unfold trace at hd
    simp only [z, Int.cast_zero, zero_div, add_zero] at hd
    rcases List.mem_cons.1 hd with rfl | hd
    · rfl
    · exact ih _ _ _ _ h3 d hd

/-! ### Merging -/

/-- Equal for the purpose of merging. -/
def Sim (a b : SNote) : Prop :=
  a.type = b.type ∧ a.time = b.time ∧ a.value = b.value ∧ (a.type = .noteOn → a.vel = b.vel)

theorem merge_sim {l m : List SNote} (h : List.Forall₂ Sim l m) : ∀ f, merge f l = merge f m := by
  induction h with
  | nil => intro f; rfl
  | @cons a b l m hab _ ih =>
    intro f
    obtain ⟨h1, h2, h3, h4⟩ := hab
    unfold merge
    by_cases e : a.type = .noteOn
    · have : a = b := by
        cases a; cases b; simp only at *; simp [h1, h2, h3, h4 e]
      subst this
      rw [if_pos e, if_pos e, ih]
    · have e' : ¬ b.type = .noteOn := h1 ▸ e
      rw [if_neg e, if_neg e', h1, h2, h3, ih]

theorem merge_filter (p : ℤ) (l : List SNote) : ∀ f g : ℤ → Option SNote, f p = g p →
    (merge f l).filter (fun n => n.pitch = p) = merge g (l.filter fun s => s.value = p) := by
  induction l with
  | nil => intros; rfl
  | cons s l ih =>
    intro f g hfg
    by_cases hp : s.value = p
    · rw [List.filter_cons_of_pos (by simpa using hp)]
      unfold merge
      by_cases e : s.type = .noteOn
      · rw [if_pos e, if_pos e]
        apply ih
        rw [hp, Function.update_self, Function.update_self]
      · rw [if_neg e, if_neg e]
        by_cases e2 : s.type = .noteOff
        · rw [if_pos e2, if_pos e2, hp, ← hfg]
          cases f p with
          | none => exact ih _ _ hfg
          | some o =>
            simp only
            split
            · exact ih _ _ hfg
            · split
              · exact ih _ _ hfg
              · rw [List.filter_cons_of_pos (by simp), ih _ _ hfg]
        · rw [if_neg e2, if_neg e2]; exact ih _ _ hfg
    · rw [List.filter_cons_of_neg (by simpa using hp)]
      rw [merge]
      by_cases e : s.type = .noteOn
      · rw [if_pos e]
        apply ih
        rw [Function.update_of_ne (Ne.symm hp)]; exact hfg
      · rw [if_neg e]
        by_cases e2 : s.type = .noteOff
        · rw [if_pos e2]
          cases f s.value with
          | none => exact ih _ _ hfg
          | some o =>
            simp only
            split
            · exact ih _ _ hfg
            · split
              · exact ih _ _ hfg
              · rw [List.filter_cons_of_neg (by simpa using hp), ih _ _ hfg]
        · rw [if_neg e2]; exact ih _ _ hfg

theorem merge_zero (l : List SNote) (T : ℚ) : ∀ f : ℤ → Option SNote, (∀ p o, f p = some o → o.time = T) →
    (∀ s ∈ l, s.time = T) → merge f l = [] := by
  induction l with
  | nil => intros; rfl
  | cons s l ih =>
    intro f hf hl
    have hl' := fun x hx => hl x (List.mem_cons_of_mem _ hx)
    unfold merge
    split
    · apply ih _ _ hl'
      intro p o ho
      by_cases e : p = s.value
      · subst e; rw [Function.update_self] at ho; cases ho; exact hl s (by simp)
      · rw [Function.update_of_ne e] at ho; exact hf p o ho
    · split
      · cases h : f s.value with
        | none => exact ih _ hf hl'
        | some o =>
          simp only
          rw [if_pos (by rw [hl s (by simp), hf _ _ h, sub_self])]
          exact ih _ hf hl'
      · exact ih _ hf hl'

/-- The velocity that survives the encoding. -/
def quant (s : SNote) : SNote := { s with vel := s.vel.map fun v => 4 * (v / 4) }

theorem merge_pairs (notes : List Note) : ∀ f, (∀ n ∈ notes, n.start < n.stop) →
    merge f ((notes.flatMap fun n => [⟨.noteOn, n.start, n.pitch, some n.vel⟩,
      ⟨.noteOff, n.stop, n.pitch, none⟩]).map quant) =
      notes.map fun n => { n with vel := 4 * (n.vel / 4) } := by
  induction notes with
  | nil => intros; rfl
  | cons n notes ih =>
    intro f h
    have hn := h n (by simp)
    have := ih (Function.update f n.pitch (some ⟨.noteOn, n.start, n.pitch, some (4 * (n.vel / 4))⟩))
      fun x hx => h x (List.mem_cons_of_mem _ hx)
    rw [List.flatMap_cons, List.map_append, List.map_cons, List.map_cons, List.map_nil, List.cons_append,
      List.cons_append, List.nil_append, List.map_cons, ← this]
    simp only [quant, Option.map_some, Option.map_none]
    rw [merge, if_pos rfl, merge, if_neg (by simp), if_pos rfl]
    simp only [Function.update_self]
    rw [if_neg (by linarith), if_neg (by linarith)]
    rfl

end Verif.Midi
