import Mathlib.Tactic.Linarith
import Verif.Midi.Lemmas
import Verif.Midi.SustainModel

/-!
# The sustain pedal: lemmas
-/

namespace Verif.Midi

/-- The pitch of a note. -/
def pitchOf (ns : List Note) (i : ℕ) : ℤ := (ns[i]?.map Note.pitch).getD 0

/-- A note with another end. -/
abbrev Note.withStop (n : Note) (e : ℚ) : Note := { n with stop := e }

/-! ### Only ends change -/

/-- The same notes up to their ends. -/
def SameButEnds (a b : List Note) : Prop := a.map (fun n => { n with stop := 0 }) = b.map fun n => { n with stop := 0 }

theorem SameButEnds.get {a b : List Note} (h : SameButEnds a b) (i : ℕ) :
    a[i]?.map (fun n => { n with stop := 0 }) = b[i]?.map fun n => { n with stop := 0 } := by
  rw [← List.getElem?_map, ← List.getElem?_map, h]

theorem SameButEnds.startOf {a b : List Note} (h : SameButEnds a b) : startOf a = startOf b := by
  funext i
  have := congrArg (Option.map Note.start) (h.get i)
  rw [Option.map_map, Option.map_map] at this
  unfold Midi.startOf
  exact congrArg (Option.getD · 0) this

theorem SameButEnds.pitchOf {a b : List Note} (h : SameButEnds a b) : pitchOf a = pitchOf b := by
  funext i
  have := congrArg (Option.map Note.pitch) (h.get i)
  rw [Option.map_map, Option.map_map] at this
  unfold Midi.pitchOf
  exact congrArg (Option.getD · 0) this

theorem SameButEnds.set {a : List Note} {i : ℕ} {n : Note} (h : a[i]? = some n) (e : ℚ) :
    SameButEnds (a.set i { n with stop := e }) a := by
  unfold SameButEnds
  rw [List.map_set]
  apply List.ext_getElem?
  intro j
  rw [List.getElem?_set]
  split
  · rename_i hj
    subst hj
    rw [List.getElem?_map, h]
    rw [if_pos (by rw [List.length_map]; exact (List.getElem?_eq_some_iff.1 h).1)]
    rfl
  · rfl

theorem transposeGo_same (stop : ℚ) (l : List ℕ) : ∀ (next : ℤ → Option ℚ) (ns : List Note),
    SameButEnds (transposeGo stop next l ns) ns := by
  induction l with
  | nil => intros; rfl
  | cons i l ih =>
    intro next ns
    unfold transposeGo
    split
    · exact ih _ _
    · rename_i n hn
      exact (ih _ _).trans (SameButEnds.set hn _)

theorem transpose_same (s : Sustain) (m : List ℕ) (ns : List Note) : SameButEnds (transpose s m ns) ns :=
  transposeGo_same _ _ _ _

theorem pedal_same (ss : List Sustain) : ∀ (rem : List ℕ) (ns : List Note),
    SameButEnds (pedal ss rem ns).notes ns := by
  induction ss with
  | nil => intros; rfl
  | cons s ss ih =>
    intro rem ns
    unfold pedal
    split
    · exact ih _ _
    · exact (ih _ _).trans (transpose_same _ _ _)

/-! ### One sweep -/

theorem sweep_eq (s : Sustain) (hs : s.start ≤ s.stop) (st : ℕ → ℚ) (l : List ℕ) :
    sweep s st l =
      ⟨(l.takeWhile fun i => st i ≤ s.stop).filter (fun i => st i < s.start),
        (l.takeWhile fun i => st i ≤ s.stop).filter (fun i => ¬ st i < s.start),
        if l.dropWhile (fun i => st i ≤ s.stop) = [] then none
        else some (l.dropWhile fun i => st i ≤ s.stop)⟩ := by
  induction l with
  | nil => rfl
  | cons i l ih =>
    unfold sweep
    rw [ih]
    by_cases h1 : st i < s.start
    · have h2 : st i ≤ s.stop := h1.le.trans hs
      rw [if_pos h1]
      simp [h1, h2]
    · rw [if_neg h1]
      by_cases h2 : s.stop < st i
      · rw [if_pos h2]
        simp [not_le.2 h2]
      · rw [if_neg h2]
        simp [not_lt.1 h1, not_lt.1 h2]

theorem sorted_takeWhile {st : ℕ → ℚ} (c : ℚ) {l : List ℕ} (h : l.Pairwise fun a b => st a ≤ st b) :
    l.takeWhile (fun i => st i ≤ c) = l.filter (fun i => st i ≤ c) ∧
      l.dropWhile (fun i => st i ≤ c) = l.filter (fun i => c < st i) := by
  induction l with
  | nil => exact ⟨rfl, rfl⟩
  | cons i l ih =>
    rw [List.pairwise_cons] at h
    obtain ⟨a, b⟩ := ih h.2
    by_cases e : st i ≤ c
    · simp [e, a, b, not_lt.2 e]
    · have all : ∀ j ∈ l, c < st j := fun j hj => (not_le.1 e).trans_le (h.1 j hj)
      have e' := not_le.1 e
      constructor
      · rw [List.takeWhile_cons_of_neg (by simpa using e), eq_comm, List.filter_eq_nil_iff]
        intro j hj
        rcases List.mem_cons.1 hj with rfl | hj
        · simpa using e
        · simpa using all j hj
      · rw [List.dropWhile_cons_of_neg (by simpa using e), eq_comm, List.filter_eq_self]
        intro j hj
        rcases List.mem_cons.1 hj with rfl | hj
        · simpa using e'
        · simpa using all j hj

/-- Sustains as the pedal produces them: in order. -/
structure Ordered (ss : List Sustain) : Prop where
  proper : ∀ s ∈ ss, s.start ≤ s.stop
  apart : ss.Pairwise fun a b => a.stop ≤ b.start

theorem Ordered.tail {s : Sustain} {ss : List Sustain} (h : Ordered (s :: ss)) : Ordered ss :=
  ⟨fun x hx => h.proper x (List.mem_cons_of_mem _ hx), (List.pairwise_cons.1 h.apart).2⟩

theorem Ordered.le {s : Sustain} {ss : List Sustain} (h : Ordered (s :: ss)) : ∀ x ∈ ss, s.stop ≤ x.stop :=
  fun x hx => ((List.pairwise_cons.1 h.apart).1 x hx).trans (h.proper x (List.mem_cons_of_mem _ hx))

/-- How often a note is listed. -/
def times (ss : List Sustain) (rem : List ℕ) (ns : List Note) (i : ℕ) : ℕ :=
  ((pedal ss rem ns).stream ++ (pedal ss rem ns).managed).count i

/-- The variable `notes` and the notes after a sweep over notes in order. -/
theorem pedal_cons {s : Sustain} {ss : List Sustain} (hs : s.start ≤ s.stop) {rem : List ℕ} {ns : List Note}
    (h : rem.Pairwise fun a b => startOf ns a ≤ startOf ns b) :
    ∃ rem' ns', SameButEnds ns' ns ∧
      (pedal (s :: ss) rem ns).notes = (pedal ss rem' ns').notes ∧
      (∀ i, times (s :: ss) rem ns i =
        (rem.filter fun i => startOf ns i ≤ s.stop).count i + times ss rem' ns' i) ∧
      ((∀ j ∈ rem, startOf ns j ≤ s.stop) → rem' = rem ∧ ns' = ns) ∧
      ((∃ j ∈ rem, s.stop < startOf ns j) → rem' = rem.filter (fun i => s.stop < startOf ns i) ∧
        ns' = transpose s (rem.filter fun i => s.start ≤ startOf ns i ∧ startOf ns i ≤ s.stop) ns) := by
  obtain ⟨ht, hd⟩ := sorted_takeWhile s.stop h
  have hsw := sweep_eq s hs (startOf ns) rem
  rw [ht, hd] at hsw
  have hm : (rem.filter fun i => startOf ns i ≤ s.stop).filter (fun i => ¬ startOf ns i < s.start) =
      rem.filter fun i => s.start ≤ startOf ns i ∧ startOf ns i ≤ s.stop := by
    rw [List.filter_filter]
    apply List.filter_congr
    intro j _
    simp
  have cnt : ∀ (i : ℕ) (x y : List ℕ),
      ((((rem.filter fun i => startOf ns i ≤ s.stop).filter fun i => startOf ns i < s.start) ++ x) ++
        (((rem.filter fun i => startOf ns i ≤ s.stop).filter fun i => ¬ startOf ns i < s.start) ++ y)).count i =
      (rem.filter fun i => startOf ns i ≤ s.stop).count i + (x ++ y).count i := by
    intro i x y
    have : (rem.filter fun i => startOf ns i ≤ s.stop).count i =
        ((rem.filter fun i => startOf ns i ≤ s.stop).filter fun i => startOf ns i < s.start).count i +
        ((rem.filter fun i => startOf ns i ≤ s.stop).filter fun i => ¬ startOf ns i < s.start).count i := by
      generalize rem.filter (fun i => startOf ns i ≤ s.stop) = l
      induction l with
      | nil => rfl
      | cons a l ih =>
        by_cases e : startOf ns a < s.start
        · simp only [List.filter_cons, e, decide_true, if_true, not_true_eq_false, decide_false,
            Bool.false_eq_true, if_false, List.count_cons]
          omega
        · simp only [List.filter_cons, e, decide_true, if_true, not_false_eq_true, decide_false,
            Bool.false_eq_true, if_false, List.count_cons]
          omega
    rw [this]
    simp only [List.count_append]
    omega
  by_cases hb : rem.filter (fun i => s.stop < startOf ns i) = []
  · refine ⟨rem, ns, rfl, ?_, ?_, fun _ => ⟨rfl, rfl⟩, ?_⟩
    · conv_lhs => unfold pedal
      rw [hsw]
      simp only [hb, if_true]
    · intro i
      unfold times
      rw [← cnt]
      conv_lhs => unfold pedal
      rw [hsw]
      simp only [hb, if_true]
    · rintro ⟨j, hj, hj'⟩
      have := List.filter_eq_nil_iff.1 hb j hj
      simp [hj'] at this
  · refine ⟨rem.filter fun i => s.stop < startOf ns i, transpose s (rem.filter fun i =>
      s.start ≤ startOf ns i ∧ startOf ns i ≤ s.stop) ns, transpose_same _ _ _, ?_, ?_, ?_, fun _ => ⟨rfl, rfl⟩⟩
    · conv_lhs => unfold pedal
      rw [hsw]
      simp only [hb, if_false, hm]
    · intro i
      unfold times
      rw [← cnt]
      conv_lhs => unfold pedal
      rw [hsw]
      simp only [hb, if_false, hm]
    · intro hall
      exfalso
      apply hb
      rw [List.filter_eq_nil_iff]
      intro j hj
      simpa using hall j hj

theorem times_not_mem {i : ℕ} (ss : List Sustain) : ∀ (rem : List ℕ) (ns : List Note), Ordered ss →
    rem.Pairwise (fun a b => startOf ns a ≤ startOf ns b) → i ∉ rem → times ss rem ns i = 0 := by
  induction ss with
  | nil => intros; rfl
  | cons s ss ih =>
    intro rem ns ho hr hi
    obtain ⟨rem', ns', hse, _, ht, hno, hyes⟩ := pedal_cons (ss := ss) (ho.proper s (by simp)) hr
    rw [ht, List.count_eq_zero_of_not_mem (fun h => hi (List.mem_filter.1 h).1), zero_add]
    by_cases hb : ∃ j ∈ rem, s.stop < startOf ns j
    · obtain ⟨rfl, rfl⟩ := hyes hb
      refine ih _ _ ho.tail ?_ fun h => hi (List.mem_filter.1 h).1
      rw [hse.startOf]
      exact hr.filter _
    · obtain ⟨rfl, rfl⟩ := hno fun j hj => not_lt.1 fun h => hb ⟨j, hj, h⟩
      exact ih _ _ ho.tail hr hi

/-- Multiplicities, from any state. -/
theorem times_spec (ss : List Sustain) : ∀ (rem : List ℕ) (ns : List Note), Ordered ss → rem.Nodup →
    rem.Pairwise (fun a b => startOf ns a ≤ startOf ns b) → ∀ i ∈ rem,
      ((∀ s ∈ ss, s.stop < startOf ns i) → times ss rem ns i = 0) ∧
      ∀ pre s post, ss = pre ++ s :: post → (∀ p ∈ pre, p.stop < startOf ns i) → startOf ns i ≤ s.stop →
        ((∃ j ∈ rem, s.stop < startOf ns j) → times ss rem ns i = 1) ∧
        ((∀ j ∈ rem, startOf ns j ≤ s.stop) → times ss rem ns i = 1 + post.length) := by
  induction ss with
  | nil =>
    intro rem ns _ _ _ i _
    refine ⟨fun _ => rfl, fun pre s post h => ?_⟩
    cases pre <;> cases h
  | cons s ss ih =>
    intro rem ns ho hnd hr i hi
    obtain ⟨rem', ns', hse, _, ht, hno, hyes⟩ := pedal_cons (ss := ss) (ho.proper s (by simp)) hr
    by_cases hle : startOf ns i ≤ s.stop
    · have one : (rem.filter fun i => startOf ns i ≤ s.stop).count i = 1 :=
        List.count_eq_one_of_mem (hnd.filter _) (List.mem_filter.2 ⟨hi, by simpa using hle⟩)
      refine ⟨fun h => absurd (h s (by simp)) (not_lt.2 hle), fun pre s' post h hpre hs' => ?_⟩
      cases pre with
      | cons p pre =>
        cases h
        exact absurd (hpre s (by simp)) (not_lt.2 hle)
      | nil =>
        cases h
        constructor
        · intro hb
          obtain ⟨rfl, rfl⟩ := hyes hb
          rw [ht, one, times_not_mem ss _ _ ho.tail]
          · rw [hse.startOf]; exact hr.filter _
          · intro h
            have := (List.mem_filter.1 h).2
            simp only [decide_eq_true_eq] at this
            exact absurd this (not_lt.2 hle)
        · intro hall
          obtain ⟨rfl, rfl⟩ := hno hall
          rw [ht, one]
          cases hss : ss with
          | nil => rfl
          | cons s2 ss2 =>
            have hall2 : ∀ j ∈ rem', startOf ns' j ≤ s2.stop := fun j hj =>
              (hall j hj).trans (ho.le s2 (by rw [hss]; simp))
            have := ((ih rem' ns' ho.tail hnd hr i hi).2 [] s2 ss2 hss (fun p hp => by cases hp)
              (hall2 i hi)).2 hall2
            rw [← hss, this, hss, List.length_cons]
            omega
    · have hlt := not_le.1 hle
      obtain ⟨rfl, rfl⟩ := hyes ⟨i, hi, hlt⟩
      have zero : (rem.filter fun i => startOf ns i ≤ s.stop).count i = 0 :=
        List.count_eq_zero_of_not_mem fun h => by
          have := (List.mem_filter.1 h).2
          simp only [decide_eq_true_eq] at this
          exact hle this
      have hi' : i ∈ rem.filter fun i => s.stop < startOf ns i :=
        List.mem_filter.2 ⟨hi, by simpa using hlt⟩
      have hst := hse.startOf
      obtain ⟨r1, r2⟩ := ih _ _ ho.tail (hnd.filter (fun i => s.stop < startOf ns i)) (by
        rw [hst]; exact hr.filter _) i hi'
      rw [ht, zero, zero_add]
      rw [hst] at r1 r2
      refine ⟨fun h => r1 fun x hx => h x (List.mem_cons_of_mem _ hx), fun pre s' post h hpre hs' => ?_⟩
      cases pre with
      | nil => cases h; exact absurd hs' hle
      | cons p pre =>
        have hss : ss = pre ++ s' :: post := by cases h; rfl
        obtain ⟨q1, q2⟩ := r2 pre s' post hss (fun x hx => hpre x (List.mem_cons_of_mem _ hx)) hs'
        have hge : s.stop ≤ s'.stop := ho.le s' (by rw [hss]; simp)
        refine ⟨fun ⟨j, hj, hj'⟩ => q1 ⟨j, List.mem_filter.2 ⟨hj, by simpa using hge.trans_lt hj'⟩, hj'⟩,
          fun hall => q2 fun j hj => hall j (List.mem_filter.1 hj).1⟩

/-! ### Ends -/

theorem transposeGo_get (stop : ℚ) (l : List ℕ) : ∀ (next : ℤ → Option ℚ) (ns : List Note), l.Nodup →
    (∀ j ∈ l, j < ns.length) →
    (∀ i, i ∉ l → (transposeGo stop next l ns)[i]? = ns[i]?) ∧
    ∀ a i b n, l = a ++ i :: b → ns[i]? = some n →
      (transposeGo stop next l ns)[i]? = some (n.withStop
        ((((a.reverse.find? fun j => pitchOf ns j = n.pitch).map (startOf ns)).or (next n.pitch)).getD
          (max stop n.stop))) := by
  induction l with
  | nil =>
    intro next ns _ _
    exact ⟨fun _ _ => rfl, fun a i b n h => by cases a <;> cases h⟩
  | cons x l ih =>
    intro next ns hnd hlt
    rw [List.nodup_cons] at hnd
    have hx := hlt x (by simp)
    have hnx : ns[x]? = some ns[x] := List.getElem?_eq_getElem hx
    generalize hn : ns[x] = nx at hnx
    have hsame : SameButEnds (ns.set x { nx with stop := (next nx.pitch).getD (max stop nx.stop) }) ns :=
      SameButEnds.set hnx _
    obtain ⟨h1, h2⟩ := ih (Function.update next nx.pitch (some nx.start))
      (ns.set x { nx with stop := (next nx.pitch).getD (max stop nx.stop) }) hnd.2
      (fun j hj => by rw [List.length_set]; exact hlt j (List.mem_cons_of_mem _ hj))
    have hstep : transposeGo stop next (x :: l) ns = transposeGo stop
        (Function.update next nx.pitch (some nx.start)) l
        (ns.set x { nx with stop := (next nx.pitch).getD (max stop nx.stop) }) := by
      rw [transposeGo, hnx]
    rw [hstep]
    constructor
    · intro i hi
      rw [List.mem_cons, not_or] at hi
      rw [h1 i hi.2, List.getElem?_set, if_neg (Ne.symm hi.1)]
    · intro a i b n hl hi
      cases a with
      | nil =>
        cases hl
        rw [hnx] at hi; cases hi
        rw [h1 _ hnd.1, List.getElem?_set, if_pos rfl, if_pos hx]
        simp
      | cons y a =>
        cases hl
        have hne : x ≠ i := by
          rintro rfl
          exact hnd.1 (by simp)
        have hi' : (ns.set x { nx with stop := (next nx.pitch).getD (max stop nx.stop) })[i]? = some n := by
          rw [List.getElem?_set, if_neg hne]; exact hi
        rw [h2 a i b n rfl hi', hsame.pitchOf, hsame.startOf, List.reverse_cons, List.find?_append]
        have px : pitchOf ns x = nx.pitch := by unfold pitchOf; rw [hnx]; rfl
        have sx : startOf ns x = nx.start := by unfold startOf; rw [hnx]; rfl
        cases List.find? (fun j => decide (pitchOf ns j = n.pitch)) a.reverse with
        | some j => rfl
        | none =>
          by_cases e : nx.pitch = n.pitch
          · simp [px, e, sx]
          · simp [px, e, Function.update_of_ne (Ne.symm e)]

theorem transpose_get (s : Sustain) {m : List ℕ} {ns : List Note} (hm : m.Nodup) (hlt : ∀ j ∈ m, j < ns.length) :
    (∀ i, i ∉ m → (transpose s m ns)[i]? = ns[i]?) ∧
    ∀ a i b n, m = a ++ i :: b → ns[i]? = some n →
      (transpose s m ns)[i]? = some (n.withStop
        (((b.find? fun j => pitchOf ns j = n.pitch).map (startOf ns)).getD (max s.stop n.stop))) := by
  obtain ⟨h1, h2⟩ := transposeGo_get s.stop m.reverse (fun _ => none) ns (List.nodup_reverse.2 hm)
    (fun j hj => hlt j (List.mem_reverse.1 hj))
  refine ⟨fun i hi => h1 i fun h => hi (List.mem_reverse.1 h), fun a i b n he hn => ?_⟩
  have := h2 b.reverse i a.reverse n (by rw [he]; simp) hn
  rw [List.reverse_reverse, Option.or_none] at this
  exact this

theorem stop_not_mem {i : ℕ} (ss : List Sustain) : ∀ (rem : List ℕ) (ns : List Note), Ordered ss → rem.Nodup →
    (∀ j ∈ rem, j < ns.length) → rem.Pairwise (fun a b => startOf ns a ≤ startOf ns b) → i ∉ rem →
    (pedal ss rem ns).notes[i]? = ns[i]? := by
  induction ss with
  | nil => intros; rfl
  | cons s ss ih =>
    intro rem ns ho hnd hlt hr hi
    obtain ⟨rem', ns', hse, hn, _, hno, hyes⟩ := pedal_cons (ss := ss) (ho.proper s (by simp)) hr
    rw [hn]
    have hlen : ns'.length = ns.length := by simpa using congrArg List.length hse
    by_cases hb : ∃ j ∈ rem, s.stop < startOf ns j
    · obtain ⟨rfl, hns⟩ := hyes hb
      rw [ih _ _ ho.tail (hnd.filter _) (fun j hj => by rw [hlen]; exact hlt j (List.mem_filter.1 hj).1)
        (by rw [hse.startOf]; exact hr.filter _) fun h => hi (List.mem_filter.1 h).1, hns]
      exact (transpose_get s (hnd.filter _) fun j hj => hlt j (List.mem_filter.1 hj).1).1 i
        fun h => hi (List.mem_filter.1 h).1
    · obtain ⟨rfl, rfl⟩ := hno fun j hj => not_lt.1 fun h => hb ⟨j, hj, h⟩
      exact ih _ _ ho.tail hnd hlt hr hi

/-- If no remaining note starts after the end of the next sustain, no end changes any more. -/
theorem stop_no_break (ss : List Sustain) : ∀ (rem : List ℕ) (ns : List Note), Ordered ss →
    rem.Pairwise (fun a b => startOf ns a ≤ startOf ns b) →
    (∀ s ∈ ss, ∀ j ∈ rem, startOf ns j ≤ s.stop) → (pedal ss rem ns).notes = ns := by
  induction ss with
  | nil => intros; rfl
  | cons s ss ih =>
    intro rem ns ho hr hall
    obtain ⟨rem', ns', hse, hn, _, hno, hyes⟩ := pedal_cons (ss := ss) (ho.proper s (by simp)) hr
    obtain ⟨rfl, rfl⟩ := hno (hall s (by simp))
    rw [hn, ih _ _ ho.tail hr fun x hx => hall x (List.mem_cons_of_mem _ hx)]

/-- Ends, from any state. -/
theorem stop_spec (ss : List Sustain) : ∀ (rem : List ℕ) (ns : List Note), Ordered ss → rem.Nodup →
    (∀ j ∈ rem, j < ns.length) → rem.Pairwise (fun a b => startOf ns a ≤ startOf ns b) →
    ∀ r1 i r2 n, rem = r1 ++ i :: r2 → ns[i]? = some n →
      ((∀ s ∈ ss, s.stop < startOf ns i) → (pedal ss rem ns).notes[i]? = some n) ∧
      ∀ pre s post, ss = pre ++ s :: post → (∀ p ∈ pre, p.stop < startOf ns i) → startOf ns i ≤ s.stop →
        ((∃ j ∈ rem, s.stop < startOf ns j) → s.start ≤ startOf ns i →
          (pedal ss rem ns).notes[i]? = some (n.withStop
            ((((r2.filter fun j => startOf ns j ≤ s.stop).find? fun j => pitchOf ns j = n.pitch).map
              (startOf ns)).getD (max s.stop n.stop)))) ∧
        (startOf ns i < s.start ∨ (∀ j ∈ rem, startOf ns j ≤ s.stop) →
          (pedal ss rem ns).notes[i]? = some n) := by
  induction ss with
  | nil =>
    intro rem ns _ _ _ _ r1 i r2 n _ hn
    refine ⟨fun _ => hn, fun pre s post h => ?_⟩
    cases pre <;> cases h
  | cons s ss ih =>
    intro rem ns ho hnd hlt hr r1 i r2 n hrem hn
    have hi : i ∈ rem := by rw [hrem]; simp
    obtain ⟨rem', ns', hse, hnotes, _, hno, hyes⟩ := pedal_cons (ss := ss) (ho.proper s (by simp)) hr
    have hlen : ns'.length = ns.length := by simpa using congrArg List.length hse
    rw [hnotes]
    by_cases hle : startOf ns i ≤ s.stop
    · refine ⟨fun h => absurd (h s (by simp)) (not_lt.2 hle), fun pre s' post h hpre hs' => ?_⟩
      cases pre with
      | cons p pre =>
        cases h
        exact absurd (hpre s (by simp)) (not_lt.2 hle)
      | nil =>
        cases h
        by_cases hb : ∃ j ∈ rem, s.stop < startOf ns j
        · obtain ⟨rfl, hns⟩ := hyes hb
          have later : (pedal ss (rem.filter fun i => s.stop < startOf ns i) ns').notes[i]? = ns'[i]? :=
            stop_not_mem ss _ _ ho.tail (hnd.filter _)
              (fun j hj => by rw [hlen]; exact hlt j (List.mem_filter.1 hj).1)
              (by rw [hse.startOf]; exact hr.filter _) fun h => by
                have := (List.mem_filter.1 h).2
                simp only [decide_eq_true_eq] at this
                exact absurd this (not_lt.2 hle)
          rw [later, hns]
          obtain ⟨t1, t2⟩ := transpose_get s (ns := ns)
            (hnd.filter fun i => s.start ≤ startOf ns i ∧ startOf ns i ≤ s.stop)
            fun j hj => hlt j (List.mem_filter.1 hj).1
          constructor
          · intro _ hst
            have hf : (rem.filter fun i => s.start ≤ startOf ns i ∧ startOf ns i ≤ s.stop) =
                (r1.filter fun i => s.start ≤ startOf ns i ∧ startOf ns i ≤ s.stop) ++ i ::
                  (r2.filter fun j => startOf ns j ≤ s.stop) := by
              rw [hrem, List.filter_append, List.filter_cons_of_pos (by simp [hst, hle])]
              congr 2
              apply List.filter_congr
              intro j hj
              rw [hrem, List.pairwise_append] at hr
              have := (List.pairwise_cons.1 hr.2.1).1 j hj
              simp [hst.trans this]
            rw [t2 _ i _ n hf hn]
          · intro hor
            rw [t1 i ?_]
            · exact hn
            · intro hm
              have := (List.mem_filter.1 hm).2
              simp only [decide_eq_true_eq] at this
              rcases hor with h | h
              · exact absurd h (not_lt.2 this.1)
              · obtain ⟨j, hj, hj'⟩ := hb
                exact absurd hj' (not_lt.2 (h j hj))
        · have hall : ∀ j ∈ rem, startOf ns j ≤ s.stop := fun j hj => not_lt.1 fun h => hb ⟨j, hj, h⟩
          obtain ⟨rfl, rfl⟩ := hno hall
          refine ⟨fun h => absurd h hb, fun _ => ?_⟩
          rw [stop_no_break ss _ _ ho.tail hr fun x hx j hj => (hall j hj).trans (ho.le x hx)]
          exact hn
    · have hlt' := not_le.1 hle
      obtain ⟨rfl, hns⟩ := hyes ⟨i, hi, hlt'⟩
      have hr2 : ∀ j ∈ r2, s.stop < startOf ns j := by
        intro j hj
        rw [hrem, List.pairwise_append] at hr
        exact hlt'.trans_le ((List.pairwise_cons.1 hr.2.1).1 j hj)
      have hf : (rem.filter fun i => s.stop < startOf ns i) =
          (r1.filter fun i => s.stop < startOf ns i) ++ i :: r2 := by
        rw [hrem, List.filter_append, List.filter_cons_of_pos (by simpa using hlt')]
        congr 2
        rw [List.filter_eq_self]
        intro j hj
        simpa using hr2 j hj
      have hni : ns'[i]? = some n := by
        rw [hns, (transpose_get s (hnd.filter _) fun j hj => hlt j (List.mem_filter.1 hj).1).1 i ?_]
        · exact hn
        · intro hm
          have := (List.mem_filter.1 hm).2
          simp only [decide_eq_true_eq] at this
          exact hle this.2
      have hst := hse.startOf
      have hpi := hse.pitchOf
      obtain ⟨q1, q2⟩ := ih _ ns' ho.tail (hnd.filter (fun i => s.stop < startOf ns i))
        (fun j hj => by rw [hlen]; exact hlt j (List.mem_filter.1 hj).1)
        (by rw [hst]; exact hr.filter _) _ i r2 n hf hni
      rw [hst] at q1 q2
      rw [hpi] at q2
      refine ⟨fun h => q1 fun x hx => h x (List.mem_cons_of_mem _ hx), fun pre s' post h hpre hs' => ?_⟩
      cases pre with
      | nil => cases h; exact absurd hs' hle
      | cons p pre =>
        have hss : ss = pre ++ s' :: post := by cases h; rfl
        obtain ⟨w1, w2⟩ := q2 pre s' post hss (fun x hx => hpre x (List.mem_cons_of_mem _ hx)) hs'
        have hge : s.stop ≤ s'.stop := ho.le s' (by rw [hss]; simp)
        refine ⟨fun ⟨j, hj, hj'⟩ => w1 ⟨j, List.mem_filter.2 ⟨hj, by simpa using hge.trans_lt hj'⟩, hj'⟩,
          fun hor => w2 (hor.imp_right fun hall j hj => hall j (List.mem_filter.1 hj).1)⟩

end Verif.Midi
