import Verif.Midi.PrepModel
import Mathlib.Data.List.Induction
import Mathlib.MeasureTheory.Measure.Lebesgue.Basic
import Mathlib.MeasureTheory.Measure.Prod
import Mathlib.Tactic.Linarith
import Mathlib.Tactic.NormNum

/-! # C182: preparing MIDI data -/

namespace Verif.Midi.Prep

open MeasureTheory

variable {T : Type}

/-! ## Specification -/

/-- A file written: folder, name, content. -/
abbrev Write (T : Type) := Split × Name × T

/-- The output folders after writing files in order: the last one of a name counts, other files stay. -/
def After (o o' : Out T) (ws : List (Write T)) : Prop :=
  ∀ s n, (∀ x, o' s n = some x ↔ (∃ l r, ws = l ++ (s, n, x) :: r ∧ ∀ w ∈ r, ¬ (w.1 = s ∧ w.2.1 = n)) ∨
    (o s n = some x ∧ ∀ w ∈ ws, ¬ (w.1 = s ∧ w.2.1 = n)))

/-! ## Lemmas -/

lemma after_nil (o : Out T) : After o o [] := fun s n x => by simp

lemma after_cons (o o' : Out T) (s0 : Split) (n0 : Name) (x0 : T) (ws : List (Write T)) (h : After (put o s0 n0 x0) o' ws) :
    After o o' ((s0, n0, x0) :: ws) := by
  intro s n x
  rw [h s n x]
  constructor
  · rintro (⟨l, r, rfl, hr⟩ | ⟨h1, h2⟩)
    · exact .inl ⟨(s0, n0, x0) :: l, r, rfl, hr⟩
    · unfold put at h1
      split_ifs at h1 with hc
      · obtain ⟨rfl, rfl⟩ := hc
        cases h1
        exact .inl ⟨[], ws, rfl, h2⟩
      · refine .inr ⟨h1, fun w hw => ?_⟩
        rcases List.mem_cons.1 hw with rfl | hw
        · exact fun hh => hc ⟨hh.1.symm, hh.2.symm⟩
        · exact h2 w hw
  · rintro (⟨l, r, he, hr⟩ | ⟨h1, h2⟩)
    · cases l with
      | nil =>
        simp only [List.nil_append, List.cons.injEq, Prod.mk.injEq] at he
        obtain ⟨⟨rfl, rfl, rfl⟩, rfl⟩ := he
        exact .inr ⟨by simp [put], hr⟩
      | cons w l =>
        simp only [List.cons_append, List.cons.injEq] at he
        exact .inl ⟨l, r, he.2, hr⟩
    · refine .inr ⟨?_, fun w hw => h2 w (List.mem_cons_of_mem _ hw)⟩
      have := h2 (s0, n0, x0) (by simp)
      unfold put
      rw [if_neg fun hh => this ⟨hh.1.symm, hh.2.symm⟩]
      exact h1

/-- The last component of a joined path is that of the file. -/
lemma base_join (root f : Name) : base (join root f) = base f := by
  have key : ∀ a b : Name, (b = [] ∨ True) → (a = [] ∨ a.getLast? = some '/') → base (a ++ b) = base b := by
    intro a b _ ha
    rcases ha with rfl | ha
    · rfl
    · obtain ⟨a', rfl⟩ : ∃ a', a = a' ++ ['/'] := by
        rcases List.eq_nil_or_concat a with rfl | ⟨a', c, rfl⟩
        · simp at ha
        · simp at ha; exact ⟨a', by rw [ha, List.concat_eq_append]⟩
      unfold base
      rw [List.reverse_append, List.takeWhile_append]
      split_ifs with h
      · have := (List.takeWhile_prefix (fun x : Char => decide (x ≠ '/')) (l := b.reverse)).eq_of_length h
        rw [this]
        simp
      · rfl
  unfold join
  split_ifs with h1 h2
  · rfl
  · exact key root f (.inr trivial) h2
  · rw [show root ++ '/' :: f = (root ++ ['/']) ++ f by simp]
    exact key _ f (.inr trivial) (.inr (by simp))

lemma maestroLoop_run (enc : Name → Except Err T) (root : Name) (bad : List Piece) :
    ∀ (ps : List Piece) (ws : List (Write T)) (o : Out T),
      List.Forall₂ (fun p w => splitOf p.split = some w.1 ∧ w.2.1 = base p.file ++ suffix ∧ enc (join root p.file) = .ok w.2.2) ps ws →
      ∃ o', After o o' ws ∧ maestroLoop enc root (ps ++ bad) o = maestroLoop enc root bad o'
  | [], [], o, _ => ⟨o, after_nil o, rfl⟩
  | p :: ps, w :: ws, o, h => by
    obtain ⟨⟨h1, h2, h3⟩, h4⟩ := List.forall₂_cons.1 h
    obtain ⟨o', h5, h6⟩ := maestroLoop_run enc root bad ps ws (put o w.1 w.2.1 w.2.2) h4
    refine ⟨o', ?_, ?_⟩
    · obtain ⟨s, n, x⟩ := w
      exact after_cons o o' s n x ws h5
    · rw [← h6, List.cons_append, maestroLoop, h1]
      simp only [h3, base_join, h2]
  | [], _ :: _, _, h => by cases h
  | _ :: _, [], _, h => by cases h

lemma after_unique (o o1 o2 : Out T) (ws : List (Write T)) (h1 : After o o1 ws) (h2 : After o o2 ws) : o1 = o2 := by
  funext s n
  refine Option.ext fun x => ?_
  rw [h1 s n x, h2 s n x]

/-! ## C182 -/

/-- **C182.** `prep_maestro_midi`: if the JSON file is missing, `False` and no file is written.  Otherwise pieces are processed in order; up to the first piece whose
split type is not recognised (result `False`) or whose encoding fails (the exception), or to the end (result `True`), each piece is written to the folder of its split type
under the last component of its file name: pieces of one folder that share it replace each other, and files of earlier runs stay. -/
theorem C182_maestro (enc : Name → Except Err T) (root : Name) (o : Out T) :
    prepMaestro enc root none o = (.ok false, o) ∧
    ∀ (ps : List Piece) (ws : List (Write T)),
      List.Forall₂ (fun p w => splitOf p.split = some w.1 ∧ w.2.1 = base p.file ++ suffix ∧ enc (join root p.file) = .ok w.2.2) ps ws →
      ∃ o', After o o' ws ∧ prepMaestro enc root (some ps) o = (.ok true, o') ∧
        (∀ p rest, splitOf p.split = none → prepMaestro enc root (some (ps ++ p :: rest)) o = (.ok false, o')) ∧
        (∀ p rest e, splitOf p.split ≠ none → enc (join root p.file) = .error e → prepMaestro enc root (some (ps ++ p :: rest)) o = (.error e, o')) := by
  refine ⟨rfl, fun ps ws h => ?_⟩
  obtain ⟨o', h1, h2⟩ := maestroLoop_run enc root [] ps ws o h
  refine ⟨o', h1, ?_, fun p rest hp => ?_, fun p rest e hp he => ?_⟩
  · show maestroLoop enc root ps o = _
    rw [List.append_nil] at h2
    rw [h2]; rfl
  · obtain ⟨o2, h3, h4⟩ := maestroLoop_run enc root (p :: rest) ps ws o h
    rw [after_unique o o' o2 ws h1 h3]
    show maestroLoop enc root (ps ++ p :: rest) o = _
    rw [h4, maestroLoop, hp]
  · obtain ⟨o2, h3, h4⟩ := maestroLoop_run enc root (p :: rest) ps ws o h
    rw [after_unique o o' o2 ws h1 h3]
    show maestroLoop enc root (ps ++ p :: rest) o = _
    rw [h4, maestroLoop]
    cases hs : splitOf p.split with
    | none => exact absurd hs hp
    | some s => simp only [he]

/-- **C182.** The names of the files written: the last component of a path is what follows its last slash, the stem of a name what precedes its first dot, and a relative path is
put under the root with one slash between them. -/
theorem C182_names (s root f : Name) :
    ('/' ∉ base s ∧ (base s = s ∨ ∃ pre, s = pre ++ '/' :: base s)) ∧
    ('.' ∉ stem s ∧ (stem s = s ∨ ∃ rest, s = stem s ++ '.' :: rest)) ∧
    join root ('/' :: f) = '/' :: f ∧
    (f.head? ≠ some '/' → join (root ++ ['/']) f = root ++ '/' :: f ∧ join [] f = f ∧
      (root ≠ [] → root.getLast? ≠ some '/' → join root f = root ++ '/' :: f)) := by
  have key : ∀ (c : Char) (l : Name), c ∉ l.takeWhile (· ≠ c) ∧ (l.takeWhile (· ≠ c) = l ∨ ∃ rest, l = l.takeWhile (· ≠ c) ++ c :: rest) := by
    intro c l
    refine ⟨fun h => by simpa using List.all_eq_true.1 (List.all_takeWhile (p := fun x => decide (x ≠ c)) (l := l)) c h, ?_⟩
    induction l with
    | nil => exact .inl rfl
    | cons x l ih =>
      by_cases hx : x = c
      · subst hx
        exact .inr ⟨l, by simp⟩
      · rw [List.takeWhile_cons_of_pos (by simpa using hx)]
        rcases ih with ih | ⟨rest, ih⟩
        · exact .inl (by rw [ih])
        · exact .inr ⟨rest, by rw [List.cons_append, ← ih]⟩
  refine ⟨⟨?_, ?_⟩, key '.' s, by simp [join], fun hf => ⟨?_, ?_, fun h1 h2 => ?_⟩⟩
  · rw [base, List.mem_reverse]
    exact (key '/' s.reverse).1
  · rcases (key '/' s.reverse).2 with h | ⟨rest, h⟩
    · exact .inl (by rw [base, h, List.reverse_reverse])
    · exact .inr ⟨rest.reverse, by
        have := congrArg List.reverse h
        rw [List.reverse_reverse, List.reverse_append, List.reverse_cons] at this
        rw [base]
        simpa using this⟩
  · rw [join, if_neg hf, if_pos (by simp)]
    simp
  · rw [join, if_neg hf, if_pos (.inl rfl), List.nil_append]
  · rw [join, if_neg hf, if_neg (by tauto)]

/-- **C182.** The recognised split types. -/
theorem C182_splits (s : String) (f : Split) :
    splitOf s = some f ↔ (s = "train" ∧ f = .train) ∨ (s = "validation" ∧ f = .val) ∨ (s = "test" ∧ f = .test) := by
  unfold splitOf
  split_ifs with h1 h2 h3
  · subst h1; simp [eq_comm]
  · subst h2; simp [eq_comm]
  · subst h3; simp [eq_comm]
  · simp [h1, h2, h3]

/-- Draws before the `i`-th piece: one for each piece in `train`, two for each other. -/
def drawsBefore (ss : List Split) (i : ℕ) : ℕ := i + ((ss.take i).filter (· ≠ .train)).length

lemma customLoop_run (enc : Name → Except Err T) (root : Name) (v t : ℝ) (r : ℕ → ℝ) :
    ∀ (fs : List Name) (xs : List T) (k : ℕ) (o : Out T), List.Forall₂ (fun f x => enc (join root f) = .ok x) fs xs →
      ∃ o' ss, customLoop enc root v t r fs k o = (.ok true, o') ∧ ss.length = fs.length ∧
        After o o' (ss.zip ((fs.map fun f => stem f ++ suffix).zip xs)) ∧
        ∀ i (hi : i < ss.length), ss[i] = (draw v t r (k + drawsBefore ss i)).1
  | [], [], k, o, _ => ⟨o, [], rfl, rfl, after_nil o, by simp⟩
  | f :: fs, x :: xs, k, o, h => by
    obtain ⟨h1, h2⟩ := List.forall₂_cons.1 h
    obtain ⟨o', ss, e1, e2, e3, e4⟩ := customLoop_run enc root v t r fs xs (draw v t r k).2 (put o (draw v t r k).1 (stem f ++ suffix) x) h2
    refine ⟨o', (draw v t r k).1 :: ss, ?_, by simp [e2], ?_, fun i hi => ?_⟩
    · rw [customLoop, h1]; exact e1
    · exact after_cons o o' _ _ _ _ e3
    · cases i with
      | zero => simp [drawsBefore]
      | succ i =>
        rw [List.getElem_cons_succ, e4 i (by simpa using hi)]
        congr 2
        have hd : (draw v t r k).2 = k + 1 + (([(draw v t r k).1] : List Split).filter (· ≠ .train)).length := by
          unfold draw; split_ifs <;> simp
        rw [hd]
        simp only [drawsBefore, List.take_succ_cons]
        rw [show (draw v t r k).1 :: ss.take i = [(draw v t r k).1] ++ ss.take i from rfl, List.filter_append, List.length_append]
        omega
  | [], _ :: _, _, _, h => by cases h
  | _ :: _, [], _, _, h => by cases h

/-- **C182.** `prep_custom_midi`, if all files can be encoded: each file of the listing goes to one folder, decided by its own one or two draws, under its name up to the
first dot; files that agree up to there and come to the same folder replace each other, and files of earlier runs stay. -/
theorem C182_custom (enc : Name → Except Err T) (root : Name) (v t : ℝ) (r : ℕ → ℝ) (fs : List Name) (xs : List T) (o : Out T)
    (h : List.Forall₂ (fun f x => enc (join root f) = .ok x) fs xs) :
    ∃ o' ss, prepCustom enc root v t r fs o = (.ok true, o') ∧ ss.length = fs.length ∧
      After o o' (ss.zip ((fs.map fun f => stem f ++ suffix).zip xs)) ∧
      ∀ i (hi : i < ss.length),
        (ss[i] = .train ↔ v < r (drawsBefore ss i)) ∧
        (ss[i] = .val ↔ r (drawsBefore ss i) ≤ v ∧ t < r (drawsBefore ss i + 1)) ∧
        (ss[i] = .test ↔ r (drawsBefore ss i) ≤ v ∧ r (drawsBefore ss i + 1) ≤ t) := by
  obtain ⟨o', ss, e1, e2, e3, e4⟩ := customLoop_run enc root v t r fs xs 0 o h
  refine ⟨o', ss, e1, e2, e3, fun i hi => ?_⟩
  rw [e4 i hi, Nat.zero_add]
  unfold draw
  split_ifs with h1 h2
  · simp [h1]
  · simp only [gt_iff_lt, not_lt] at h1 h2
    simp [h1, h2]
  · simp only [gt_iff_lt, not_lt] at h1 h2
    simp [h1, h2]

/-- **C182.** If a file cannot be encoded, the exception propagates; what comes before it in the listing has been written. -/
theorem C182_custom_error (enc : Name → Except Err T) (root : Name) (v t : ℝ) (r : ℕ → ℝ) (fs rest : List Name) (f : Name) (xs : List T) (e : Err) (o : Out T)
    (h : List.Forall₂ (fun f x => enc (join root f) = .ok x) fs xs) (he : enc (join root f) = .error e) :
    prepCustom enc root v t r (fs ++ f :: rest) o = (.error e, (prepCustom enc root v t r fs o).2) := by
  have key : ∀ (fs : List Name) (xs : List T) (k : ℕ) (o : Out T), List.Forall₂ (fun f x => enc (join root f) = .ok x) fs xs →
      customLoop enc root v t r (fs ++ f :: rest) k o = (.error e, (customLoop enc root v t r fs k o).2) := by
    intro fs
    induction fs with
    | nil => intro xs k o _; simp [customLoop, he]
    | cons g fs ih =>
      intro xs k o hx
      cases hx with
      | cons h1 h2 =>
        rw [List.cons_append, customLoop, customLoop, h1]
        exact ih _ _ _ h2
  exact key fs xs 0 o h

/-- **C182 (disagreement).** Shares of the folders for two independent draws, uniform on `[0, 1]`: a piece goes to `test` with probability `valid_p * test_p`, not
`test_p`, and to `val` with probability `valid_p * (1 - test_p)`, not `valid_p`. -/
theorem C182_shares (v t : ℝ) (hv : 0 ≤ v) (hv1 : v ≤ 1) (ht : 0 ≤ t) (ht1 : t ≤ 1) :
    let U := Set.Icc (0 : ℝ) 1 ×ˢ Set.Icc (0 : ℝ) 1
    let μ := (volume : Measure (ℝ × ℝ))
    let into := fun s : Split => U ∩ {r | (draw v t (fun k => if k = 0 then r.1 else r.2) 0).1 = s}
    μ U = 1 ∧ μ (into .train) = ENNReal.ofReal (1 - v) ∧ μ (into .val) = ENNReal.ofReal (v * (1 - t)) ∧ μ (into .test) = ENNReal.ofReal (v * t) := by
  intro U μ into
  have hμ : ∀ A B : Set ℝ, μ (A ×ˢ B) = volume A * volume B := fun A B => Measure.prod_prod A B
  have e1 : into .train = Set.Ioc v 1 ×ˢ Set.Icc 0 1 := by
    ext ⟨a, b⟩
    simp only [into, U, draw, Set.mem_inter_iff, Set.mem_prod, Set.mem_Icc, Set.mem_Ioc, Set.mem_ofPred_eq, if_true]
    constructor
    · rintro ⟨⟨⟨h1, h2⟩, h3⟩, h4⟩
      refine ⟨⟨?_, h2⟩, h3⟩
      by_contra hc
      rw [if_neg hc] at h4
      split_ifs at h4
    · rintro ⟨⟨h1, h2⟩, h3⟩
      exact ⟨⟨⟨by linarith, h2⟩, h3⟩, by rw [if_pos h1]⟩
  have e2 : into .val = Set.Icc 0 v ×ˢ Set.Ioc t 1 := by
    ext ⟨a, b⟩
    simp only [into, U, draw, Set.mem_inter_iff, Set.mem_prod, Set.mem_Icc, Set.mem_Ioc, Set.mem_ofPred_eq, if_true, Nat.zero_add, one_ne_zero, if_false]
    constructor
    · rintro ⟨⟨⟨h1, h2⟩, h3, h4⟩, h5⟩
      by_cases hc : a > v
      · rw [if_pos hc] at h5; cases h5
      · rw [if_neg hc] at h5
        by_cases hd : b > t
        · exact ⟨⟨h1, not_lt.1 hc⟩, hd, h4⟩
        · rw [if_neg hd] at h5; cases h5
    · rintro ⟨⟨h1, h2⟩, h3, h4⟩
      exact ⟨⟨⟨h1, by linarith⟩, by linarith, h4⟩, by rw [if_neg (not_lt.2 h2), if_pos h3]⟩
  have e3 : into .test = Set.Icc 0 v ×ˢ Set.Icc 0 t := by
    ext ⟨a, b⟩
    simp only [into, U, draw, Set.mem_inter_iff, Set.mem_prod, Set.mem_Icc, Set.mem_ofPred_eq, if_true, Nat.zero_add, one_ne_zero, if_false]
    constructor
    · rintro ⟨⟨⟨h1, h2⟩, h3, h4⟩, h5⟩
      by_cases hc : a > v
      · rw [if_pos hc] at h5; cases h5
      · rw [if_neg hc] at h5
        by_cases hd : b > t
        · rw [if_pos hd] at h5; cases h5
        · exact ⟨⟨h1, not_lt.1 hc⟩, h3, not_lt.1 hd⟩
    · rintro ⟨⟨h1, h2⟩, h3, h4⟩
      exact ⟨⟨⟨h1, by linarith⟩, h3, by linarith⟩, by rw [if_neg (not_lt.2 h2), if_neg (not_lt.2 h4)]⟩
  refine ⟨?_, ?_, ?_, ?_⟩
  · show μ (Set.Icc (0 : ℝ) 1 ×ˢ Set.Icc (0 : ℝ) 1) = 1
    rw [hμ, Real.volume_Icc]; simp
  · rw [e1, hμ, Real.volume_Ioc, Real.volume_Icc]; simp
  · rw [e2, hμ, Real.volume_Icc, Real.volume_Ioc, ← ENNReal.ofReal_mul (by linarith), sub_zero]
  · rw [e3, hμ, Real.volume_Icc, Real.volume_Icc, ← ENNReal.ofReal_mul (by linarith), sub_zero, sub_zero]

/-- **C182 (disagreement).** Two runs into one output directory with different draws can leave one piece in two folders: the second run does not remove what the first
wrote. -/
theorem C182_leak (enc : Name → Except Err T) (root f : Name) (x : T) (he : enc (join root f) = .ok x) (v t : ℝ) (r r' : ℕ → ℝ) (h0 : v < r 0) (h1 : r' 0 ≤ v) (h2 : r' 1 ≤ t)
    (o : Out T) :
    let o' := (prepCustom enc root v t r' [f] (prepCustom enc root v t r [f] o).2).2
    o' .train (stem f ++ suffix) = some x ∧ o' .test (stem f ++ suffix) = some x := by
  intro o'
  simp only [o', prepCustom, customLoop, he, draw, Nat.zero_add, gt_iff_lt, if_pos h0, if_neg (not_lt.2 h1), if_neg (not_lt.2 h2)]
  constructor <;> simp [put]

/-! ## Non-vacuity -/

/-- Two pieces of one name from different years replace each other; a third with an unknown split type ends the run. -/
example : ∃ o', After (fun _ _ => none) o' [(Split.train, "a.midi".toList ++ suffix, 13), (Split.train, "a.midi".toList ++ suffix, 14)] ∧
    prepMaestro (fun n : Name => .ok n.length) "m".toList (some [⟨"2004/a.midi".toList, "train"⟩, ⟨"20006/a.midi".toList, "train"⟩, ⟨"b".toList, "dev"⟩]) (fun _ _ => none) =
      (.ok false, o') := by
  obtain ⟨o', h1, _, h3, _⟩ := (C182_maestro (fun n : Name => .ok n.length) "m".toList (fun _ _ => none)).2
    [⟨"2004/a.midi".toList, "train"⟩, ⟨"20006/a.midi".toList, "train"⟩] [(Split.train, "a.midi".toList ++ suffix, 13), (Split.train, "a.midi".toList ++ suffix, 14)]
    (.cons ⟨rfl, rfl, rfl⟩ (.cons ⟨rfl, rfl, rfl⟩ .nil))
  exact ⟨o', h1, h3 ⟨"b".toList, "dev"⟩ [] rfl⟩

/-- `a.1.mid` and `a.2.mid` have one file name. -/
example : stem "a.1.mid".toList = stem "a.2.mid".toList := by decide

/-- With the default values two percent of the pieces are test pieces. -/
example : (0.1 : ℝ) * 0.2 = 0.02 ∧ (0.1 : ℝ) * (1 - 0.2) = 0.08 := by norm_num

/-- Draws as in `C182_leak`. -/
example : ∃ r r' : ℕ → ℝ, (0.1 : ℝ) < r 0 ∧ r' 0 ≤ 0.1 ∧ r' 1 ≤ 0.2 := ⟨fun _ => 1 / 2, fun _ => 0, by norm_num, by norm_num, by norm_num⟩

end Verif.Midi.Prep
