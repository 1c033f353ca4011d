import Mathlib.Tactic.NormNum
import Verif.Projection.ParseModel

/-!
# C81: which projection type strings are accepted, and with which multiplier
-/

namespace Verif.Projection

lemma splitU_ne_nil (s : List Char) : splitU s ≠ [] := by
  cases s with
  | nil => simp [splitU]
  | cons c s => unfold splitU; split_ifs <;> [simp; (split <;> simp)]

lemma splitU_length (s : List Char) : (splitU s).length = s.count '_' + 1 := by
  induction s with
  | nil => rfl
  | cons c s ih =>
    unfold splitU
    split_ifs with h
    · subst h; simp [ih]
    · rw [List.count_cons_of_ne h]
      cases hs : splitU s with
      | nil => exact absurd hs (splitU_ne_nil s)
      | cons w ws => rw [hs] at ih; simpa using ih

lemma splitU_single (a b : List Char) (ha : '_' ∉ a) (hb : '_' ∉ b) : splitU (a ++ '_' :: b) = [a, b] := by
  have hb' : ∀ b : List Char, '_' ∉ b → splitU b = [b] := by
    intro b hb
    induction b with
    | nil => rfl
    | cons c b ih =>
      simp only [List.mem_cons, not_or] at hb
      unfold splitU
      rw [if_neg (fun h => hb.1 h.symm), ih hb.2]
  induction a with
  | nil => simp [splitU, hb' b hb]
  | cons c a ih =>
    simp only [List.mem_cons, not_or] at ha
    rw [List.cons_append, splitU, if_neg (fun h => ha.1 h.symm), ih ha.2]

/-- **C81** (parsing). For every string:
* `"grass" ++ w ++ "_" ++ n` with no other underscore (so also e.g. `grassy_8`) means GraSS with multiplier `int(n)`, or `ValueError` if
  `n` is not an integer literal;
* a string starting with `grass` with two or more underscores (e.g. `grass_2_3`) silently means GraSS with multiplier 4;
* every other string is passed through unchanged. -/
theorem C81_parse (pyInt : List Char → Option ℤ) :
    (∀ w n : List Char, '_' ∉ w → '_' ∉ n → parseGrass pyInt ("grass".toList ++ w ++ '_' :: n) =
      match pyInt n with
      | some k => .ok ("grass".toList, k)
      | none => .error .valueError) ∧
    (∀ s : List Char, "grass".toList <+: s → 2 ≤ s.count '_' → parseGrass pyInt s = .ok ("grass".toList, 4)) ∧
    (∀ s : List Char, (¬ "grass".toList <+: s ∨ '_' ∉ s) → parseGrass pyInt s = .ok (s, 4)) := by
  have hg : "grass".toList = grassStr := by decide
  rw [hg]
  refine ⟨fun w n hw hn => ?_, fun s hs hc => ?_, fun s hs => ?_⟩
  · have h1 : '_' ∉ grassStr ++ w := by
      intro h
      rcases List.mem_append.1 h with h | h
      · exact absurd h (by decide)
      · exact hw h
    have h2 : grassStr.isPrefixOf (grassStr ++ w ++ '_' :: n) = true := by
      rw [List.isPrefixOf_iff_prefix, List.append_assoc]; exact List.prefix_append _ _
    have h3 : (grassStr ++ w ++ '_' :: n).contains '_' = true := by simp
    unfold parseGrass
    rw [h2, h3, splitU_single _ _ h1 hn]
    simp only [Bool.and_self, if_true, List.length_cons, List.length_nil, List.getD_cons_succ, List.getD_cons_zero]
    cases pyInt n <;> rfl
  · have h2 : grassStr.isPrefixOf s = true := List.isPrefixOf_iff_prefix.2 hs
    have h3 : s.contains '_' = true := by
      rw [List.contains_iff_mem]
      exact List.count_pos_iff.1 (by omega)
    unfold parseGrass
    rw [h2, h3]
    simp only [Bool.and_self, if_true, splitU_length]
    rw [if_neg (by omega)]
  · unfold parseGrass
    rw [if_neg]
    intro h
    rw [Bool.and_eq_true, List.isPrefixOf_iff_prefix, List.contains_iff_mem] at h
    rcases hs with hs | hs
    · exact hs h.1
    · exact hs h.2

/-- **C81** (acceptance). On CPU exactly the strings `rademacher`, `normal`, `random_mask`, `identity` are accepted; everything else,
including every GraSS string, is a `ValueError`; a device that is neither CPU nor CUDA is always a `ValueError`. -/
theorem C81_cpu (pyInt : List Char → Option ℤ) (s : List Char) :
    ((∃ r, checkType pyInt .cpu s = .ok r) ↔
      s = "rademacher".toList ∨ s = "normal".toList ∨ s = "random_mask".toList ∨ s = "identity".toList) ∧
    (∀ e, checkType pyInt .cpu s = .error e → e = .valueError) ∧ checkType pyInt .other s = .error .valueError := by
  have hcases : parseGrass pyInt s = .error .valueError ∨ (∃ k, parseGrass pyInt s = .ok (grassStr, k) ∧ grassStr <+: s) ∨
      (parseGrass pyInt s = .ok (s, 4)) := by
    unfold parseGrass
    split_ifs with h
    · rw [Bool.and_eq_true, List.isPrefixOf_iff_prefix] at h
      simp only []
      split_ifs with h2
      · cases pyInt ((splitU s).getD 1 []) with
        | none => left; rfl
        | some k => right; left; exact ⟨k, rfl, h.1⟩
      · right; left; exact ⟨4, rfl, h.1⟩
    · right; right; rfl
  have hk : kindOf grassStr = some .grass := by decide
  have hnot : grassStr <+: s → ¬ (s = "rademacher".toList ∨ s = "normal".toList ∨ s = "random_mask".toList ∨ s = "identity".toList) := by
    rintro hpre (rfl | rfl | rfl | rfl)
    all_goals exact absurd hpre (by decide)
  have hparse_err : parseGrass pyInt s = .error .valueError → grassStr <+: s := by
    intro h
    unfold parseGrass at h
    split_ifs at h with h1
    · rw [Bool.and_eq_true, List.isPrefixOf_iff_prefix] at h1; exact h1.1
  refine ⟨?_, ?_, ?_⟩
  · rcases hcases with h | ⟨k, h, hpre⟩ | h
    · refine iff_of_false ?_ (hnot (hparse_err h))
      simp [checkType, h, bind, Except.bind]
    · refine iff_of_false ?_ (hnot hpre)
      simp [checkType, h, bind, Except.bind, hk, validOn]
    · simp only [checkType, h, bind, Except.bind, reduceCtorEq, if_false]
      unfold kindOf
      by_cases a1 : s = "identity".toList
      · subst a1; simp [validOn, pure, Except.pure]
      by_cases a2 : s = "rademacher".toList
      · subst a2; simp [validOn, pure, Except.pure]
      by_cases a3 : s = "normal".toList
      · subst a3; simp [validOn, pure, Except.pure]
      by_cases a4 : s = "random_mask".toList
      · subst a4; simp [validOn, pure, Except.pure]
      by_cases a5 : s = "sjlt".toList
      · subst a5; simp [validOn]
      by_cases a6 : s = "grass".toList
      · subst a6; simp [validOn]
      · simp only [a1, a2, a3, a4, a5, a6, if_false]
        simp
  · intro e he
    rcases hcases with h | ⟨k, h, hpre⟩ | h
    · simp only [checkType, h, bind, Except.bind] at he
      injection he with he; exact he.symm
    · simp [checkType, h, bind, Except.bind, hk, validOn] at he; exact he.symm
    · simp only [checkType, h, bind, Except.bind, reduceCtorEq, if_false] at he
      split at he
      · injection he with he; exact he.symm
      · split_ifs at he
        · cases he
        · injection he with he; exact he.symm
  · rcases hcases with h | ⟨k, h, hpre⟩ | h <;> simp [checkType, h, bind, Except.bind]

/-- **C81** (CUDA). A string is accepted on CUDA iff it is one of the six names, or starts with `grass`, contains an underscore and either
has at least two underscores or its suffix is an integer literal; the GraSS strings give multiplier as in `C81_parse`. -/
theorem C81_cuda (pyInt : List Char → Option ℤ) (s : List Char) :
    (∃ r, checkType pyInt .cuda s = .ok r) ↔
      (s = "rademacher".toList ∨ s = "normal".toList ∨ s = "random_mask".toList ∨ s = "identity".toList ∨ s = "sjlt".toList ∨
        s = "grass".toList) ∨
      ("grass".toList <+: s ∧ 2 ≤ s.count '_') ∨
      (∃ w n k, s = "grass".toList ++ w ++ '_' :: n ∧ '_' ∉ w ∧ '_' ∉ n ∧ pyInt n = some k) := by
  have hg : "grass".toList = grassStr := by decide
  have hk : kindOf "grass".toList = some .grass := by decide
  have hP := C81_parse pyInt
  by_cases hpre : "grass".toList <+: s ∧ '_' ∈ s
  · obtain ⟨hpre, hu⟩ := hpre
    have hnames : ¬ (s = "rademacher".toList ∨ s = "normal".toList ∨ s = "random_mask".toList ∨ s = "identity".toList ∨
        s = "sjlt".toList ∨ s = "grass".toList) := by
      rintro (rfl | rfl | rfl | rfl | rfl | rfl)
      · exact absurd hpre (by decide)
      · exact absurd hpre (by decide)
      · exact absurd hpre (by decide)
      · exact absurd hpre (by decide)
      · exact absurd hpre (by decide)
      · exact absurd hu (by decide)
    by_cases hc : 2 ≤ s.count '_'
    · refine iff_of_true ⟨(.grass, 4), ?_⟩ (Or.inr (Or.inl ⟨hpre, hc⟩))
      simp only [checkType, hP.2.1 s hpre hc, bind, Except.bind, hk]
      rfl
    · obtain ⟨t, rfl⟩ := hpre
      have hut : '_' ∈ t := by
        rcases List.mem_append.1 hu with h | h
        · exact absurd h (by decide)
        · exact h
      obtain ⟨w, n, rfl, hw⟩ := List.eq_append_cons_of_mem hut
      have hn : '_' ∉ n := by
        intro h
        have := List.count_pos_iff.2 h
        simp only [List.count_append, List.count_cons_self] at hc
        omega
      rw [← List.append_assoc] at hnames hc ⊢
      have hp := hP.1 w n hw hn
      cases hi : pyInt n with
      | some k =>
        rw [hi] at hp
        refine iff_of_true ⟨(.grass, k), ?_⟩ (Or.inr (Or.inr ⟨w, n, k, rfl, hw, hn, hi⟩))
        simp only [checkType, hp, bind, Except.bind, hk]
        rfl
      | none =>
        rw [hi] at hp
        refine iff_of_false ?_ ?_
        · rintro ⟨r, hr⟩
          simp only [checkType, hp, bind, Except.bind] at hr
          cases hr
        · rintro (h | h | ⟨w', n', k, he, hw', hn', hk'⟩)
          · exact hnames h
          · exact hc h.2
          · have e1 := splitU_single ("grass".toList ++ w) n (by
              intro h; rcases List.mem_append.1 h with h | h
              · exact absurd h (by decide)
              · exact hw h) hn
            have e2 := splitU_single ("grass".toList ++ w') n' (by
              intro h; rcases List.mem_append.1 h with h | h
              · exact absurd h (by decide)
              · exact hw' h) hn'
            rw [he, e2] at e1
            simp only [List.cons.injEq, and_true] at e1
            rw [e1.2, hi] at hk'
            cases hk'
  · have hpre' : ¬ "grass".toList <+: s ∨ '_' ∉ s := by
      by_contra h; push Not at h; exact hpre h
    have hp := hP.2.2 s hpre'
    have hrest : ¬ (("grass".toList <+: s ∧ 2 ≤ s.count '_') ∨
      (∃ w n k, s = "grass".toList ++ w ++ '_' :: n ∧ '_' ∉ w ∧ '_' ∉ n ∧ pyInt n = some k)) := by
      rintro (h | ⟨w, n, k, rfl, -, -, -⟩)
      · exact hpre ⟨h.1, List.count_pos_iff.1 (by omega)⟩
      · refine hpre ⟨?_, by simp⟩
        rw [List.append_assoc]; exact List.prefix_append _ _
    rw [or_iff_left hrest]
    simp only [checkType, hp, bind, Except.bind, reduceCtorEq, if_false]
    unfold kindOf
    by_cases a1 : s = "identity".toList
    · subst a1; simp [validOn, pure, Except.pure]
    by_cases a2 : s = "rademacher".toList
    · subst a2; simp [validOn, pure, Except.pure]
    by_cases a3 : s = "normal".toList
    · subst a3; simp [validOn, pure, Except.pure]
    by_cases a4 : s = "random_mask".toList
    · subst a4; simp [validOn, pure, Except.pure]
    by_cases a5 : s = "sjlt".toList
    · subst a5; simp [validOn, pure, Except.pure]
    by_cases a6 : s = "grass".toList
    · subst a6; simp [validOn, pure, Except.pure]
    · simp only [a1, a2, a3, a4, a5, a6, if_false]
      simp

/-- **C81** (meaning of an accepted string). An accepted string selects the type it names, with the default multiplier 4, or GraSS if it starts
with `grass`; on the CPU as on CUDA. -/
theorem C81_selected (pyInt : List Char → Option ℤ) (dev : Dev) (s : List Char) (k : Kind) (m : ℤ)
    (h : checkType pyInt dev s = .ok (k, m)) :
    (s = "identity".toList ∧ k = .identity ∧ m = 4) ∨ (s = "rademacher".toList ∧ k = .rademacher ∧ m = 4) ∨
      (s = "normal".toList ∧ k = .normal ∧ m = 4) ∨ (s = "random_mask".toList ∧ k = .randomMask ∧ m = 4) ∨
      (s = "sjlt".toList ∧ k = .sjlt ∧ m = 4) ∨
      ("grass".toList <+: s ∧ k = .grass ∧ parseGrass pyInt s = .ok ("grass".toList, m)) := by
  have hcases : parseGrass pyInt s = .error .valueError ∨ (∃ j, parseGrass pyInt s = .ok (grassStr, j) ∧ grassStr <+: s) ∨
      (parseGrass pyInt s = .ok (s, 4)) := by
    unfold parseGrass
    split_ifs with h
    · rw [Bool.and_eq_true, List.isPrefixOf_iff_prefix] at h
      simp only []
      split_ifs with h2
      · cases pyInt ((splitU s).getD 1 []) with
        | none => left; rfl
        | some k => right; left; exact ⟨k, rfl, h.1⟩
      · right; left; exact ⟨4, rfl, h.1⟩
    · right; right; rfl
  have hg : kindOf grassStr = some .grass := by decide
  rcases hcases with hp | ⟨j, hp, hpre⟩ | hp
  · simp [checkType, hp, bind, Except.bind] at h
  · simp only [checkType, hp, bind, Except.bind, hg, pure, Except.pure] at h
    split_ifs at h
    injection h with h
    injection h with h1 h2
    subst h1; subst h2
    exact Or.inr (Or.inr (Or.inr (Or.inr (Or.inr ⟨hpre, rfl, hp⟩))))
  · simp only [checkType, hp, bind, Except.bind, pure, Except.pure] at h
    split_ifs at h
    split at h
    · cases h
    · rename_i k' hk
      split_ifs at h
      injection h with h
      injection h with h1 h2
      subst h1; subst h2
      unfold kindOf at hk
      split_ifs at hk with a1 a2 a3 a4 a5 a6 <;> injection hk with hk <;> subst hk
      · exact Or.inl ⟨a1, rfl, rfl⟩
      · exact Or.inr (Or.inl ⟨a2, rfl, rfl⟩)
      · exact Or.inr (Or.inr (Or.inl ⟨a3, rfl, rfl⟩))
      · exact Or.inr (Or.inr (Or.inr (Or.inl ⟨a4, rfl, rfl⟩)))
      · exact Or.inr (Or.inr (Or.inr (Or.inr (Or.inl ⟨a5, rfl, rfl⟩))))
      · refine Or.inr (Or.inr (Or.inr (Or.inr (Or.inr ⟨?_, rfl, ?_⟩))))
        · rw [a6]
        · rw [hp, a6]

/-- **C81** (non-string). A non-string projection type never works: `UnboundLocalError` on CPU and CUDA, `ValueError` elsewhere. -/
theorem C81_enum_raises (pyInt : List Char → Option ℤ) (dev : Dev) :
    checkArg pyInt dev .nonStr = .error (if dev = .other then .valueError else .unboundLocalError) := by
  cases dev <;> rfl

/-- A decimal parser for examples. -/
def digits (s : List Char) : Option ℤ :=
  if s ≠ [] ∧ s.all Char.isDigit then some (s.foldl (fun a c => a * 10 + (c.toNat - 48 : ℤ)) 0) else none

example : parseGrass digits "grass_16".toList = .ok ("grass".toList, 16) := by decide
example : parseGrass digits "grassland_16".toList = .ok ("grass".toList, 16) := by decide
example : parseGrass digits "grass_2_3".toList = .ok ("grass".toList, 4) := by decide
example : parseGrass digits "grass_x".toList = .error .valueError := by decide
example : checkType digits .cuda "grass_8".toList = .ok (.grass, 8) := by decide
example : checkType digits .cpu "normal".toList = .ok (.normal, 4) := by decide

end Verif.Projection
