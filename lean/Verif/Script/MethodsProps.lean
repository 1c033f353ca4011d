import Verif.Script.MethodsModel
import Verif.TRAK.Model
import Verif.TracIn.Model
import Mathlib.Data.Nat.Digits.Defs
import Mathlib.Data.Finset.Card
import Mathlib.Data.Finset.Dedup
import Mathlib.Data.List.Induction
import Mathlib.Tactic.IntervalCases
import Mathlib.Tactic.Ring

/-!
# C214: what the method names of the experiment scripts stand for
-/

namespace Verif.Methods

/-! ## Strings -/

theorem splitDash_ne (s : Str) : splitDash s ≠ [] := by
  induction s with
  | nil => simp [splitDash]
  | cons c s ih =>
    unfold splitDash
    split_ifs
    · simp
    · split <;> simp

theorem splitDash_no (s : Str) (h : '-' ∉ s) : splitDash s = [s] := by
  induction s with
  | nil => rfl
  | cons c s ih =>
    simp only [List.mem_cons, not_or] at h
    unfold splitDash
    rw [if_neg (fun e => h.1 e.symm), ih h.2]

theorem splitDash_single (s p : Str) (h : splitDash s = [p]) : s = p ∧ '-' ∉ s := by
  induction s generalizing p with
  | nil => simp [splitDash] at h; simp [h]
  | cons c s ih =>
    unfold splitDash at h
    by_cases hc : c = '-'
    · rw [if_pos hc] at h
      have := splitDash_ne s
      simp at h
      exact absurd h.2 this
    · rw [if_neg hc] at h
      cases hs : splitDash s with
      | nil => exact absurd hs (splitDash_ne s)
      | cons q qs =>
        rw [hs] at h
        simp only [List.cons.injEq] at h
        obtain ⟨rfl, rfl⟩ := h
        obtain ⟨h1, h2⟩ := ih q hs
        exact ⟨by rw [h1], by simp only [List.mem_cons, not_or]; exact ⟨fun e => hc e.symm, h2⟩⟩

theorem splitDash_append (a s : Str) (h : '-' ∉ a) : splitDash (a ++ '-' :: s) = a :: splitDash s := by
  induction a with
  | nil => simp [splitDash]
  | cons c a ih =>
    simp only [List.mem_cons, not_or] at h
    rw [List.cons_append]
    conv_lhs => unfold splitDash
    rw [if_neg (fun e => h.1 e.symm), ih h.2]

theorem foldl_digits (ks : List ℕ) : ∀ n0, ks.foldl (fun n k => 10 * n + k) n0 = 10 ^ ks.length * n0 + Nat.ofDigits 10 ks.reverse := by
  induction ks with
  | nil => intro n0; simp
  | cons k ks ih =>
    intro n0
    rw [List.foldl_cons, ih, List.reverse_cons, Nat.ofDigits_append, List.length_reverse, Nat.ofDigits_singleton, List.length_cons, pow_succ]
    ring

theorem int_ok (D : Digits) (s : Str) : ∀ n0 n, (s.foldlM (fun (n : ℕ) c => match D.value c with
      | some k => (Except.ok (10 * n + k) : Except Stop ℕ)
      | none => .error .valueError) n0 = .ok n) ↔ ∃ ks : List ℕ, s.map D.value = ks.map some ∧ n = ks.foldl (fun n k => 10 * n + k) n0 := by
  induction s with
  | nil =>
    intro n0 n
    simp only [List.foldlM_nil, pure, Except.pure, Except.ok.injEq, List.map_nil]
    constructor
    · rintro rfl; exact ⟨[], rfl, rfl⟩
    · rintro ⟨ks, h, rfl⟩
      rw [List.map_eq_nil_iff.1 h.symm]; rfl
  | cons c s ih =>
    intro n0 n
    rw [List.foldlM_cons]
    cases hv : D.value c with
    | none =>
      constructor
      · intro h; exact absurd h (by simp [bind, Except.bind])
      · rintro ⟨ks, h, _⟩
        cases ks with
        | nil => simp at h
        | cons k ks => simp [hv] at h
    | some k =>
      simp only [bind, Except.bind]
      rw [ih]
      constructor
      · rintro ⟨ks, h, rfl⟩
        exact ⟨k :: ks, by simp [h, hv], rfl⟩
      · rintro ⟨ks, h, rfl⟩
        cases ks with
        | nil => simp at h
        | cons k' ks =>
          simp only [List.map_cons, hv, List.cons.injEq, Option.some.injEq] at h
          obtain ⟨rfl, h⟩ := h
          exact ⟨ks, h, rfl⟩

theorem int_error (D : Digits) (s : Str) : ∀ n0 e, (s.foldlM (fun (n : ℕ) c => match D.value c with
      | some k => (Except.ok (10 * n + k) : Except Stop ℕ)
      | none => .error .valueError) n0 = .error e) → e = .valueError := by
  induction s with
  | nil => intro n0 e h; simp [pure, Except.pure] at h
  | cons c s ih =>
    intro n0 e h
    rw [List.foldlM_cons] at h
    cases hv : D.value c with
    | none => rw [hv] at h; simp [bind, Except.bind] at h; exact h.symm
    | some k => rw [hv] at h; exact ih _ _ h

theorem toDigits_values (D : Digits) (n : ℕ) : (∀ c ∈ Nat.toDigits 10 n, D.isDigit c = true) ∧
    ∃ ks : List ℕ, (Nat.toDigits 10 n).map D.value = ks.map some ∧ Nat.ofDigits 10 ks.reverse = n := by
  induction n using Nat.strong_induction_on with
  | _ n ih =>
    by_cases hn : n < 10
    · rw [Nat.toDigits_of_lt_base hn]
      refine ⟨?_, [n], ?_, ?_⟩
      · intro c hc
        rw [List.mem_singleton] at hc
        rw [hc]; exact (D.ascii n hn).1
      · simp [(D.ascii n hn).2]
      · simp
    · rw [Nat.toDigits_of_base_le (by omega) (by omega)]
      obtain ⟨h1, ks, h2, h3⟩ := ih (n / 10) (by omega)
      have hm : n % 10 < 10 := by omega
      refine ⟨?_, ks ++ [n % 10], ?_, ?_⟩
      · intro c hc
        rw [List.mem_append, List.mem_singleton] at hc
        rcases hc with hc | rfl
        · exact h1 c hc
        · exact (D.ascii _ hm).1
      · simp [h2, (D.ascii _ hm).2]
      · rw [List.reverse_append, List.reverse_singleton, List.singleton_append, Nat.ofDigits_cons, h3]
        omega

theorem toDigits_inj (a b : ℕ) (h : Nat.toDigits 10 a = Nat.toDigits 10 b) : a = b := by
  rw [← Nat.ofDigitChars_ten_toDigits (n := a), h, Nat.ofDigitChars_ten_toDigits]

/-! ## The scoring scripts for WikiText-2 -/

/-- A method name that asks for TRAK with `n` checkpoints: `TRAK-`, then digits whose decimal value is `n`. -/
def asksTrak (D : Digits) (m : Str) (n : ℕ) : Prop :=
  ∃ (ds : Str) (ks : List ℕ), m = "TRAK-".toList ++ ds ∧ ds ≠ [] ∧ (∀ c ∈ ds, D.isDigit c = true) ∧ ds.map D.value = ks.map some ∧
    n = Nat.ofDigits 10 ks.reverse

def family : List Str := ["TracIn".toList, "Grad-Dot".toList, "Grad-Cos".toList]

theorem prefix_dash (m : Str) (h : "TRAK-".toList.isPrefixOf m = true) : ∃ s, m = "TRAK-".toList ++ s ∧ splitDash m = "TRAK".toList :: splitDash s ∧
    "TRAK".toList.isPrefixOf m = true := by
  obtain ⟨s, rfl⟩ := List.isPrefixOf_iff_prefix.1 h
  refine ⟨s, rfl, ?_, ?_⟩
  · exact splitDash_append "TRAK".toList s (by decide)
  · exact List.isPrefixOf_iff_prefix.2 ⟨'-' :: s, rfl⟩

theorem scoreTRAK_dash (D : Digits) (dir s : Str) : scoreTRAK D dir ("TRAK-".toList ++ s) =
    if '-' ∉ s ∧ D.isdigit s = true then (D.int s).map fun n => .trak ((List.range n).map (path dir)) else .error .valueError := by
  have hp : "TRAK-".toList.isPrefixOf ("TRAK-".toList ++ s) = true := List.isPrefixOf_iff_prefix.2 ⟨s, rfl⟩
  have hp2 : "TRAK".toList.isPrefixOf ("TRAK-".toList ++ s) = true := List.isPrefixOf_iff_prefix.2 ⟨'-' :: s, rfl⟩
  have hs : splitDash ("TRAK-".toList ++ s) = "TRAK".toList :: splitDash s := splitDash_append "TRAK".toList s (by decide)
  unfold scoreTRAK
  rw [if_pos hp, hs]
  simp only [hp2, if_true]
  by_cases hd : '-' ∈ s
  · rw [if_neg (fun h => h.1 hd)]
    cases hq : splitDash s with
    | nil => exact absurd hq (splitDash_ne s)
    | cons p ps =>
      cases ps with
      | nil =>
        exact absurd hd (splitDash_single s p hq).2
      | cons q qs => rfl
  · rw [splitDash_no s hd]
    by_cases hi : D.isdigit s = true
    · rw [if_pos ⟨hd, hi⟩]
      simp only [hi, if_true]
      cases D.int s <;> rfl
    · rw [if_neg (fun h => hi h.2)]
      simp only [hi]
      rfl

theorem isdigit_iff (D : Digits) (s : Str) : D.isdigit s = true ↔ s ≠ [] ∧ ∀ c ∈ s, D.isDigit c = true := by
  unfold Digits.isdigit
  cases s <;> simp

theorem digits_no_dash (D : Digits) (s : Str) (h : ∀ c ∈ s, D.isDigit c = true) : '-' ∉ s := by
  intro hm
  have := h _ hm
  rw [D.dash] at this
  exact Bool.noConfusion this

theorem scoreTRAK_other (D : Digits) (dir m : Str) (h : ∀ s, m ≠ "TRAK-".toList ++ s) : scoreTRAK D dir m =
    if m ∈ family then .ok (.tracin ((List.range 5).map (path dir)) (List.replicate 5 (1 / 1000)) (decide (m = "Grad-Cos".toList)))
    else .error .valueError := by
  have hp : ¬"TRAK-".toList.isPrefixOf m = true := fun hp => by
    obtain ⟨s, hs⟩ := List.isPrefixOf_iff_prefix.1 hp
    exact h s hs.symm
  unfold scoreTRAK
  rw [if_neg hp]
  by_cases hf : m ∈ family
  · rw [if_pos hf]
    simp only [family, List.mem_cons, List.not_mem_nil, or_false] at hf
    have hp2 : "TRAK".toList.isPrefixOf m = false := by
      rcases hf with rfl | rfl | rfl <;> rfl
    rw [if_pos hf]
    simp only [hp2]
    rfl
  · rw [if_neg hf]
    simp only [family, List.mem_cons, List.not_mem_nil, or_false] at hf
    rw [if_neg hf]
    rfl

/-- **C214.** `score_TRAK.py` runs TRAK exactly for `TRAK-` followed by digits, with the checkpoints `output_dir/0`, …, one for each number below the
decimal value of the digits. -/
theorem C214_trak (D : Digits) (dir m : Str) (cks : List Str) :
    scoreTRAK D dir m = .ok (.trak cks) ↔ ∃ n, asksTrak D m n ∧ cks = (List.range n).map (path dir) := by
  by_cases hm : ∃ s, m = "TRAK-".toList ++ s
  · obtain ⟨s, rfl⟩ := hm
    rw [scoreTRAK_dash]
    constructor
    · intro h
      split_ifs at h with hc
      cases hi : D.int s with
      | error e => rw [hi] at h; simp [Except.map] at h
      | ok n =>
        rw [hi] at h
        simp only [Except.map, Except.ok.injEq, Plan.trak.injEq] at h
        obtain ⟨ks, h1, h2⟩ := (int_ok D s 0 n).1 hi
        rw [foldl_digits, Nat.mul_zero, Nat.zero_add] at h2
        have hd := (isdigit_iff D s).1 hc.2
        exact ⟨n, ⟨s, ks, rfl, hd.1, hd.2, h1, h2⟩, h.symm⟩
    · rintro ⟨n, ⟨ds, ks, h0, h1, h2, h3, h4⟩, rfl⟩
      obtain rfl := List.append_cancel_left h0
      rw [if_pos ⟨digits_no_dash D s h2, (isdigit_iff D s).2 ⟨h1, h2⟩⟩]
      have : D.int s = .ok n := by
        refine (int_ok D s 0 n).2 ⟨ks, h3, ?_⟩
        rw [foldl_digits, Nat.mul_zero, Nat.zero_add, h4]
      rw [this]
      rfl
  · have h : ∀ s, m ≠ "TRAK-".toList ++ s := fun s hs => hm ⟨s, hs⟩
    rw [scoreTRAK_other D dir m h]
    constructor
    · intro h'
      split_ifs at h'
      simp at h'
    · rintro ⟨n, ⟨ds, _, h0, _⟩, _⟩
      exact absurd h0 (h ds)

/-- **C214.** Every number of checkpoints can be asked for, written as usual. -/
theorem C214_trak_number (D : Digits) (dir : Str) (n : ℕ) :
    scoreTRAK D dir ("TRAK-".toList ++ Nat.toDigits 10 n) = .ok (.trak ((List.range n).map (path dir))) := by
  rw [C214_trak]
  obtain ⟨h1, ks, h2, h3⟩ := toDigits_values D n
  exact ⟨n, ⟨_, ks, rfl, Nat.toDigits_ne_nil, h1, h2, h3.symm⟩, rfl⟩

/-- **C214.** The three other names: five checkpoints with weight 0.001 each; `TracIn` and `Grad-Dot` are the same run, `Grad-Cos` has normalised
gradients. -/
theorem C214_tracin (D : Digits) (dir m : Str) (cks : List Str) (w : List ℚ) (nrm : Bool) :
    scoreTRAK D dir m = .ok (.tracin cks w nrm) ↔
      (m = "TracIn".toList ∨ m = "Grad-Dot".toList) ∧ nrm = false ∧ cks = (List.range 5).map (path dir) ∧ w = [1 / 1000, 1 / 1000, 1 / 1000, 1 / 1000, 1 / 1000] ∨
      m = "Grad-Cos".toList ∧ nrm = true ∧ cks = (List.range 5).map (path dir) ∧ w = [1 / 1000, 1 / 1000, 1 / 1000, 1 / 1000, 1 / 1000] := by
  by_cases hm : ∃ s, m = "TRAK-".toList ++ s
  · obtain ⟨s, rfl⟩ := hm
    rw [scoreTRAK_dash]
    constructor
    · intro h
      split_ifs at h with hc
      cases hi : D.int s with
      | error e => rw [hi] at h; simp [Except.map] at h
      | ok n => rw [hi] at h; simp [Except.map] at h
    · rintro (⟨h | h, _⟩ | ⟨h, _⟩) <;> exact absurd (congrArg (fun l => l.take 2) h) (by simp)
  · have h : ∀ s, m ≠ "TRAK-".toList ++ s := fun s hs => hm ⟨s, hs⟩
    rw [scoreTRAK_other D dir m h]
    by_cases hf : m ∈ family
    · rw [if_pos hf]
      simp only [Except.ok.injEq, Plan.tracin.injEq]
      have hw : List.replicate 5 (1 / 1000 : ℚ) = [1 / 1000, 1 / 1000, 1 / 1000, 1 / 1000, 1 / 1000] := rfl
      rw [hw]
      simp only [family, List.mem_cons, List.not_mem_nil, or_false] at hf
      by_cases hg : m = "Grad-Cos".toList
      · subst hg
        have : ¬("Grad-Cos".toList = "TracIn".toList ∨ "Grad-Cos".toList = "Grad-Dot".toList) := by decide
        constructor
        · rintro ⟨rfl, rfl, rfl⟩
          exact Or.inr ⟨rfl, rfl, rfl, rfl⟩
        · rintro (⟨h1, _⟩ | ⟨_, rfl, rfl, rfl⟩)
          · exact absurd h1 this
          · exact ⟨rfl, rfl, rfl⟩
      · have hf' : m = "TracIn".toList ∨ m = "Grad-Dot".toList := by
          rcases hf with h | h | h
          · exact Or.inl h
          · exact Or.inr h
          · exact absurd h hg
        rw [decide_eq_false hg]
        constructor
        · rintro ⟨rfl, rfl, rfl⟩
          exact Or.inl ⟨hf', rfl, rfl, rfl⟩
        · rintro (⟨_, rfl, rfl, rfl⟩ | ⟨h1, _⟩)
          · exact ⟨rfl, rfl, rfl⟩
          · exact absurd h1 hg
    · rw [if_neg hf]
      constructor
      · intro h'; simp at h'
      · intro h'
        refine absurd ?_ hf
        simp only [family, List.mem_cons, List.not_mem_nil, or_false]
        rcases h' with ⟨h1 | h1, _⟩ | ⟨h1, _⟩
        · exact Or.inl h1
        · exact Or.inr (Or.inl h1)
        · exact Or.inr (Or.inr h1)

/-- **C214.** All other names end with `ValueError`. -/
theorem C214_unknown (D : Digits) (dir m : Str) :
    scoreTRAK D dir m = .error .valueError ↔ (∀ n, ¬asksTrak D m n) ∧ m ∉ family := by
  constructor
  · intro h
    refine ⟨fun n hn => ?_, fun hf => ?_⟩
    · have := (C214_trak D dir m _).2 ⟨n, hn, rfl⟩
      rw [h] at this
      exact Except.noConfusion rfl rfl (heq_of_eq this)
    · have hd : ∀ s, m ≠ "TRAK-".toList ++ s := by
        rintro s rfl
        simp only [family, List.mem_cons, List.not_mem_nil, or_false] at hf
        rcases hf with h | h | h <;> exact absurd (congrArg (fun l => l.take 2) h) (by simp)
      rw [scoreTRAK_other D dir m hd, if_pos hf] at h
      exact Except.noConfusion rfl rfl (heq_of_eq h)
  · rintro ⟨h1, h2⟩
    by_cases hm : ∃ s, m = "TRAK-".toList ++ s
    · obtain ⟨s, rfl⟩ := hm
      cases hr : scoreTRAK D dir ("TRAK-".toList ++ s) with
      | error e =>
        rw [scoreTRAK_dash] at hr
        split_ifs at hr with hc
        · cases hi : D.int s with
          | error e' =>
            rw [hi] at hr
            simp only [Except.map, Except.error.injEq] at hr
            rw [← hr, int_error D s 0 e' hi]
          | ok n => rw [hi] at hr; simp [Except.map] at hr
        · rw [← hr]
      | ok p =>
        have hr' := hr
        rw [scoreTRAK_dash] at hr
        split_ifs at hr with hc
        cases hi : D.int s with
        | error e' => rw [hi] at hr; simp [Except.map] at hr
        | ok n =>
          rw [hi] at hr
          simp only [Except.map, Except.ok.injEq] at hr
          rw [← hr] at hr'
          obtain ⟨k, hk, _⟩ := (C214_trak D dir _ _).1 hr'
          exact absurd hk (h1 k)
    · rw [scoreTRAK_other D dir m (fun s hs => hm ⟨s, hs⟩), if_neg h2]

theorem path_inj (dir : Str) (i j : ℕ) : path dir i = path dir j ↔ i = j := by
  constructor
  · intro h
    have h := List.append_cancel_left h
    simp only [List.cons.injEq, true_and] at h
    exact toDigits_inj i j h
  · rintro rfl; rfl

/-- **C214.** The directory of a number is its decimal form below the output directory; different numbers are different directories. -/
theorem C214_paths (dir : String) (i j : ℕ) : path dir.toList i = (dir ++ "/" ++ toString i).toList ∧ (path dir.toList i = path dir.toList j ↔ i = j) := by
  refine ⟨?_, path_inj dir.toList i j⟩
  simp [path]

/-- **C214.** `score_IF.py`: three names, always the checkpoints `10` to `14`; none of these is used by `score_TRAK.py` with the other methods, nor by TRAK with at most ten checkpoints. -/
theorem C214_if (dir m : Str) (p : Plan Str) : scoreIF dir m = .ok p ↔
    ∃ s, p = .influence s [path dir 10, path dir 11, path dir 12, path dir 13, path dir 14] ∧
      (m, s) ∈ [("IFAttributorExplicit".toList, "explicit".toList), ("IFAttributorCG".toList, "cg".toList), ("IFAttributorLiSSA".toList, "lissa".toList)] := by
  have hr : (List.range 5).map (fun i : ℕ => path dir (i + 10)) = [path dir 10, path dir 11, path dir 12, path dir 13, path dir 14] := rfl
  unfold scoreIF
  simp only [hr, List.mem_cons, Prod.mk.injEq, List.not_mem_nil, or_false]
  by_cases h1 : m = "IFAttributorExplicit".toList
  · rw [if_pos h1]
    subst h1
    constructor
    · intro h; exact ⟨_, (Except.ok.inj h).symm, Or.inl ⟨rfl, rfl⟩⟩
    · rintro ⟨s, rfl, ⟨_, rfl⟩ | ⟨h, _⟩ | ⟨h, _⟩⟩
      · rfl
      · exact absurd h (by decide)
      · exact absurd h (by decide)
  rw [if_neg h1]
  by_cases h2 : m = "IFAttributorCG".toList
  · rw [if_pos h2]
    subst h2
    constructor
    · intro h; exact ⟨_, (Except.ok.inj h).symm, Or.inr (Or.inl ⟨rfl, rfl⟩)⟩
    · rintro ⟨s, rfl, ⟨h, _⟩ | ⟨_, rfl⟩ | ⟨h, _⟩⟩
      · exact absurd h (by decide)
      · rfl
      · exact absurd h (by decide)
  rw [if_neg h2]
  by_cases h3 : m = "IFAttributorLiSSA".toList
  · rw [if_pos h3]
    subst h3
    constructor
    · intro h; exact ⟨_, (Except.ok.inj h).symm, Or.inr (Or.inr ⟨rfl, rfl⟩)⟩
    · rintro ⟨s, rfl, ⟨h, _⟩ | ⟨h, _⟩ | ⟨_, rfl⟩⟩
      · exact absurd h (by decide)
      · exact absurd h (by decide)
      · rfl
  rw [if_neg h3]
  constructor
  · intro h; exact Except.noConfusion rfl rfl (heq_of_eq h)
  · rintro ⟨s, _, ⟨h, _⟩ | ⟨h, _⟩ | ⟨h, _⟩⟩
    · exact absurd h h1
    · exact absurd h h2
    · exact absurd h h3

/-- The checkpoints of a plan. -/
def Plan.ckpts {C : Type} : Plan C → List C
  | .trak c => c
  | .tracin c _ _ => c
  | .influence _ c => c
  | .rps c => c

/-- **C214.** A run of `score_IF.py` and a run of `score_TRAK.py` have a checkpoint in common only if the latter is TRAK with more than ten. -/
theorem C214_disjoint (D : Digits) (dir m m' : Str) (p q : Plan Str) (hp : scoreIF dir m = .ok p) (hq : scoreTRAK D dir m' = .ok q)
    (x : Str) (h1 : x ∈ p.ckpts) (h2 : x ∈ q.ckpts) : ∃ n, 10 < n ∧ asksTrak D m' n := by
  obtain ⟨s, rfl, _⟩ := (C214_if dir m p).1 hp
  have hx : ∃ i, 10 ≤ i ∧ x = path dir i := by
    simp only [Plan.ckpts, List.mem_cons, List.not_mem_nil, or_false] at h1
    rcases h1 with h | h | h | h | h
    · exact ⟨10, by omega, h⟩
    · exact ⟨11, by omega, h⟩
    · exact ⟨12, by omega, h⟩
    · exact ⟨13, by omega, h⟩
    · exact ⟨14, by omega, h⟩
  obtain ⟨i, hi, rfl⟩ := hx
  cases q with
  | trak cks =>
    obtain ⟨n, hn, rfl⟩ := (C214_trak D dir m' cks).1 hq
    simp only [Plan.ckpts, List.mem_map, List.mem_range] at h2
    obtain ⟨j, hj, hj'⟩ := h2
    have := (path_inj dir j i).1 hj'
    exact ⟨n, by omega, hn⟩
  | tracin cks w nrm =>
    have hc : cks = (List.range 5).map (path dir) := by
      rcases (C214_tracin D dir m' cks w nrm).1 hq with ⟨_, _, h, _⟩ | ⟨_, _, h, _⟩ <;> exact h
    subst hc
    simp only [Plan.ckpts, List.mem_map, List.mem_range] at h2
    obtain ⟨j, hj, hj'⟩ := h2
    have := (path_inj dir j i).1 hj'
    omega
  | influence s' c =>
    exfalso
    by_cases hm : ∃ s, m' = "TRAK-".toList ++ s
    · obtain ⟨s, rfl⟩ := hm
      rw [scoreTRAK_dash] at hq
      split_ifs at hq
      cases hi : D.int s with
      | error e => rw [hi] at hq; simp [Except.map] at hq
      | ok n => rw [hi] at hq; simp [Except.map] at hq
    · rw [scoreTRAK_other D dir m' (fun s hs => hm ⟨s, hs⟩)] at hq
      split_ifs at hq
      simp at hq
  | rps c =>
    exfalso
    by_cases hm : ∃ s, m' = "TRAK-".toList ++ s
    · obtain ⟨s, rfl⟩ := hm
      rw [scoreTRAK_dash] at hq
      split_ifs at hq
      cases hi : D.int s with
      | error e => rw [hi] at hq; simp [Except.map] at hq
      | ok n => rw [hi] at hq; simp [Except.map] at hq
    · rw [scoreTRAK_other D dir m' (fun s hs => hm ⟨s, hs⟩)] at hq
      split_ifs at hq
      simp at hq

/-- **C214.** `TRAK-0` is accepted, and the run ends with `AttributeError` when attributing. -/
theorem C214_trak_zero {R X : Type} [Field R] {d : ℕ} (A : TRAK.Attributor R X Str d) (D : Digits) (dir : Str)
    (hA : scoreTRAK D dir "TRAK-0".toList = .ok (.trak A.ckpts)) (st st' : TRAK.State R X d) (tr te : Loader X)
    (hc : TRAK.cache A st tr = .ok st') : TRAK.attribute' A st' te none = .error .attributeError := by
  have h0 := C214_trak_number D dir 0
  have he : "TRAK-".toList ++ Nat.toDigits 10 0 = "TRAK-0".toList := by decide
  rw [he, hA] at h0
  have hn : A.ckpts = [] := by simpa using h0
  unfold TRAK.cache at hc
  rw [hn] at hc
  simp only [List.zipIdx_nil, List.foldlM_nil, bind, Except.bind, pure, Except.pure, Except.ok.injEq] at hc
  subst hc
  unfold TRAK.attribute'
  rw [hn]
  rfl

/-! ## The load function with a dictionary -/

/-- The dictionary holds exactly the paths asked for so far, and the number of loads is the number of different paths. -/
theorem memoRun_spec {M : Type} (load : ℕ → Str → M) (ps : List Str) : ∀ (seen : Finset Str) (d : Str → Option M),
    (∀ p, (d p).isSome ↔ p ∈ seen) →
      (memoRun load (d, seen.card) ps).1.length = ps.length ∧
      (∀ (i : ℕ) p, ps[i]? = some p → ∀ m, d p = some m → (memoRun load (d, seen.card) ps).1[i]? = some m) ∧
      (memoRun load (d, seen.card) ps).2.2 = (seen ∪ ps.toFinset).card ∧
      (∀ (i : ℕ) p, ps[i]? = some p → d p = none → (∀ j : ℕ, j < i → ps[j]? ≠ some p) →
        ∀ k : ℕ, k < ps.length → ps[k]? = some p → (memoRun load (d, seen.card) ps).1[k]? = some (load (seen ∪ (ps.take i).toFinset).card p)) := by
  induction ps with
  | nil => intro seen d _; simp [memoRun]
  | cons p ps ih =>
    intro seen d hd
    cases hp : d p with
    | some m0 =>
      have hmem : p ∈ seen := (hd p).1 (by rw [hp]; rfl)
      have e : memoRun load (d, seen.card) (p :: ps) = (m0 :: (memoRun load (d, seen.card) ps).1, (memoRun load (d, seen.card) ps).2) := by
        conv_lhs => unfold memoRun
        simp only [memoLoad, hp]
      obtain ⟨i1, i2, i3, i4⟩ := ih seen d hd
      rw [e]
      refine ⟨by simp [i1], ?_, ?_, ?_⟩
      · intro i q hq m hm
        cases i with
        | zero =>
          simp only [List.getElem?_cons_zero, Option.some.injEq] at hq
          subst hq
          rw [hp] at hm
          simpa using hm
        | succ i => simpa using i2 i q (by simpa using hq) m hm
      · rw [i3, List.toFinset_cons, Finset.union_insert, Finset.insert_eq_of_mem (Finset.mem_union_left _ hmem)]
      · intro i q hq hn hfirst k hk hkq
        cases i with
        | zero =>
          simp only [List.getElem?_cons_zero, Option.some.injEq] at hq
          subst hq
          rw [hp] at hn
          exact Option.noConfusion rfl (heq_of_eq hn)
        | succ i =>
          have h1 : seen ∪ ((p :: ps).take (i + 1)).toFinset = seen ∪ (ps.take i).toFinset := by
            rw [List.take_succ_cons, List.toFinset_cons, Finset.union_insert, Finset.insert_eq_of_mem (Finset.mem_union_left _ hmem)]
          rw [h1]
          cases k with
          | zero => exact absurd hkq (hfirst 0 (by omega))
          | succ k =>
            simp only [List.getElem?_cons_succ]
            exact i4 i q (by simpa using hq) hn (fun j hj => by simpa using hfirst (j + 1) (by omega)) k (by simpa using hk) (by simpa using hkq)
    | none =>
      have hmem : p ∉ seen := fun h => by
        have := (hd p).2 h
        rw [hp] at this
        exact Bool.noConfusion this
      have e : memoRun load (d, seen.card) (p :: ps) =
          (load seen.card p :: (memoRun load ((fun q => if q = p then some (load seen.card p) else d q), (insert p seen).card) ps).1,
            (memoRun load ((fun q => if q = p then some (load seen.card p) else d q), (insert p seen).card) ps).2) := by
        conv_lhs => unfold memoRun
        simp only [memoLoad, hp, Finset.card_insert_of_notMem hmem]
      have hd' : ∀ q, ((fun q => if q = p then some (load seen.card p) else d q) q).isSome ↔ q ∈ insert p seen := by
        intro q
        by_cases hq : q = p
        · simp [hq]
        · simp [hq, hd q]
      obtain ⟨i1, i2, i3, i4⟩ := ih (insert p seen) _ hd'
      rw [e]
      refine ⟨by simp [i1], ?_, ?_, ?_⟩
      · intro i q hq m hm
        cases i with
        | zero =>
          simp only [List.getElem?_cons_zero, Option.some.injEq] at hq
          subst hq
          rw [hp] at hm
          exact Option.noConfusion rfl (heq_of_eq hm)
        | succ i =>
          have hqp : q ≠ p := fun h => by
            rw [h, hp] at hm
            exact Option.noConfusion rfl (heq_of_eq hm)
          simpa using i2 i q (by simpa using hq) m (by simp [hqp, hm])
      · rw [i3, List.toFinset_cons, Finset.union_insert, Finset.insert_union]
      · intro i q hq hn hfirst k hk hkq
        cases i with
        | zero =>
          simp only [List.getElem?_cons_zero, Option.some.injEq] at hq
          subst hq
          simp only [List.take_zero, List.toFinset_nil, Finset.union_empty]
          cases k with
          | zero => rfl
          | succ k => simpa using i2 k p (by simpa using hkq) (load seen.card p) (by simp)
        | succ i =>
          have hqp : q ≠ p := fun h => hfirst 0 (by omega) (by simp [h])
          have h1 : seen ∪ ((p :: ps).take (i + 1)).toFinset = insert p seen ∪ (ps.take i).toFinset := by
            rw [List.take_succ_cons, List.toFinset_cons, Finset.union_insert, Finset.insert_union]
          rw [h1]
          cases k with
          | zero => exact absurd hkq (hfirst 0 (by omega))
          | succ k =>
            simp only [List.getElem?_cons_succ]
            exact i4 i q (by simpa using hq) (by simp [hqp, hn]) (fun j hj => by simpa using hfirst (j + 1) (by omega)) k (by simpa using hk) (by simpa using hkq)

/-- **C214.** `score_IF.py` loads every directory once, however often its checkpoint is asked for and in whatever order, and all requests for it return the
model of that one load. -/
theorem C214_memo {M : Type} (load : ℕ → Str → M) (ps : List Str) :
    (memoRun load ((fun _ => none), 0) ps).2.2 = ps.toFinset.card ∧
    ∀ (i k : ℕ) (p : Str), ps[i]? = some p → (∀ j, j < i → ps[j]? ≠ some p) → ps[k]? = some p →
      (memoRun load ((fun _ => none), 0) ps).1[k]? = some (load (ps.take i).toFinset.card p) := by
  have h := memoRun_spec load ps ∅ (fun _ => none) (by simp)
  rw [Finset.card_empty] at h
  refine ⟨by simpa using h.2.2.1, ?_⟩
  intro i k p hi hf hk
  have hlt : k < ps.length := by
    by_contra hge
    rw [List.getElem?_eq_none (by omega)] at hk
    exact Option.noConfusion rfl (heq_of_eq hk)
  simpa using h.2.2.2 i p hi rfl hf k hlt hk

/-! ## The benchmark scripts -/

/-- **C214.** `benchmark_result.py` and `benchmark_result_mt.py`: the TRAK methods take the first 1, 10 or 50 of the models trained on halves (all of them if there are fewer). -/
theorem C214_benchmark_trak {C : Type} (half full : List C) (m : Str) (n : ℕ) (h : (m, n) ∈ [("TRAK-1".toList, 1), ("TRAK-10".toList, 10), ("TRAK-50".toList, 50)]) :
    benchmark half full m = .ok (.trak (half.take n)) ∧ benchmarkMT half full m = .ok (.trak (half.take n)) := by
  simp only [List.mem_cons, Prod.mk.injEq, List.not_mem_nil, or_false] at h
  rcases h with ⟨rfl, rfl⟩ | ⟨rfl, rfl⟩ | ⟨rfl, rfl⟩ <;> exact ⟨rfl, rfl⟩

/-- **C214.** The TracIn family there: `TracIn` uses the first ten models trained on everything with weight 0.001, `Grad-Dot` and `Grad-Cos` the first one. -/
theorem C214_benchmark_tracin {C : Type} (half : List C) (c : C) (full : List C) :
    (benchmark half (c :: full) "TracIn".toList = .ok (.tracin ((c :: full).take 10) (List.replicate 10 (1 / 1000)) false) ∧
      benchmarkMT half (c :: full) "TracIn".toList = .ok (.tracin ((c :: full).take 10) (List.replicate 10 (1 / 1000)) false)) ∧
    (benchmark half (c :: full) "Grad-Dot".toList = .ok (.tracin [c] [1 / 1000] false) ∧
      benchmarkMT half (c :: full) "Grad-Dot".toList = .ok (.tracin [c] [1 / 1000] false)) ∧
    (benchmark half (c :: full) "Grad-Cos".toList = .ok (.tracin [c] [1 / 1000] true) ∧
      benchmarkMT half (c :: full) "Grad-Cos".toList = .ok (.tracin [c] [1 / 1000] true)) :=
  ⟨⟨rfl, rfl⟩, ⟨rfl, rfl⟩, ⟨rfl, rfl⟩⟩

/-- **C214.** With fewer than ten such models, `TracIn` there ends with `ValueError` when attributing. -/
theorem C214_benchmark_few {X C : Type} {p : ℕ} (A : TracIn.Attributor X C p) (half full : List C) (w : List ℚ) (nrm : Bool)
    (hp : benchmark half full "TracIn".toList = .ok (.tracin A.ckpts w nrm)) (hw : A.weights = w.map (fun x : ℚ => (x : ℝ))) (hf : full.length < 10)
    (tr te : Loader X) : TracIn.attribute' A tr te = .error .valueError := by
  have e : benchmark half full "TracIn".toList = .ok (.tracin (full.take 10) (List.replicate 10 (1 / 1000)) false) := rfl
  rw [e] at hp
  simp only [Except.ok.injEq, Plan.tracin.injEq] at hp
  unfold TracIn.attribute'
  rw [if_pos]
  rw [hw, ← hp.1, ← hp.2.1, List.length_take, List.length_map, List.length_replicate]
  omega

/-- **C214.** `benchmark_result_nanogpt.py`: the methods of the TracIn family always end with `NameError` (given a model to start with). -/
theorem C214_nano {V : Type} (half : List (List (Str × V))) (hh : half ≠ []) (m : Str) :
    (m ∈ family → benchmarkNano half m = .error .nameError) ∧
    (∀ n, (m, n) ∈ [("TRAK-1".toList, 1), ("TRAK-10".toList, 10), ("TRAK-50".toList, 50)] →
      benchmarkNano half m = .ok (.trak ((half.take n).map loadState))) := by
  have he : half.isEmpty = false := by simpa using hh
  constructor
  · intro hm
    simp only [family, List.mem_cons, List.not_mem_nil, or_false] at hm
    unfold benchmarkNano
    rw [he]
    rcases hm with rfl | rfl | rfl <;> rfl
  · intro n hm
    simp only [List.mem_cons, Prod.mk.injEq, List.not_mem_nil, or_false] at hm
    unfold benchmarkNano
    rw [he]
    rcases hm with ⟨rfl, rfl⟩ | ⟨rfl, rfl⟩ | ⟨rfl, rfl⟩ <;> rfl

theorem assign_new {V : Type} (d : List (Str × V)) (k : Str) (v : V) (h : k ∉ d.map Prod.fst) : assign d k v = d ++ [(k, v)] := by
  unfold assign
  rw [if_neg]
  simp only [List.any_eq_true, decide_eq_true_eq, not_exists, not_and]
  intro x hx e
  exact h (List.mem_map.2 ⟨x, hx, e⟩)

theorem assign_keys {V : Type} (d : List (Str × V)) (k : Str) (v : V) :
    (assign d k v).map Prod.fst = if k ∈ d.map Prod.fst then d.map Prod.fst else d.map Prod.fst ++ [k] := by
  by_cases h : k ∈ d.map Prod.fst
  · rw [if_pos h]
    unfold assign
    rw [if_pos]
    · rw [List.map_map]
      apply List.map_congr_left
      intro x _
      simp only [Function.comp]
      split_ifs with hx
      · exact hx.symm
      · rfl
    · obtain ⟨x, hx, rfl⟩ := List.mem_map.1 h
      exact List.any_eq_true.2 ⟨x, hx, by simp⟩
  · rw [if_neg h, assign_new d k v h, List.map_append]
    rfl

theorem lookup_assign {V : Type} (d : List (Str × V)) (k : Str) (v : V) (q : Str) :
    (assign d k v).lookup q = if q = k then some v else d.lookup q := by
  by_cases h : k ∈ d.map Prod.fst
  · have hany : d.any (fun x => x.1 = k) = true := by
      obtain ⟨x, hx, rfl⟩ := List.mem_map.1 h
      exact List.any_eq_true.2 ⟨x, hx, by simp⟩
    unfold assign
    rw [if_pos hany]
    clear hany
    induction d with
    | nil => simp at h
    | cons x d ih =>
      obtain ⟨a, b⟩ := x
      rw [List.map_cons]
      by_cases ha : a = k
      · subst ha
        simp only [if_true, List.lookup_cons]
        by_cases hq : q = a
        · simp [hq]
        · have hq' : (q == a) = false := by simpa using hq
          simp only [hq', hq, if_false]
          by_cases hk : a ∈ d.map Prod.fst
          · rw [ih hk, if_neg hq]
          · have hid : d.map (fun x => if x.1 = a then (a, v) else x) = d := by
              conv_rhs => rw [← List.map_id d]
              apply List.map_congr_left
              intro x hx
              rw [if_neg (fun e => hk (List.mem_map.2 ⟨x, hx, e⟩))]
              rfl
            rw [hid]
      · simp only [ha, if_false, List.lookup_cons]
        have hk : k ∈ d.map Prod.fst := by
          simp only [List.map_cons, List.mem_cons] at h
          rcases h with h | h
          · exact absurd h.symm ha
          · exact h
        rw [ih hk]
        by_cases hq : q = a
        · subst hq; simp [ha]
        · have hq' : (q == a) = false := by simpa using hq
          simp only [hq']
  · rw [assign_new d k v h, List.lookup_append]
    by_cases hq : q = k
    · subst hq
      rw [List.lookup_eq_none_iff.2 (fun x hx => by
        simp only [ne_eq, bne_iff_ne]
        intro e
        exact h (List.mem_map.2 ⟨x, hx, e.symm⟩))]
      simp
    · have hq' : (q == k) = false := by simpa using hq
      simp [List.lookup, hq', hq]

/-- **C214.** The prefix is removed once where it is there, other names stay. -/
theorem C214_strip (k : Str) : strip ("_orig_mod.".toList ++ k) = k ∧ ((∀ s, k ≠ "_orig_mod.".toList ++ s) → strip k = k) := by
  constructor
  · unfold strip
    rw [if_pos (List.isPrefixOf_iff_prefix.2 ⟨k, rfl⟩)]
    rfl
  · intro h
    unfold strip
    rw [if_neg]
    intro hp
    obtain ⟨s, hs⟩ := List.isPrefixOf_iff_prefix.1 hp
    exact h s hs.symm

/-- **C214.** `load_model_from_checkpoint`: every key once; the value of a key is that of the last entry whose name, without the prefix, is the key. -/
theorem C214_load_state {V : Type} (sd : List (Str × V)) :
    ((loadState sd).map Prod.fst).Nodup ∧
    ∀ q, (loadState sd).lookup q = ((sd.filter fun x => strip x.1 = q).map Prod.snd).getLast? := by
  induction sd using List.reverseRecOn with
  | nil => exact ⟨List.nodup_nil, fun _ => rfl⟩
  | append_singleton sd x ih =>
    have e : loadState (sd ++ [x]) = assign (loadState sd) (strip x.1) x.2 := by
      unfold loadState
      rw [List.foldl_append]
      rfl
    rw [e]
    constructor
    · rw [assign_keys]
      split_ifs with h
      · exact ih.1
      · rw [List.nodup_append]
        refine ⟨ih.1, List.nodup_singleton _, ?_⟩
        intro a ha b hb hab
        rw [List.mem_singleton] at hb
        exact h (hb ▸ hab ▸ ha)
    · intro q
      rw [lookup_assign, List.filter_append, List.map_append, List.getLast?_append]
      by_cases hq : q = strip x.1
      · subst hq
        simp
      · rw [if_neg hq, ih.2 q]
        have : ¬strip x.1 = q := fun h => hq h.symm
        simp [this]

/-- **C214.** Names that stay different without the prefix keep their values and their order. -/
theorem C214_load_state_order {V : Type} (sd : List (Str × V)) (h : (sd.map fun x => strip x.1).Nodup) :
    loadState sd = sd.map fun x => (strip x.1, x.2) := by
  induction sd using List.reverseRecOn with
  | nil => rfl
  | append_singleton sd x ih =>
    rw [List.map_append, List.nodup_append] at h
    have e : loadState (sd ++ [x]) = assign (loadState sd) (strip x.1) x.2 := by
      unfold loadState
      rw [List.foldl_append]
      rfl
    rw [e, ih h.1, assign_new, List.map_append]
    · rfl
    · rw [List.map_map]
      intro hm
      exact h.2.2 (strip x.1) hm (strip x.1) (by simp) rfl

/-! ## The hypotheses can be met -/

/-- Digits of a Python that knows the ASCII ones and one superscript. -/
def someDigits : Digits where
  isDigit c := c.isDigit || c = '²'
  value c := if c.isDigit then some (c.toNat - 48) else none
  dash := by decide
  ascii := by
    intro k hk
    interval_cases k <;> decide

example : scoreTRAK someDigits "out".toList "TRAK-07".toList = .ok (.trak ((List.range 7).map (path "out".toList))) :=
  (C214_trak _ _ _ _).2 ⟨7, ⟨"07".toList, [0, 7], rfl, by decide, by decide, by decide, by decide⟩, rfl⟩

example : scoreTRAK someDigits "out".toList "TRAK-5-1".toList = .error .valueError := rfl
example : scoreTRAK someDigits "out".toList "TRAK-²".toList = .error .valueError := rfl
example : scoreTRAK someDigits "out".toList "TRAK".toList = .error .valueError := rfl
example : scoreTRAK someDigits "out".toList "TRAK-".toList = .error .valueError := rfl

example {R X : Type} [Field R] {d : ℕ} (f : Str → X → Fin d → R) (p : Str → X → R) (tr te : Loader X) :
    TRAK.attribute' ⟨f, f, p, [], 0⟩ ⟨some tr, [], none⟩ te none = .error .attributeError :=
  C214_trak_zero ⟨f, f, p, [], 0⟩ someDigits "out".toList rfl TRAK.fresh _ tr te rfl

example : (memoRun (fun t (_ : Str) => t) ((fun _ => none), 0) ["a".toList, "b".toList, "a".toList]).1 = [0, 1, 0] := by decide

example (X : Type) (g : ℕ → X → Fin 1 → ℝ) (tr te : Loader X) :
    TracIn.attribute' ⟨g, g, [7, 8], List.replicate 10 ((1 / 1000 : ℚ) : ℝ), false⟩ tr te = .error .valueError :=
  C214_benchmark_few ⟨g, g, [7, 8], List.replicate 10 ((1 / 1000 : ℚ) : ℝ), false⟩ [] [7, 8] (List.replicate 10 (1 / 1000)) false rfl
    (by rw [List.map_replicate]) (by decide) tr te

example : loadState [("_orig_mod.a".toList, 1), ("b".toList, 2), ("a".toList, 3)] = [("a".toList, 3), ("b".toList, 2)] := by decide

end Verif.Methods
