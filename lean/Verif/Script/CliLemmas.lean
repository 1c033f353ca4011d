import Mathlib.Data.List.TakeWhile
import Verif.Metric.RetrainText
import Verif.Script.CliModel

/-!
# Helper lemmas for the command line
-/

namespace Verif.Cli

open Verif.Retrain

lemma split_ne_nil (sep : Char) (s : List Char) : split sep s ≠ [] := by
  cases s with
  | nil => simp [split]
  | cons c cs =>
    unfold split
    split_ifs
    · simp
    · split <;> simp

lemma split_no_sep (sep : Char) (s : List Char) : ∀ t ∈ split sep s, sep ∉ t := by
  induction s with
  | nil => simp [split]
  | cons c cs ih =>
    unfold split
    split_ifs with h
    · intro t ht
      rcases List.mem_cons.1 ht with rfl | ht
      · simp
      · exact ih t ht
    · split
      · intro t ht
        simp only [List.mem_singleton] at ht
        subst ht
        simpa using fun e => h e.symm
      · rename_i l ls heq
        rw [heq] at ih
        intro t ht
        rcases List.mem_cons.1 ht with rfl | ht
        · rw [List.mem_cons, not_or]
          exact ⟨fun e => h e.symm, ih l List.mem_cons_self⟩
        · exact ih t (List.mem_cons_of_mem _ ht)

lemma split_plain (sep : Char) (a : List Char) (ha : sep ∉ a) : split sep a = [a] := by
  induction a with
  | nil => rfl
  | cons c cs ih =>
    rw [List.mem_cons, not_or] at ha
    unfold split
    rw [if_neg (fun e => ha.1 e.symm), ih ha.2]

lemma split_append (sep : Char) (a s : List Char) (ha : sep ∉ a) : split sep (a ++ sep :: s) = a :: split sep s := by
  induction a with
  | nil => simp [split]
  | cons c cs ih =>
    rw [List.mem_cons, not_or] at ha
    rw [List.cons_append]
    conv_lhs => unfold split
    rw [if_neg (fun e => ha.1 e.symm), ih ha.2]

/-- General inverse of `split`: the text is its first part alone, or the first part, the separator and the text of the rest. -/
lemma split_cons {sep : Char} {s a : List Char} {r : List (List Char)} (h : split sep s = a :: r) :
    (r = [] ∧ s = a) ∨ ∃ s', split sep s' = r ∧ s = a ++ sep :: s' := by
  induction s generalizing a with
  | nil =>
    simp only [split, List.cons.injEq] at h
    exact Or.inl ⟨h.2.symm, h.1⟩
  | cons c cs ih =>
    unfold split at h
    split_ifs at h with hc
    · obtain ⟨rfl, h'⟩ := List.cons.inj h
      exact Or.inr ⟨cs, h', by rw [hc]; rfl⟩
    · split at h
      · rename_i heq; exact absurd heq (split_ne_nil _ _)
      · rename_i l ls heq
        obtain ⟨rfl, rfl⟩ := List.cons.inj h
        rcases ih heq with ⟨h1, h2⟩ | ⟨s', h1, h2⟩
        · exact Or.inl ⟨h1, by rw [h2]⟩
        · exact Or.inr ⟨s', h1, by rw [h2]; rfl⟩

lemma split_one {sep : Char} {s a : List Char} (h : split sep s = [a]) : s = a := by
  rcases split_cons h with ⟨_, h⟩ | ⟨s', h, _⟩
  · exact h
  · exact absurd h (split_ne_nil _ _)

lemma split_more {sep : Char} {s a b : List Char} {r : List (List Char)} (h : split sep s = a :: b :: r) :
    ∃ s', split sep s' = b :: r ∧ s = a ++ sep :: s' := by
  rcases split_cons h with ⟨h, _⟩ | h
  · exact absurd h (by simp)
  · exact h

lemma dropWhile_blank (l t : List Char) (hl : ∀ c ∈ l, isBlank c = true) (ht : ∀ c, t.head? = some c → isBlank c = false) :
    (l ++ t).dropWhile isBlank = t := by
  induction l with
  | nil =>
    cases t with
    | nil => rfl
    | cons c cs => rw [List.nil_append, List.dropWhile_cons_of_neg]; simp [ht c rfl]
  | cons c cs ih =>
    rw [List.cons_append, List.dropWhile_cons_of_pos (hl c List.mem_cons_self)]
    exact ih (fun d hd => hl d (List.mem_cons_of_mem _ hd))

lemma strip_pad (l t r : List Char) (hl : ∀ c ∈ l, isBlank c = true) (hr : ∀ c ∈ r, isBlank c = true) (hne : t ≠ [])
    (h1 : ∀ c, t.head? = some c → isBlank c = false) (h2 : ∀ c, t.getLast? = some c → isBlank c = false) :
    strip (l ++ t ++ r) = t := by
  unfold strip
  rw [List.append_assoc, dropWhile_blank l (t ++ r) hl, List.reverse_append, dropWhile_blank r.reverse t.reverse, List.reverse_reverse]
  · intro c hc; exact hr c (List.mem_reverse.1 hc)
  · intro c hc; rw [List.head?_reverse] at hc; exact h2 c hc
  · intro c hc
    rw [List.head?_append_of_ne_nil _ hne] at hc
    exact h1 c hc

lemma strip_split (s : List Char) : ∃ l r, s = l ++ strip s ++ r ∧ (∀ c ∈ l, isBlank c = true) ∧ ∀ c ∈ r, isBlank c = true := by
  refine ⟨s.takeWhile isBlank, ((s.dropWhile isBlank).reverse.takeWhile isBlank).reverse, ?_, fun c hc => List.mem_takeWhile_imp hc,
    fun c hc => List.mem_takeWhile_imp (List.mem_reverse.1 hc)⟩
  unfold strip
  rw [List.append_assoc, ← List.reverse_append, List.takeWhile_append_dropWhile, List.reverse_reverse, List.takeWhile_append_dropWhile]

lemma digit_not_blank {c : Char} (h : 48 ≤ c.toNat) : isBlank c = false := by
  unfold isBlank
  rw [Bool.or_eq_false_iff]
  refine ⟨?_, ?_⟩
  · rw [decide_eq_false_iff_not]; rintro rfl; revert h; decide
  · rw [Bool.and_eq_false_iff]; right; simp; omega

lemma parseNat_ok_iff (s : List Char) (n : ℕ) :
    parseNat s = .ok n ↔ ∃ ds : List ℕ, ds ≠ [] ∧ (∀ d ∈ ds, d < 10) ∧ s = ds.map digitChar ∧ n = ds.foldl (fun a d => 10 * a + d) 0 := by
  have hfold : ∀ (ds : List ℕ) (a : ℕ), (∀ d ∈ ds, d < 10) →
      (ds.map digitChar).foldl (fun a c => 10 * a + (c.toNat - 48)) a = ds.foldl (fun a d => 10 * a + d) a := by
    intro ds
    induction ds with
    | nil => intros; rfl
    | cons d ds ih =>
      intro a h
      rw [List.map_cons, List.foldl_cons, List.foldl_cons, ih _ (fun x hx => h x (List.mem_cons_of_mem _ hx)),
        digitChar_toNat (h d List.mem_cons_self), Nat.add_sub_cancel_left]
  unfold parseNat
  constructor
  · intro h
    split_ifs at h with hc
    refine ⟨s.map fun c => c.toNat - 48, by simpa using hc.1, ?_, ?_, ?_⟩
    · intro d hd
      obtain ⟨c, hcm, rfl⟩ := List.mem_map.1 hd
      have := List.all_eq_true.1 hc.2 c hcm
      simp only [Bool.and_eq_true, decide_eq_true_eq] at this
      omega
    · rw [List.map_map]
      symm
      rw [List.map_congr_left (g := id)]
      · simp
      · intro c hcm
        have := List.all_eq_true.1 hc.2 c hcm
        simp only [Bool.and_eq_true, decide_eq_true_eq] at this
        simp only [Function.comp, digitChar, id]
        rw [show 48 + (c.toNat - 48) = c.toNat by omega, Char.ofNat_toNat]
    · rw [List.foldl_map]
      exact (Except.ok.inj h).symm
  · rintro ⟨ds, hne, hd, rfl, rfl⟩
    rw [if_pos, hfold ds 0 hd]
    refine ⟨by simpa using hne, ?_⟩
    rw [List.all_eq_true]
    intro c hc
    obtain ⟨d, hdm, rfl⟩ := List.mem_map.1 hc
    have := hd d hdm
    rw [digitChar_toNat this]
    simp; omega

end Verif.Cli
