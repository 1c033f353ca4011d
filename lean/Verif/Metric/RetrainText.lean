import Mathlib.Data.Nat.Digits.Lemmas
import Mathlib.Tactic.Ring
import Verif.Metric.RetrainModel

/-!
# Helper lemmas about decimal text
-/

namespace Verif.Retrain

lemma digitChar_toNat {d : ℕ} (h : d < 10) : (digitChar d).toNat = 48 + d := by
  have : ∀ d < 10, (digitChar d).toNat = 48 + d := by decide
  exact this d h

lemma str_ne_nil (n : ℕ) : str n ≠ [] := by
  unfold str
  split_ifs with h
  · simp
  · simp [Nat.digits_ne_nil_iff_ne_zero, h]

lemma str_digits (n : ℕ) : ∀ c ∈ str n, 48 ≤ c.toNat ∧ c.toNat ≤ 57 := by
  unfold str
  intro c hc
  split_ifs at hc with h
  · simp only [List.mem_singleton] at hc; subst hc; decide
  · obtain ⟨d, hd, rfl⟩ := List.mem_map.1 hc
    have hlt : d < 10 := Nat.digits_lt_base (by norm_num) (List.mem_reverse.1 hd)
    rw [digitChar_toNat hlt]; omega

lemma newline_notMem_str (n : ℕ) : '\n' ∉ str n := by
  intro h
  have := (str_digits n _ h).1
  revert this; decide

lemma minus_notMem_str (n : ℕ) : '-' ∉ str n := by
  intro h
  have := (str_digits n _ h).1
  revert this; decide

lemma foldl_digits (l : List ℕ) (h : ∀ d ∈ l, d < 10) :
    (l.reverse.map digitChar).foldl (fun a c => 10 * a + (c.toNat - 48)) 0 = Nat.ofDigits 10 l := by
  induction l with
  | nil => rfl
  | cons d l ih =>
    simp only [List.reverse_cons, List.map_append, List.map_cons, List.map_nil, List.foldl_append, List.foldl_cons, List.foldl_nil]
    rw [ih (fun x hx => h x (List.mem_cons_of_mem _ hx)), digitChar_toNat (h d List.mem_cons_self), Nat.ofDigits_cons]
    omega

lemma parseNat_str (n : ℕ) : parseNat (str n) = .ok n := by
  unfold parseNat
  rw [if_pos]
  · congr 1
    unfold str
    split_ifs with h
    · subst h; rfl
    · rw [foldl_digits _ (fun d hd => Nat.digits_lt_base (by norm_num) hd), Nat.ofDigits_digits]
  · refine ⟨str_ne_nil n, ?_⟩
    rw [List.all_eq_true]
    intro c hc
    have := str_digits n c hc
    simp [this]

lemma parseInt_strInt (z : ℤ) : parseInt (strInt z) = .ok z := by
  unfold strInt
  split_ifs with h
  · simp only [parseInt, parseNat_str, Except.map]
    exact congrArg Except.ok (show -((z.natAbs : ℕ) : ℤ) = z by omega)
  · have hne : ∀ s, str z.natAbs ≠ '-' :: s := by
      intro s e
      exact minus_notMem_str z.natAbs (by rw [e]; exact List.mem_cons_self)
    unfold parseInt
    split
    · rename_i s e; exact absurd e (hne s)
    · rw [parseNat_str]
      exact congrArg Except.ok (show ((z.natAbs : ℕ) : ℤ) = z by omega)

lemma splitLines_append (l : List Char) (hl : '\n' ∉ l) (cs : List Char) : splitLines (l ++ '\n' :: cs) = l :: splitLines cs := by
  induction l with
  | nil => simp [splitLines]
  | cons c l ih =>
    have hc : c ≠ '\n' := fun e => hl (e ▸ List.mem_cons_self)
    rw [List.cons_append, splitLines, if_neg hc, ih (fun h => hl (List.mem_cons_of_mem _ h))]

lemma splitLines_line (l : List Char) (hl : '\n' ∉ l) (hne : l ≠ []) : splitLines l = [l] := by
  induction l with
  | nil => exact absurd rfl hne
  | cons c l ih =>
    have hc : c ≠ '\n' := fun e => hl (e ▸ List.mem_cons_self)
    rw [splitLines, if_neg hc]
    rcases l with _ | ⟨d, l⟩
    · rfl
    · rw [ih (fun h => hl (List.mem_cons_of_mem _ h)) (by simp)]

lemma splitLines_joinLines (ls : List (List Char)) (h : ∀ l ∈ ls, '\n' ∉ l ∧ l ≠ []) : splitLines (joinLines ls) = ls := by
  induction ls with
  | nil => rfl
  | cons l ls ih =>
    have hl := h l List.mem_cons_self
    rcases ls with _ | ⟨l', ls⟩
    · exact splitLines_line l hl.1 hl.2
    · rw [joinLines, splitLines_append l hl.1, ih (fun x hx => h x (List.mem_cons_of_mem _ hx))]
      simp

lemma mapM_ok {α β : Type} (f : α → Except Err β) (g : α → β) (l : List α) (h : ∀ a ∈ l, f a = .ok (g a)) : l.mapM f = .ok (l.map g) := by
  induction l with
  | nil => rfl
  | cons a l ih =>
    rw [List.mapM_cons, h a List.mem_cons_self, ih (fun x hx => h x (List.mem_cons_of_mem _ hx))]
    rfl

lemma mapM_ok_iff {α β : Type} (f : α → Except Err β) (l : List α) (r : List β) :
    l.mapM f = .ok r ↔ List.Forall₂ (fun a b => f a = .ok b) l r := by
  induction l generalizing r with
  | nil =>
    rw [List.mapM_nil, List.forall₂_nil_left_iff]
    constructor
    · intro h; injection h with h; exact h.symm
    · rintro rfl; rfl
  | cons a l ih =>
    rw [List.mapM_cons]
    cases hfa : f a with
    | error e =>
      simp only [bind, Except.bind, reduceCtorEq, false_iff]
      intro h
      cases h with
      | cons h1 _ => rw [hfa] at h1; exact absurd h1 (by simp)
    | ok b =>
      cases hl : l.mapM f with
      | error e =>
        simp only [bind, Except.bind, reduceCtorEq, false_iff]
        intro h
        cases h with
        | cons h1 h2 => rw [← ih, hl] at h2; exact absurd h2 (by simp)
      | ok bs =>
        simp only [bind, Except.bind, pure, Except.pure, Except.ok.injEq]
        constructor
        · rintro rfl; exact .cons hfa ((ih bs).1 hl)
        · intro h
          cases h with
          | cons h1 h2 =>
            rw [← ih, hl] at h2
            rw [hfa] at h1
            injection h1 with h1; injection h2 with h2
            rw [h1, h2]

lemma parseLines_join (ns : List ℕ) : parseLines (joinLines (ns.map str)) = .ok ns := by
  unfold parseLines
  rw [splitLines_joinLines]
  · rw [mapM_ok_iff]
    induction ns with
    | nil => exact .nil
    | cons n ns ih => exact .cons (parseNat_str n) ih
  · intro l hl
    obtain ⟨n, -, rfl⟩ := List.mem_map.1 hl
    exact ⟨newline_notMem_str n, str_ne_nil n⟩

end Verif.Retrain
