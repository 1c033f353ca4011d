import Mathlib.Data.List.Basic
import Mathlib.Data.List.Nodup
import Mathlib.Data.List.Perm.Basic

/-!
# Python dictionaries as association lists in insertion order
-/

namespace Verif.PyDict

variable {κ : Type} [DecidableEq κ] {α : Type}

/-- `dict[k] = v`: replaces the value in place if the key is present, else appends. -/
def set (k : κ) (v : α) : List (κ × α) → List (κ × α)
  | [] => [(k, v)]
  | (k', v') :: t => if k' = k then (k, v) :: t else (k', v') :: set k v t

/-- `dict.get(k)`. -/
def get? (m : List (κ × α)) (k : κ) : Option α :=
  match m with
  | [] => none
  | (k', v') :: t => if k' = k then some v' else get? t k

/-- `list(dict.keys())`. -/
def keys (m : List (κ × α)) : List κ := m.map Prod.fst

theorem get?_set (k e : κ) (v : α) (m : List (κ × α)) :
    get? (set k v m) e = if e = k then some v else get? m e := by
  induction m with
  | nil =>
    by_cases h : k = e
    · simp [set, get?, h]
    · simp [set, get?, h, Ne.symm h]
  | cons p t ih =>
    obtain ⟨k', v'⟩ := p
    unfold set
    by_cases h1 : k' = k
    · subst h1
      by_cases h2 : k' = e
      · subst h2; simp [get?]
      · simp [get?, h2, Ne.symm h2]
    · rw [if_neg h1]
      by_cases h2 : k' = e
      · subst h2; simp [get?, h1]
      · simp [get?, ih, h2]

theorem keys_set (k : κ) (v : α) (m : List (κ × α)) :
    keys (set k v m) = if k ∈ keys m then keys m else keys m ++ [k] := by
  induction m with
  | nil => simp [set, keys]
  | cons p t ih =>
    obtain ⟨k', v'⟩ := p
    unfold set
    by_cases h1 : k' = k
    · subst h1; simp [keys]
    · rw [if_neg h1]
      unfold keys at ih ⊢
      rw [List.map_cons, ih]
      have h3 : (k ∈ List.map Prod.fst ((k', v') :: t)) ↔ (k ∈ List.map Prod.fst t) := by
        simp [Ne.symm h1]
      by_cases h2 : k ∈ List.map Prod.fst t
      · rw [if_pos h2, if_pos (h3.2 h2)]; rfl
      · rw [if_neg h2, if_neg (fun h => h2 (h3.1 h))]; rfl

theorem nodup_set {m : List (κ × α)} (h : (keys m).Nodup) (k : κ) (v : α) :
    (keys (set k v m)).Nodup := by
  rw [keys_set]
  split_ifs with h1
  · exact h
  · exact List.nodup_append.2 ⟨h, by simp, by
      intro a ha b hb hab
      rw [List.mem_singleton] at hb
      exact h1 (hb ▸ hab ▸ ha)⟩

theorem mem_keys_set (k e : κ) (v : α) (m : List (κ × α)) :
    e ∈ keys (set k v m) ↔ e = k ∨ e ∈ keys m := by
  rw [keys_set]
  split_ifs with h1
  · constructor
    · exact Or.inr
    · rintro (rfl | h)
      · exact h1
      · exact h
  · rw [List.mem_append, List.mem_singleton, or_comm]

theorem get?_isSome (m : List (κ × α)) (e : κ) : (get? m e).isSome ↔ e ∈ keys m := by
  induction m with
  | nil => simp [get?, keys]
  | cons p t ih =>
    obtain ⟨k', v'⟩ := p
    unfold keys at ih ⊢
    by_cases h2 : k' = e
    · subst h2; simp [get?]
    · simp only [get?, if_neg h2, ih, List.map_cons, List.mem_cons, Ne.symm h2, false_or]

theorem get?_eq_none (m : List (κ × α)) (e : κ) : get? m e = none ↔ e ∉ keys m := by
  rw [← get?_isSome, Option.not_isSome_iff_eq_none]

theorem get?_of_mem {m : List (κ × α)} (hn : (keys m).Nodup) {p : κ × α} (hp : p ∈ m) :
    get? m p.1 = some p.2 := by
  induction m with
  | nil => cases hp
  | cons q t ih =>
    obtain ⟨k', v'⟩ := q
    unfold keys at hn ih
    rw [List.map_cons, List.nodup_cons] at hn
    rcases List.mem_cons.1 hp with rfl | h
    · simp [get?]
    · have : k' ≠ p.1 := by
        rintro h1
        exact hn.1 (List.mem_map.2 ⟨p, h, h1.symm⟩)
      rw [get?, if_neg this]
      exact ih hn.2 h

theorem mem_of_get? {m : List (κ × α)} {e : κ} {v : α} (h : get? m e = some v) : (e, v) ∈ m := by
  induction m with
  | nil => simp [get?] at h
  | cons q t ih =>
    obtain ⟨k', v'⟩ := q
    by_cases h2 : k' = e
    · subst h2; simp [get?] at h; subst h; exact List.mem_cons_self
    · rw [get?, if_neg h2] at h
      exact List.mem_cons_of_mem _ (ih h)

/-- `dict.pop(k)` / `del dict[k]`: the remaining entries. -/
def erase (k : κ) (m : List (κ × α)) : List (κ × α) := m.filter fun p => decide (p.1 ≠ k)

theorem get?_erase (k e : κ) (m : List (κ × α)) :
    get? (erase k m) e = if e = k then none else get? m e := by
  induction m with
  | nil => simp [erase, get?]
  | cons p t ih =>
    obtain ⟨k', v'⟩ := p
    unfold erase at ih ⊢
    by_cases h1 : k' = k
    · subst h1
      rw [List.filter_cons_of_neg (by simp), ih]
      by_cases h2 : e = k'
      · simp [h2]
      · simp [get?, h2, Ne.symm h2]
    · rw [List.filter_cons_of_pos (by simpa using h1)]
      by_cases h2 : k' = e
      · subst h2; simp [get?, h1]
      · simp only [get?, if_neg h2]
        exact ih

theorem mem_keys_erase (k e : κ) (m : List (κ × α)) :
    e ∈ keys (erase k m) ↔ e ≠ k ∧ e ∈ keys m := by
  rw [← get?_isSome, get?_erase, ← get?_isSome]
  by_cases h : e = k <;> simp [h]

theorem nodup_erase {m : List (κ × α)} (h : (keys m).Nodup) (k : κ) :
    (keys (erase k m)).Nodup :=
  h.sublist (List.filter_sublist.map Prod.fst)

theorem mem_erase {k : κ} {m : List (κ × α)} {p : κ × α} :
    p ∈ erase k m ↔ p ∈ m ∧ p.1 ≠ k := by
  unfold erase
  rw [List.mem_filter, decide_eq_true_iff]

theorem length_erase_le (k : κ) (m : List (κ × α)) : (erase k m).length ≤ m.length :=
  List.length_filter_le _ _

end Verif.PyDict
