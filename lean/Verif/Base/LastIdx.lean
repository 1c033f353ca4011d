import Mathlib.Data.List.Basic

/-! The last position of an element, as a dictionary built by `{name: i for i, name in enumerate(names)}` gives it. -/

namespace Verif

theorem last_idx {α : Type} [DecidableEq α] {l : List α} {x : α} {k : ℕ} (hk : l[k]? = some x) (hl : ∀ j, k < j → l[j]? ≠ some x) :
    l.length - 1 - l.reverse.idxOf x = k := by
  have hlt := (List.getElem?_eq_some_iff.1 hk).1
  have hx : x ∈ l.reverse := List.mem_reverse.2 (List.mem_of_getElem? hk)
  have h1 : l.reverse.idxOf x < l.reverse.length := List.idxOf_lt_length_iff.2 hx
  have h2 : l.reverse[l.reverse.idxOf x]? = some x := by rw [List.getElem?_eq_getElem h1, List.getElem_idxOf h1]
  rw [List.getElem?_reverse (by simpa using h1)] at h2
  have h3 : l.length - 1 - l.reverse.idxOf x ≤ k := by
    by_contra h
    exact hl _ (by omega) h2
  have h4 : l.reverse.idxOf x ≤ l.length - 1 - k := by
    have h5 : l.reverse[l.length - 1 - k]? = some x := by
      rw [List.getElem?_reverse (by omega)]
      rw [show l.length - 1 - (l.length - 1 - k) = k by omega]
      exact hk
    obtain ⟨h6, h7⟩ := List.getElem?_eq_some_iff.1 h5
    by_contra h
    have h8 : l.length - 1 - k < l.reverse.findIdx (· == x) := by
      have h9 : l.reverse.idxOf x = l.reverse.findIdx (· == x) := rfl
      omega
    have h10 := List.not_of_lt_findIdx h8
    rw [h7] at h10
    simp at h10
  have : l.reverse.length = l.length := List.length_reverse
  omega

end Verif
