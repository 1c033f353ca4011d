import Verif.Compress.OptModel
import Verif.Compress.Props

/-!
# C190: optional parameters of the compressor set-up
-/

namespace Verif.Compress

open Verif

/-! ### Helper lemmas -/

theorem fold_noSparsifier (names : List String) (p : Option ℤ) (l : List (Module × ℕ)) (acc : List (Option Seeds)) :
    l.foldlM (setupStepOpt names none p) acc = if ∃ m ∈ l, m.1.name ∈ names then .error .attributeError else .ok acc := by
  classical
  induction l generalizing acc with
  | nil => simp [pure, Except.pure]
  | cons m l ih =>
    rw [List.foldlM_cons]
    by_cases h : m.1.name ∈ names
    · rw [if_pos ⟨m, by simp, h⟩, setupStepOpt, if_pos h]
      rfl
    · rw [setupStepOpt, if_neg h]
      change l.foldlM (setupStepOpt names none p) acc = _
      rw [ih]
      simp [h]

/-- Does a named module end the loop when the projector parameters are missing? -/
def ends (names : List String) (m : Module) : Bool := m.name ∈ names ∧ (m.kind = .other ∨ m.complete = true)

theorem fold_noProjector (names : List String) (s : ℤ) (l : List (Module × ℕ)) (acc : List (Option Seeds)) :
    l.foldlM (setupStepOpt names (some s) none) acc =
      match l.find? fun m => ends names m.1 with
      | none => .ok acc
      | some m => if m.1.kind = .other then .error .valueError else .error .attributeError := by
  induction l generalizing acc with
  | nil => rfl
  | cons m l ih =>
    rw [List.foldlM_cons, List.find?_cons]
    by_cases h : m.1.name ∈ names
    · by_cases ho : m.1.kind = .other
      · have he : ends names m.1 = true := by simp [ends, h, ho]
        simp only [he, setupStepOpt, if_pos h, if_pos ho]
        rfl
      · by_cases hc : m.1.complete = true
        · have he : ends names m.1 = true := by simp [ends, h, hc]
          simp only [he, setupStepOpt, if_pos h, if_neg ho, if_pos hc]
          rfl
        · have he : ends names m.1 = false := by simp [ends, ho, hc]
          simp only [he, setupStepOpt, if_pos h, if_neg ho, if_neg hc]
          exact ih acc
    · have he : ends names m.1 = false := by simp [ends, h]
      simp only [he, setupStepOpt, if_neg h]
      exact ih acc

theorem find_zipIdx (P : Module → Bool) (l : List Module) (k : ℕ) : ((l.zipIdx k).find? fun m => P m.1).map Prod.fst = l.find? P := by
  induction l generalizing k with
  | nil => rfl
  | cons a l ih =>
    rw [List.zipIdx_cons, List.find?_cons, List.find?_cons]
    cases h : P a with
    | true => simp
    | false => simpa [h] using ih (k + 1)

/-! ### C190 -/

/-- **C190** (both stages). With sample inputs and the parameters of both stages the set-up is that of C102. -/
theorem C190_both (net : List Module) (names : List String) (s p : ℤ) : setupOpt net names true (some s) (some p) = setup net names s p := by
  unfold setupOpt setup
  rw [if_neg (by simp), if_neg (by simp)]
  rfl

/-- **C190** (nothing to do). Without sample inputs the list is empty, whatever the other arguments are; with sample inputs but no parameters it has an empty entry for
each name, and layers of unsupported types are accepted. -/
theorem C190_neither (net : List Module) (names : List String) (s p : Option ℤ) :
    setupOpt net names false s p = .ok [] ∧ setupOpt net names true none none = .ok (List.replicate names.length none) :=
  ⟨rfl, rfl⟩

/-- **C190** (disagreement, no sparsifier). With the projector's parameters only, the set-up fails with an `AttributeError` as soon as one name is that of a module of
the model; otherwise all entries are empty. -/
theorem C190_projector_only (net : List Module) (names : List String) (p : ℤ) :
    ((∃ m ∈ net, m.name ∈ names) → setupOpt net names true none (some p) = .error .attributeError) ∧
      ((∀ m ∈ net, m.name ∉ names) → setupOpt net names true none (some p) = .ok (List.replicate names.length none)) := by
  have key : setupOpt net names true none (some p) =
      if ∃ m ∈ net.zipIdx, m.1.name ∈ names then .error .attributeError else .ok (List.replicate names.length none) := by
    unfold setupOpt
    rw [if_neg (by simp), if_neg (by simp)]
    exact fold_noSparsifier names (some p) net.zipIdx _
  have hmem : (∃ m ∈ net.zipIdx, m.1.name ∈ names) ↔ ∃ m ∈ net, m.name ∈ names := by
    constructor
    · rintro ⟨m, hm, h⟩
      exact ⟨m.1, List.fst_mem_of_mem_zipIdx hm, h⟩
    · rintro ⟨m, hm, h⟩
      obtain ⟨i, hi, rfl⟩ := List.getElem_of_mem hm
      exact ⟨(net[i], i), by rw [List.mem_zipIdx_iff_getElem?]; simp [hi], h⟩
  rw [key]
  refine ⟨fun h => if_pos (hmem.2 h), fun h => if_neg fun hc => ?_⟩
  obtain ⟨m, hm, hn⟩ := hmem.1 hc
  exact h m hm hn

/-- **C190** (disagreement, no projector). With the sparsifier's parameters only, no layer gets a compressor: the first named module of the model that has an unsupported
type or could be set up raises a `ValueError` in the first and an `AttributeError` in the second case; without such a module all entries are empty. -/
theorem C190_sparsifier_only (net : List Module) (names : List String) (s : ℤ) :
    (∀ (i : ℕ) (m : Module), net[i]? = some m → m.name ∈ names → (m.kind = .other ∨ m.complete = true) →
      (∀ j < i, ∀ m' : Module, net[j]? = some m' → m'.name ∈ names → m'.kind ≠ .other ∧ m'.complete = false) →
      setupOpt net names true (some s) none = .error (if m.kind = .other then .valueError else .attributeError)) ∧
    ((∀ m ∈ net, m.name ∈ names → m.kind ≠ .other ∧ m.complete = false) →
      setupOpt net names true (some s) none = .ok (List.replicate names.length none)) := by
  have key : setupOpt net names true (some s) none =
      match net.zipIdx.find? fun m => ends names m.1 with
      | none => .ok (List.replicate names.length none)
      | some m => if m.1.kind = .other then .error .valueError else .error .attributeError := by
    unfold setupOpt
    rw [if_neg (by simp), if_neg (by simp)]
    exact fold_noProjector names s net.zipIdx _
  refine ⟨fun i m hi hm hk hfirst => ?_, fun h => ?_⟩
  · have hfind : net.find? (ends names) = some m := by
      rw [List.find?_eq_some_iff_getElem]
      obtain ⟨hlt, hget⟩ := List.getElem?_eq_some_iff.1 hi
      refine ⟨by simp [ends, hm, hk], i, hlt, hget, fun j hj => ?_⟩
      by_cases hn : (net[j]'(hj.trans hlt)).name ∈ names
      · obtain ⟨h1, h2⟩ := hfirst j hj _ (List.getElem?_eq_getElem (hj.trans hlt)) hn
        simp [ends, h1, h2]
      · simp [ends, hn]
    rw [← find_zipIdx (ends names) net 0, Option.map_eq_some_iff] at hfind
    obtain ⟨m', hm', rfl⟩ := hfind
    rw [key, hm']
    by_cases ho : m'.1.kind = .other <;> simp [ho]
  · have hfind : net.find? (ends names) = none := by
      rw [List.find?_eq_none]
      intro m hm
      by_cases hn : m.name ∈ names
      · simp [ends, h m hm hn]
      · simp [ends, hn]
    rw [← find_zipIdx (ends names) net 0, Option.map_eq_none_iff] at hfind
    rw [key, hfind]

/-- **C190** (attributors). The attributors never meet these cases: an absent stage is replaced by one with seed 0, and only an empty loader fails, with a
`StopIteration`. -/
theorem C190_attributor (net : List Module) (names : List String) (batches : ℕ) (s p : Option ℤ) :
    (batches = 0 → attributorSetup net names batches s p = .error .stopIteration) ∧
      (0 < batches → attributorSetup net names batches s p = setup net names (s.getD 0) (p.getD 0)) := by
  unfold attributorSetup
  refine ⟨fun h => if_pos h, fun h => ?_⟩
  rw [if_neg h.ne', C190_both]

def exOptNet : List Module := [⟨"norm", .layerNorm false, true⟩, ⟨"fc", .linear, true⟩, ⟨"conv", .other, true⟩]
example : setupOpt exOptNet ["norm", "fc", "conv"] true (some 3) none = .error .attributeError :=
  (C190_sparsifier_only exOptNet ["norm", "fc", "conv"] 3).1 1 ⟨"fc", .linear, true⟩ rfl (by decide) (Or.inr rfl) (by
    intro j hj m' hm' _
    obtain rfl : j = 0 := by omega
    obtain rfl : (⟨"norm", .layerNorm false, true⟩ : Module) = m' := by simpa [exOptNet] using hm'
    decide)
example : setupOpt exOptNet ["fc"] true none (some 3) = .error .attributeError :=
  (C190_projector_only exOptNet ["fc"] 3).1 ⟨⟨"fc", .linear, true⟩, by simp [exOptNet], by simp⟩

end Verif.Compress
