import Verif.ModelUtil.DropoutModel

/-!
# C119: activating dropout layers
-/

namespace Verif.Dropout

/-- **C119** (all layers). Without positions exactly the dropout layers are active, with the given probability; everything else is in
evaluation mode; the call does not raise. -/
theorem C119_all (ms : List Module) (positions : Option (List (List Char))) (hp : positions = none ∨ positions = some []) (prob : ℚ) :
    (activateDropout ms positions prob).2 = .ok () ∧
      List.Forall₂ (fun m m' => Result prob (Drops m) m m') ms (activateDropout ms positions prob).1 := by
  have h : activateDropout ms positions prob =
      ((ms.map fun m => { m with training := false }).map fun m => if isDropout m then activate prob m else m, .ok ()) := by
    unfold activateDropout
    rcases hp with rfl | rfl <;> rfl
  rw [h]
  refine ⟨rfl, ?_⟩
  rw [List.map_map]
  refine forall2_map ms fun m _ => ?_
  simp only [Function.comp]
  split <;> rename_i hd
  · exact ⟨rfl, rfl, fun _ => ⟨rfl, rfl⟩, fun hn => absurd ((isDropout_iff m).1 hd) hn⟩
  · exact ⟨rfl, rfl, fun ha => absurd ((isDropout_iff m).2 ha) hd, fun _ => ⟨rfl, rfl⟩⟩

/-- **C119** (chosen layers). With positions, whether or not the call raises, afterwards the active layers are exactly the dropout layers in whose
name one of the positions occurs anywhere as a substring. -/
theorem C119_selected (ms : List Module) (positions : List (List Char)) (hne : positions ≠ []) (prob : ℚ) :
    List.Forall₂ (fun m m' => Result prob (Drops m ∧ Named positions m) m m') ms (activateDropout ms (some positions) prob).1 := by
  unfold activateDropout
  simp only [Option.getD_some]
  rw [if_neg (fun h => hne (List.length_eq_zero_iff.1 h))]
  simp only
  rw [(visitAll_spec _ _ _ _).1, List.map_map]
  refine forall2_map ms fun m _ => ?_
  simp only [Function.comp]
  have hiff : (isDropout m = true ∧ ∃ pos ∈ positions, pos <:+: m.name) ↔ (Drops m ∧ Named positions m) := by
    rw [isDropout_iff]
    unfold Named
    simp only [infix_iff]
  split <;> rename_i hd
  · exact ⟨rfl, rfl, fun _ => ⟨rfl, rfl⟩, fun hn => absurd (hiff.1 hd) hn⟩
  · exact ⟨rfl, rfl, fun ha => absurd (hiff.2 ha) hd, fun _ => ⟨rfl, rfl⟩⟩

/-- **C119** (errors). With positions the call raises `ValueError` exactly when one of them occurs in the name of a module that is not a dropout
layer; in particular positions that occur in no name at all are accepted silently. -/
theorem C119_raises (ms : List Module) (positions : List (List Char)) (prob : ℚ) :
    ((activateDropout ms (some positions) prob).2 = .error .valueError ↔ ∃ m ∈ ms, ¬ Drops m ∧ Named positions m) ∧
    ((activateDropout ms (some positions) prob).2 = .ok () ↔ ¬ ∃ m ∈ ms, ¬ Drops m ∧ Named positions m) := by
  classical
  have key : (activateDropout ms (some positions) prob).2 =
      if ∃ m ∈ ms, ¬ Drops m ∧ Named positions m then .error .valueError else .ok () := by
    unfold activateDropout
    simp only [Option.getD_some]
    by_cases hp : positions.length = 0
    · rw [if_pos hp, if_neg]
      rintro ⟨m, -, -, pos, hpos, -⟩
      rw [List.length_eq_zero_iff.1 hp] at hpos
      simp at hpos
    · rw [if_neg hp]
      simp only
      have h := (visitAll_spec prob positions (ms.map fun m => { m with training := false }) []).2
      by_cases hex : ∃ m ∈ ms, ¬ Drops m ∧ Named positions m
      · rw [if_pos hex, if_pos]
        intro hnil
        obtain ⟨m, hm, hnd, pos, hpos, hn⟩ := hex
        rcases (h.1 hnil).2 _ (List.mem_map_of_mem hm) with h1 | h1
        · exact hnd ((isDropout_iff m).1 h1)
        · exact h1 pos hpos ((infix_iff _ _).2 hn)
      · rw [if_neg hex, if_neg]
        rw [not_not]
        refine h.2 ⟨rfl, ?_⟩
        intro m' hm'
        obtain ⟨m, hm, rfl⟩ := List.mem_map.1 hm'
        by_cases hd : Drops m
        · exact Or.inl ((isDropout_iff m).2 hd)
        · right
          intro pos hpos hinf
          exact hex ⟨m, hm, hd, pos, hpos, (infix_iff _ _).1 hinf⟩
  rw [key]
  split_ifs with h <;> simp [h]

/-- A model with two dropout layers: the position of the first is a substring of the name of the second. -/
def net : List Module :=
  [⟨[], "Net".toList, true, none⟩, ⟨"dropout1".toList, "Dropout".toList, true, some (1 / 2)⟩,
    ⟨"dropout10".toList, "Dropout".toList, true, some (1 / 2)⟩, ⟨"fc".toList, "Linear".toList, true, none⟩]

example : activateDropout net (some ["dropout1".toList]) (1 / 10) =
    ([⟨[], "Net".toList, false, none⟩, ⟨"dropout1".toList, "Dropout".toList, true, some (1 / 10)⟩,
      ⟨"dropout10".toList, "Dropout".toList, true, some (1 / 10)⟩, ⟨"fc".toList, "Linear".toList, false, none⟩], .ok ()) ∧
    (activateDropout net (some ["dropout2".toList]) (1 / 10)).2 = .ok () ∧
    (activateDropout net (some ["fc".toList, "dropout1".toList]) (1 / 10)).2 = .error .valueError := by decide +kernel

end Verif.Dropout
