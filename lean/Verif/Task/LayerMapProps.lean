import Mathlib.Tactic.NormNum
import Mathlib.Data.List.Chain
import Mathlib.Data.List.GetD
import Mathlib.Data.List.Nodup
import Verif.Task.LayerMapModel
import Verif.Task.FlattenProps

/-!
# C37, C82: automatic layer map; layer selection
-/

namespace Verif.Task

/-- Specification: `m` is the module path of parameter `key`: everything before the last dot, empty if there is no dot. -/
def IsModule (key m : List Char) : Prop :=
  (∃ leaf, '.' ∉ leaf ∧ key = m ++ '.' :: leaf) ∨ ('.' ∉ key ∧ m = [])

lemma splitDot_ne_nil (s : List Char) : splitDot s ≠ [] := by
  cases s with
  | nil => simp [splitDot]
  | cons c s => unfold splitDot; split_ifs <;> [simp; (split <;> simp)]

lemma splitDot_leaf (s : List Char) (h : '.' ∉ s) : splitDot s = [s] := by
  induction s with
  | nil => rfl
  | cons c s ih =>
    simp only [List.mem_cons, not_or] at h
    unfold splitDot
    rw [if_neg (fun e => h.1 e.symm), ih h.2]

lemma splitDot_append (a b : List Char) : splitDot (a ++ '.' :: b) = splitDot a ++ splitDot b := by
  induction a with
  | nil => simp [splitDot]
  | cons c a ih =>
    rw [List.cons_append]
    by_cases h : c = '.'
    · subst h
      have e : ∀ t, splitDot ('.' :: t) = [] :: splitDot t := fun t => by rw [splitDot, if_pos rfl]
      rw [e, e, ih, List.cons_append]
    · conv_lhs => unfold splitDot
      conv_rhs => arg 1; unfold splitDot
      rw [if_neg h, if_neg h, ih]
      cases hs : splitDot a with
      | nil => exact absurd hs (splitDot_ne_nil a)
      | cons w ws => simp

lemma joinDot_splitDot (s : List Char) : joinDot (splitDot s) = s := by
  induction s with
  | nil => rfl
  | cons c s ih =>
    unfold splitDot
    split_ifs with h
    · cases hs : splitDot s with
      | nil => exact absurd hs (splitDot_ne_nil s)
      | cons w ws => rw [hs] at ih; unfold joinDot; rw [ih, h]; rfl
    · cases hs : splitDot s with
      | nil => exact absurd hs (splitDot_ne_nil s)
      | cons w ws =>
        rw [hs] at ih
        simp only
        cases ws with
        | nil => unfold joinDot at *; rw [ih]
        | cons v ws => unfold joinDot at *; rw [List.cons_append, ih]

lemma layerOf_isModule (key : List Char) : IsModule key (layerOf key) := by
  by_cases h : '.' ∈ key
  · left
    -- last dot
    obtain ⟨a, b, hb, hk⟩ : ∃ a b, '.' ∉ b ∧ key = a ++ '.' :: b := by
      have h' : '.' ∈ key.reverse := by simpa using h
      obtain ⟨x, y, hxy, hx⟩ := List.eq_append_cons_of_mem h'
      refine ⟨y.reverse, x.reverse, by simpa using hx, ?_⟩
      have := congrArg List.reverse hxy
      simpa using this
    refine ⟨b, hb, ?_⟩
    have : layerOf key = a := by
      unfold layerOf
      rw [hk, splitDot_append, splitDot_leaf b hb, List.dropLast_concat, joinDot_splitDot]
    rw [this, hk]
  · right
    exact ⟨h, by unfold layerOf; rw [splitDot_leaf key h]; rfl⟩

lemma isModule_unique {key m m' : List Char} (h : IsModule key m) (h' : IsModule key m') : m = m' := by
  rcases h with ⟨l, hl, rfl⟩ | ⟨hn, rfl⟩
  · rcases h' with ⟨l', hl', he⟩ | ⟨hn', _⟩
    · have h1 : (m ++ '.' :: l) = m ++ '.' :: l := rfl
      have e1 := congrArg layerOf he
      have f : ∀ a b : List Char, '.' ∉ b → layerOf (a ++ '.' :: b) = a := by
        intro a b hb
        unfold layerOf
        rw [splitDot_append, splitDot_leaf b hb, List.dropLast_concat, joinDot_splitDot]
      rwa [f _ _ hl, f _ _ hl'] at e1
    · exact absurd (by simp) hn'
  · rcases h' with ⟨l', hl', rfl⟩ | ⟨_, rfl⟩
    · exact absurd (by simp) hn
    · rfl

/-- The fold after some keys: last layer, last index, map. -/
lemma fold_inv (keys : List (List Char)) :
    let s := keys.foldl mapStep (none, -1, [])
    s.2.2.length = keys.length ∧
    (s.1 = keys.getLast?.map layerOf) ∧
    (keys = [] → s.2.1 = -1) ∧
    (0 < keys.length → s.2.2.getD (keys.length - 1) 0 = s.2.1 ∧ s.2.2.getD 0 (-7) = 0) ∧
    (∀ i, i + 1 < keys.length → s.2.2.getD (i + 1) 0 =
      s.2.2.getD i 0 + if layerOf (keys.getD i []) = layerOf (keys.getD (i + 1) []) then 0 else 1) := by
  induction keys using List.reverseRecOn with
  | nil => simp
  | append_singleton ks k ih =>
    simp only [List.foldl_append, List.foldl_cons, List.foldl_nil]
    simp only at ih
    generalize ks.foldl mapStep (none, -1, []) = s at ih
    obtain ⟨hl, hlast, hnil, h0, hstep⟩ := ih
    obtain ⟨cl, ci, mp⟩ := s
    simp only at *
    have hm : mapStep (cl, ci, mp) k = (some (layerOf k), ci + (if cl ≠ some (layerOf k) then 1 else 0),
        mp ++ [ci + (if cl ≠ some (layerOf k) then 1 else 0)]) := by
      unfold mapStep
      simp only
      split_ifs with h
      · rfl
      · push Not at h; simp [h]
    rw [hm]
    simp only
    refine ⟨by simp [hl], by simp, by simp, ?_, ?_⟩
    · intro _
      refine ⟨?_, ?_⟩
      · simp only [List.length_append, List.length_singleton, Nat.add_sub_cancel]
        rw [← hl, List.getD_append_right _ _ _ _ le_rfl]; simp
      · by_cases hk : ks = []
        · subst hk
          simp only [List.length_nil, List.length_eq_zero_iff] at hl
          subst hl
          simp [hlast, hnil]
        · have hpos : 0 < ks.length := List.length_pos_iff.2 hk
          rw [List.getD_append _ _ _ _ (by omega)]
          exact (h0 hpos).2
    · intro i hi
      simp only [List.length_append, List.length_singleton] at hi
      by_cases hi' : i + 1 < ks.length
      · rw [List.getD_append _ _ _ _ (by omega), List.getD_append _ _ _ _ (by omega),
          List.getD_append _ _ _ _ hi', List.getD_append _ _ _ _ (by omega)]
        exact hstep i hi'
      · have hi2 : i + 1 = ks.length := by omega
        have hpos : 0 < ks.length := by omega
        have hk : ks ≠ [] := List.length_pos_iff.1 hpos
        rw [List.getD_append_right _ _ _ _ (by omega), List.getD_append _ _ _ _ (by omega),
          List.getD_append_right ks [k] [] (i + 1) (by omega), List.getD_append ks [k] [] i (by omega)]
        have e1 : i + 1 - mp.length = 0 := by omega
        have e2 : i + 1 - ks.length = 0 := by omega
        rw [e1, e2]
        simp only [List.getD_cons_zero]
        have := (h0 hpos).1
        rw [show ks.length - 1 = i by omega] at this
        rw [this]
        congr 1
        have hgl : ks.getLast? = some (ks.getD i []) := by
          rw [List.getLast?_eq_getElem?, show ks.length - 1 = i by omega, List.getD_eq_getElem?_getD,
            List.getElem?_eq_getElem (by omega)]
          rfl
        rw [hlast, hgl]
        simp only [Option.map_some, ne_eq, Option.some.injEq]
        by_cases h : layerOf (ks.getD i []) = layerOf k <;> simp

/-- **C37.** For every ordered list of parameter names, the automatic map has one number per parameter, starts at 0, and from one parameter
to the next the number stays the same if both belong to the same module and grows by exactly one otherwise. -/
theorem C37_layer_map (keys : List (List Char)) :
    (genMap keys).length = keys.length ∧
    (keys ≠ [] → (genMap keys)[0]? = some 0) ∧
    (∀ (i : ℕ) (k k' m m' : List Char), keys[i]? = some k → keys[i + 1]? = some k' → IsModule k m → IsModule k' m' →
      ∃ a b, (genMap keys)[i]? = some a ∧ (genMap keys)[i + 1]? = some b ∧ (m = m' → b = a) ∧ (m ≠ m' → b = a + 1)) := by
  obtain ⟨hl, -, -, h0, hs⟩ := fold_inv keys
  change (genMap keys).length = _ at hl
  change 0 < keys.length → (genMap keys).getD _ 0 = _ ∧ (genMap keys).getD 0 (-7) = 0 at h0
  change ∀ i, i + 1 < keys.length → (genMap keys).getD (i + 1) 0 = (genMap keys).getD i 0 + _ at hs
  refine ⟨hl, ?_, ?_⟩
  · intro hne
    have hpos : 0 < keys.length := List.length_pos_iff.2 hne
    have := (h0 hpos).2
    rw [List.getD_eq_getElem?_getD, List.getElem?_eq_getElem (by omega)] at this
    rw [List.getElem?_eq_getElem (by omega)]
    simpa using this
  · intro i k k' m m' hk hk' hm hm'
    have hi : i + 1 < keys.length := by
      by_contra h
      rw [List.getElem?_eq_none (by omega)] at hk'; cases hk'
    have e := hs i hi
    have hm1 := isModule_unique (layerOf_isModule k) hm
    have hm2 := isModule_unique (layerOf_isModule k') hm'
    refine ⟨(genMap keys).getD i 0, (genMap keys).getD (i + 1) 0, ?_, ?_, ?_, ?_⟩
    · rw [List.getD_eq_getElem?_getD, List.getElem?_eq_getElem (by omega)]; rfl
    · rw [List.getD_eq_getElem?_getD, List.getElem?_eq_getElem (by omega)]; rfl
    all_goals
      intro h
      rw [e]
      simp only [List.getD_eq_getElem?_getD, hk, hk', Option.getD_some, hm1, hm2]
      simp [h]

/-- **C37** (non-adjacent). Once a parameter of another module has come in between, every later parameter (in particular one of the same
module) gets a strictly larger number. -/
theorem C37_nonadjacent (keys : List (List Char)) (i j l : ℕ) (hij : i < l) (hlj : l < j) (ki kj kl m m' : List Char)
    (hi : keys[i]? = some ki) (hj : keys[j]? = some kj) (hl : keys[l]? = some kl)
    (hmi : IsModule ki m) (hml : IsModule kl m') (hne : m ≠ m') :
    ∃ a b, (genMap keys)[i]? = some a ∧ (genMap keys)[j]? = some b ∧ a < b := by
  obtain ⟨hlen, -, hs⟩ := C37_layer_map keys
  have hjlt : j < keys.length := by
    by_contra h
    rw [List.getElem?_eq_none (by omega)] at hj; cases hj
  -- monotone
  have step : ∀ n, n + 1 < keys.length → (genMap keys).getD n 0 ≤ (genMap keys).getD (n + 1) 0 ∧
      (layerOf (keys.getD n []) ≠ layerOf (keys.getD (n + 1) []) → (genMap keys).getD n 0 < (genMap keys).getD (n + 1) 0) := by
    intro n hn
    obtain ⟨a, b, ha, hb, h1, h2⟩ := hs n (keys[n]) (keys[n + 1]) _ _ (List.getElem?_eq_getElem (by omega))
      (List.getElem?_eq_getElem hn) (layerOf_isModule _) (layerOf_isModule _)
    have e1 : keys.getD n [] = keys[n] := by rw [List.getD_eq_getElem?_getD, List.getElem?_eq_getElem (by omega)]; rfl
    have e2 : keys.getD (n + 1) [] = keys[n + 1] := by rw [List.getD_eq_getElem?_getD, List.getElem?_eq_getElem hn]; rfl
    have e3 : (genMap keys).getD n 0 = a := by rw [List.getD_eq_getElem?_getD, ha]; rfl
    have e4 : (genMap keys).getD (n + 1) 0 = b := by rw [List.getD_eq_getElem?_getD, hb]; rfl
    rw [e1, e2, e3, e4]
    by_cases h : layerOf keys[n] = layerOf keys[n + 1]
    · rw [h1 h]; exact ⟨le_rfl, fun h' => absurd h h'⟩
    · rw [h2 h]; exact ⟨by omega, fun _ => by omega⟩
  have mono : ∀ d n, n + d < keys.length → (genMap keys).getD n 0 ≤ (genMap keys).getD (n + d) 0 ∧
      (layerOf (keys.getD n []) ≠ layerOf (keys.getD (n + d) []) → (genMap keys).getD n 0 < (genMap keys).getD (n + d) 0) := by
    intro d
    induction d with
    | zero => intro n _; exact ⟨le_rfl, fun h => absurd rfl h⟩
    | succ d ih =>
      intro n hn
      obtain ⟨a1, a2⟩ := ih n (by omega)
      obtain ⟨b1, b2⟩ := step (n + d) (by omega)
      rw [show n + (d + 1) = n + d + 1 by omega]
      refine ⟨by omega, fun h => ?_⟩
      by_cases h' : layerOf (keys.getD n []) = layerOf (keys.getD (n + d) [])
      · have := b2 (by rw [← h']; exact h)
        omega
      · have := a2 h'
        omega
  obtain ⟨m1, m2⟩ := mono (l - i) i (by omega)
  obtain ⟨m3, -⟩ := mono (j - l) l (by omega)
  rw [show i + (l - i) = l by omega] at m1 m2
  rw [show l + (j - l) = j by omega] at m3
  have hm1 := isModule_unique (layerOf_isModule ki) hmi
  have hm2 := isModule_unique (layerOf_isModule kl) hml
  have := m2 (by simp only [List.getD_eq_getElem?_getD, hi, hl, Option.getD_some, hm1, hm2]; exact hne)
  refine ⟨(genMap keys).getD i 0, (genMap keys).getD j 0, ?_, ?_, by omega⟩
  · rw [List.getD_eq_getElem?_getD, List.getElem?_eq_getElem (by omega)]; rfl
  · rw [List.getD_eq_getElem?_getD, List.getElem?_eq_getElem (by omega)]; rfl

example : genMap ["a.w".toList, "a.b".toList, "c.d.w".toList, "a.x".toList] = [0, 0, 1, 2] := by decide
example : IsModule "c.d.w".toList "c.d".toList := Or.inl ⟨['w'], by decide, by decide⟩

/-- **C37** (explicit map). With `layer_split` an explicit non-empty map is returned unchanged iff its length is the number of selected
parameters, otherwise `ValueError`; an empty explicit map is treated as absent. -/
theorem C37_explicit_map {R : Type} (named : List (List Char × Tens R)) (arg : LayerArg) (m : List ℤ) :
    getParamSplit named arg (some m) =
      if m = [] then getParamSplit named arg none
      else if m.length = (selectParams named arg).length then .ok ((selectParams named arg).map (fun p => p.2.data), m)
      else .error .valueError := by
  cases m with
  | nil => rfl
  | cons x xs =>
    simp only [reduceCtorEq, if_false, getParamSplit]
    by_cases h : (x :: xs).length = (selectParams named arg).length
    · rw [if_neg (by simpa using h), if_pos h]
    · rw [if_pos h, if_neg h]

/-- **C82** (a single string). A string `layer_name`, although documented, is iterated character by character: unless the model has
parameters with one-character names, nothing is selected, so the flat request raises `StopIteration` and the split request returns an empty
tuple with an empty map, whatever the string. -/
theorem C82_string_layer_name {R : Type} (junk : ℕ → List R) (named : List (List Char × Tens R)) (s : List Char)
    (h1 : ∀ p ∈ named, p.1.length ≠ 1) :
    getParamFlat junk named (.str s) = .error .stopIteration ∧ getParamSplit named (.str s) none = .ok ([], []) := by
  have hsel : selectParams named (.str s) = [] := by
    unfold selectParams LayerArg.iter
    simp only
    rw [List.filterMap_eq_nil_iff]
    intro k hk
    have hk1 : k.length = 1 := by
      have : ∀ l : List (List Char), ∀ k ∈ firsts l, k ∈ l := by
        intro l
        induction l with
        | nil => intro k hk; simp [firsts] at hk
        | cons a l ih =>
          intro k hk
          rcases List.mem_cons.1 hk with rfl | hk
          · simp
          · exact List.mem_cons_of_mem _ (ih k (List.mem_filter.1 hk).1)
      obtain ⟨c, -, rfl⟩ := List.mem_map.1 (this _ _ hk)
      rfl
    have : find named k = none := by
      unfold find
      rw [Option.map_eq_none_iff, List.find?_eq_none]
      intro p hp
      simp only [decide_eq_true_eq]
      rintro rfl
      exact h1 p hp hk1
    rw [this]; rfl
  constructor
  · unfold getParamFlat flattenParams; rw [hsel]; rfl
  · unfold getParamSplit; simp only; rw [hsel]; rfl

theorem firsts_filter (q : List Char → Bool) (l : List (List Char)) : (firsts l).filter q = firsts (l.filter q) := by
  induction l with
  | nil => rfl
  | cons a l ih =>
    by_cases h : q a = true
    · rw [List.filter_cons_of_pos h, firsts, firsts, List.filter_cons_of_pos h, ← ih, List.filter_filter, List.filter_filter]
      simp only [Bool.and_comm]
    · rw [List.filter_cons_of_neg h, firsts, List.filter_cons_of_neg h, ← ih, List.filter_filter]
      refine List.filter_congr fun x _ => ?_
      by_cases hx : x = a
      · subst hx; simp [h]
      · simp [hx]

theorem firsts_eq_eraseDups : ∀ (n : ℕ) (l : List (List Char)), l.length ≤ n → firsts l = l.eraseDups
  | _, [], _ => rfl
  | 0, _ :: _, h => absurd h (by simp)
  | n + 1, a :: l, h => by
    rw [firsts, List.eraseDups_cons, firsts_filter]
    have h1 : (l.filter fun x => decide (x ≠ a)) = l.filter fun b => !b == a := by
      refine List.filter_congr fun x _ => ?_
      by_cases hx : x = a <;> simp [hx]
    rw [h1, firsts_eq_eraseDups n]
    exact (List.length_filter_le _ _).trans (by simpa using h)

/-- **C82** (lists). A list request returns exactly the requested parameters that exist, each once, in the order in which they are first
requested; unknown names are dropped without an error. -/
theorem C82_unknown_names_dropped {V : Type} (named : List (List Char × V)) (ls : List (List Char)) :
    (selectParams named (.names ls)).map (·.1) = ls.eraseDups.filter (fun k => k ∈ named.map (·.1)) ∧
    ∀ k v, (k, v) ∈ selectParams named (.names ls) → (k, v) ∈ named := by
  unfold selectParams LayerArg.iter
  simp only
  rw [firsts_eq_eraseDups _ ls le_rfl]
  generalize ls.eraseDups = ls
  constructor
  · rw [List.map_filterMap]
    induction ls with
    | nil => rfl
    | cons a l ih =>
      have key : (find named a).isSome ↔ a ∈ named.map (·.1) := by
        unfold find
        rw [Option.isSome_map, List.find?_isSome]
        simp
      by_cases h : a ∈ named.map (·.1)
      · obtain ⟨v, hv⟩ := Option.isSome_iff_exists.1 (key.2 h)
        rw [List.filter_cons_of_pos (by simpa using h), List.filterMap_cons_some (b := a) (by simp [hv]), ih]
      · have hv : find named a = none := by
          rw [← Option.not_isSome_iff_eq_none]; exact fun hh => h (key.1 hh)
        rw [List.filter_cons_of_neg (by simpa using h), List.filterMap_cons_none (by simp [hv]), ih]
  · intro k v h
    obtain ⟨k', -, hk⟩ := List.mem_filterMap.1 h
    unfold find at hk
    simp only [Option.map_map, Option.map_eq_some_iff, Function.comp] at hk
    obtain ⟨p, hp, he⟩ := hk
    have h1 := List.mem_of_find?_eq_some hp
    have h2 := List.find?_some hp
    simp only [decide_eq_true_eq] at h2
    injection he with e1 e2
    rw [← e1, ← e2, ← h2]; exact h1

lemma firsts_nodup : ∀ l : List (List Char), l.Nodup → firsts l = l
  | [], _ => rfl
  | k :: ks, h => by
    rw [List.nodup_cons] at h
    rw [firsts, firsts_nodup ks h.2, List.filter_eq_self.2]
    intro a ha
    simp only [ne_eq, decide_eq_true_eq]
    rintro rfl
    exact h.1 ha

/-- **C82** (default). Without `layer_name` all parameters are returned, in their order, and so they are when all (distinct) names are listed in that order. -/
theorem C82_default {R : Type} (junk : ℕ → List R) (named : List (List Char × Tens R)) :
    (∃ m, getParamSplit named .none none = .ok (named.map fun p => p.2.data, m)) ∧
    ((named.map (·.1)).Nodup →
      getParamFlat junk named (.names (named.map (·.1))) = getParamFlat junk named .none ∧
      ∀ m, getParamSplit named (.names (named.map (·.1))) m = getParamSplit named .none m) := by
  refine ⟨⟨_, rfl⟩, fun hn => ?_⟩
  have hsel : selectParams named (.names (named.map (·.1))) = selectParams named .none := by
    unfold selectParams LayerArg.iter
    simp only
    rw [firsts_nodup _ hn, List.filterMap_map]
    have key : ∀ p ∈ named, find named p.1 = some p.2 := by
      intro p hp
      unfold find
      rw [Option.map_eq_some_iff]
      obtain ⟨q, hq⟩ := Option.isSome_iff_exists.1 (List.find?_isSome.2 ⟨p, hp, by simp⟩ : (named.find? fun q => decide (q.1 = p.1)).isSome)
      refine ⟨q, hq, ?_⟩
      have h1 : q.1 = p.1 := by simpa using List.find?_some hq
      rw [List.inj_on_of_nodup_map hn (List.mem_of_find?_eq_some hq) hp h1]
    rw [List.filterMap_congr (g := fun p => some p)]
    · simp
    · intro p hp
      simp [key p hp]
  constructor
  · unfold getParamFlat
    rw [hsel]
  · intro m
    unfold getParamSplit
    rw [hsel]

example : (([("a.w".toList, ⟨[1], [5]⟩), ("a.b".toList, ⟨[2], [7, 8]⟩)] : List (List Char × Tens ℤ)).map (·.1)).Nodup := by decide

example : selectParams [("a.w".toList, 1), ("a.b".toList, 2)] (.names ["a.b".toList, "zz".toList, "a.w".toList, "a.b".toList]) =
    [("a.b".toList, 2), ("a.w".toList, 1)] := by decide
example : ∀ p ∈ ([("a.w".toList, ⟨[1], [5]⟩)] : List (List Char × Tens ℤ)), p.1.length ≠ 1 := by decide

end Verif.Task
