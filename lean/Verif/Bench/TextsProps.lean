import Mathlib.Tactic.Linarith
import Mathlib.Data.List.Pairwise
import Verif.Base.Blocks
import Verif.Bench.Texts

/-!
# C123, C124: blocks of WikiText-2 and the CIFAR-2 subset
-/

namespace Verif.Texts

/-- Specification: `rows` are the blocks of the concatenated texts of one group; only a tail shorter than a block is lost. -/
def Blocks (b : ℕ) (texts : List Tokens) (rows : List Row) : Prop :=
  (∀ r ∈ rows, r.ids.length = b ∧ r.mask.length = b ∧ r.labels = r.ids) ∧
  (∃ tail, tail.length < b ∧ texts.flatMap (·.ids) = rows.flatMap (·.ids) ++ tail) ∧
  ∃ tail, tail.length < b ∧ texts.flatMap (·.mask) = rows.flatMap (·.mask) ++ tail

lemma chunks_take (b : ℕ) (t : List ℕ) (n : ℕ) :
    ((List.range n).map fun i => (t.drop (i * b)).take b).flatten = t.take (n * b) := by
  induction n with
  | zero => simp
  | succ n ih =>
    rw [List.range_succ, List.map_append, List.flatten_append, ih]
    simp only [List.map_cons, List.map_nil, List.flatten_cons, List.flatten_nil, List.append_nil]
    rw [Nat.add_mul, Nat.one_mul, ← List.take_add]

lemma group_ok (b : ℕ) (hb : 0 < b) (texts : List Tokens) (hm : ∀ x ∈ texts, x.mask.length = x.ids.length) :
    ∃ rows, groupTexts b texts = .ok rows ∧ Blocks b texts rows := by
  unfold groupTexts
  simp only
  rw [if_neg (by omega)]
  refine ⟨_, rfl, ?_⟩
  set ids := texts.flatMap (·.ids)
  set mask := texts.flatMap (·.mask)
  have hlen : mask.length = ids.length := by
    simp only [mask, ids, List.length_flatMap]
    congr 1
    exact List.map_congr_left hm
  have hst : starts (Int.fdiv ids.length b * b) b = (List.range (ids.length / b)).map fun i => i * b := by
    unfold starts
    rw [if_pos (by omega), Int.mul_ediv_cancel _ (by omega)]
    have : Int.fdiv (ids.length : ℤ) (b : ℤ) = ((ids.length / b : ℕ) : ℤ) := by
      rw [Int.fdiv_eq_ediv_of_nonneg _ (by omega)]; rfl
    rw [this]
    simp only [Int.toNat_natCast]
  rw [hst, List.map_map]
  have hmul : ids.length / b * b ≤ ids.length := Nat.div_mul_le_self _ _
  have hrest : ids.length - ids.length / b * b < b := by
    have := Nat.mod_lt ids.length hb
    have h2 := Nat.div_add_mod ids.length b
    rw [Nat.mul_comm] at h2
    omega
  refine ⟨?_, ?_, ?_⟩
  · intro r hr
    obtain ⟨i, hi, rfl⟩ := List.mem_map.1 hr
    rw [List.mem_range] at hi
    have h1 : i * b + b ≤ ids.length := by
      have : (i + 1) * b ≤ ids.length / b * b := Nat.mul_le_mul_right _ hi
      rw [Nat.add_mul] at this; omega
    refine ⟨?_, ?_, rfl⟩
    · simp only [Function.comp, slice, List.length_take, List.length_drop, Int.toNat_natCast]; omega
    · simp only [Function.comp, slice, List.length_take, List.length_drop, Int.toNat_natCast]; omega
  · refine ⟨ids.drop (ids.length / b * b), by rw [List.length_drop]; exact hrest, ?_⟩
    rw [List.flatMap_map]
    have : (List.range (ids.length / b)).flatMap (fun i => slice ids (i * b) b) = ids.take (ids.length / b * b) := by
      rw [List.flatMap_def]
      simp only [slice, Int.toNat_natCast]
      exact chunks_take b ids _
    show ids = (List.range (ids.length / b)).flatMap (fun i => slice ids (i * b) b) ++ _
    rw [this, List.take_append_drop]
  · refine ⟨mask.drop (ids.length / b * b), by rw [List.length_drop, hlen]; exact hrest, ?_⟩
    rw [List.flatMap_map]
    have : (List.range (ids.length / b)).flatMap (fun i => slice mask (i * b) b) = mask.take (ids.length / b * b) := by
      rw [List.flatMap_def]
      simp only [slice, Int.toNat_natCast]
      exact chunks_take b mask _
    show mask = (List.range (ids.length / b)).flatMap (fun i => slice mask (i * b) b) ++ _
    rw [this, List.take_append_drop]

lemma mapM_groups (b : ℕ) (hb : 0 < b) (groups : List (List Tokens)) (hm : ∀ g ∈ groups, ∀ x ∈ g, x.mask.length = x.ids.length) :
    ∃ outs, groups.mapM (groupTexts b) = .ok outs ∧ List.Forall₂ (Blocks b) groups outs := by
  induction groups with
  | nil => exact ⟨[], rfl, .nil⟩
  | cons g groups ih =>
    obtain ⟨rows, h1, h2⟩ := group_ok b hb g (hm g List.mem_cons_self)
    obtain ⟨outs, h3, h4⟩ := ih fun g' hg' => hm g' (List.mem_cons_of_mem _ hg')
    exact ⟨rows :: outs, by rw [List.mapM_cons, h1, h3]; rfl, .cons h2 h4⟩

lemma mem_of_batches {g : List Tokens} {texts : List Tokens} {x : Tokens} (hg : g ∈ batches 1000 texts) (hx : x ∈ g) : x ∈ texts := by
  have : x ∈ (batches 1000 texts).flatten := List.mem_flatten.2 ⟨g, hg, hx⟩
  rwa [flatten_batches 1000 (by decide)] at this

/-- **C123** (blocks). For a block size from 1 to the maximal length of the model the data set consists, for every thousand texts in turn, of the
consecutive blocks of their concatenation, with labels equal to the tokens; a tail shorter than a block is lost per thousand texts. -/
theorem C123_blocks (b : ℕ) (hb : 0 < b) (maxLen : ℤ) (hmax : b ≤ maxLen) (texts : List Tokens)
    (hm : ∀ x ∈ texts, x.mask.length = x.ids.length) :
    ∃ outs, wikitext b maxLen texts = .ok outs.flatten ∧ List.Forall₂ (Blocks b) (batches 1000 texts) outs := by
  obtain ⟨outs, h1, h2⟩ := mapM_groups b hb (batches 1000 texts) fun g hg x hx => hm x (mem_of_batches hg hx)
  refine ⟨outs, ?_, h2⟩
  unfold wikitext
  rw [if_neg (by omega)]
  simp only
  rw [min_eq_left hmax, h1]
  rfl

/-- **C123** (loss). The number of tokens lost is less than the block size for every thousand texts begun. -/
theorem C123_lost (b : ℕ) (hb : 0 < b) (maxLen : ℤ) (hmax : b ≤ maxLen) (texts : List Tokens)
    (hm : ∀ x ∈ texts, x.mask.length = x.ids.length) :
    ∃ rows lost, wikitext b maxLen texts = .ok rows ∧ (texts.flatMap (·.ids)).length = b * rows.length + lost ∧
      lost ≤ (b - 1) * ((texts.length + 999) / 1000) := by
  obtain ⟨outs, h1, h2⟩ := C123_blocks b hb maxLen hmax texts hm
  have key : ∀ (groups : List (List Tokens)) (outs : List (List Row)), List.Forall₂ (Blocks b) groups outs →
      ∃ lost, (groups.flatten.flatMap (·.ids)).length = b * outs.flatten.length + lost ∧ lost ≤ (b - 1) * groups.length := by
    intro groups outs h
    induction h with
    | nil => exact ⟨0, by simp, by simp⟩
    | @cons g rows groups outs hg _ ih =>
      obtain ⟨lost, e1, e2⟩ := ih
      obtain ⟨hr, ⟨tail, ht, heq⟩, -⟩ := hg
      have hl : (rows.flatMap (·.ids)).length = b * rows.length := by
        clear heq
        induction rows with
        | nil => simp
        | cons r rows ih' =>
          rw [List.flatMap_cons, List.length_append, ih' fun r' hr' => hr r' (List.mem_cons_of_mem _ hr'), (hr r List.mem_cons_self).1,
            List.length_cons, Nat.mul_add, Nat.mul_one, Nat.add_comm]
      refine ⟨tail.length + lost, ?_, ?_⟩
      · rw [List.flatten_cons, List.flatMap_append, List.length_append, heq, List.length_append, hl, e1, List.flatten_cons,
          List.length_append, Nat.mul_add]
        omega
      · rw [List.length_cons, Nat.mul_add, Nat.mul_one]
        omega
  obtain ⟨lost, e1, e2⟩ := key _ _ h2
  rw [flatten_batches 1000 (by decide)] at e1
  refine ⟨outs.flatten, lost, h1, e1, ?_⟩
  rw [length_batches, numBatches] at e2
  exact e2

/-- **C123** (block size). A block size above the maximal length of the model raises `TypeError` instead of being reduced with a warning; block size
0 raises `ZeroDivisionError`. -/
theorem C123_block_size (bs maxLen : ℤ) (texts : List Tokens) :
    (maxLen < bs → wikitext bs maxLen texts = .error .typeError) ∧
    (bs = 0 → 0 ≤ maxLen → texts ≠ [] → wikitext bs maxLen texts = .error .zeroDivisionError) := by
  constructor
  · intro h
    unfold wikitext
    rw [if_pos h]
  · rintro rfl h0 hne
    unfold wikitext
    rw [if_neg (by omega)]
    simp only
    rw [min_eq_left h0]
    cases hb : batches 1000 texts with
    | nil =>
      have := flatten_batches 1000 (by decide) texts
      rw [hb] at this
      exact absurd this.symm hne
    | cons g gs =>
      rw [List.mapM_cons]
      rfl

/-- Two texts with five tokens in blocks of two: the last token is lost. -/
example : wikitext 2 1024 [⟨[1, 2, 3], [1, 1, 1]⟩, ⟨[4, 5], [1, 1]⟩] =
    .ok [⟨[1, 2], [1, 1], [1, 2]⟩, ⟨[3, 4], [1, 1], [3, 4]⟩] := by decide +kernel

example : wikitext 2048 1024 [⟨[1], [1]⟩] = .error .typeError := (C123_block_size _ _ _).1 (by decide)

/-! ## CIFAR-2 -/

lemma adjustFrom_spec (ts : List ℤ) (s : ℕ) :
    (adjustFrom s ts).2 = ts.map (fun t => if t = 3 then 0 else if t = 5 then 1 else t) ∧
    (adjustFrom s ts).1.Pairwise (· < ·) ∧
    ∀ i, i ∈ (adjustFrom s ts).1 ↔ ∃ k, i = s + k ∧ (ts[k]? = some 3 ∨ ts[k]? = some 5) := by
  induction ts generalizing s with
  | nil => simp [adjustFrom]
  | cons t ts ih =>
    obtain ⟨h1, h2, h3⟩ := ih (s + 1)
    have hgt : ∀ i ∈ (adjustFrom (s + 1) ts).1, s < i := by
      intro i hi
      obtain ⟨k, rfl, -⟩ := (h3 i).1 hi
      omega
    have hcons : ∀ i, (i ∈ (adjustFrom (s + 1) ts).1 ↔ ∃ k, i = s + (k + 1) ∧ (ts[k]? = some 3 ∨ ts[k]? = some 5)) := by
      intro i
      rw [h3]
      constructor
      · rintro ⟨k, rfl, h⟩; exact ⟨k, by omega, h⟩
      · rintro ⟨k, rfl, h⟩; exact ⟨k, by omega, h⟩
    unfold adjustFrom
    simp only
    by_cases ht3 : t = 3
    · subst ht3
      simp only [if_true]
      refine ⟨by rw [h1]; rfl, List.pairwise_cons.2 ⟨hgt, h2⟩, ?_⟩
      intro i
      rw [List.mem_cons, hcons]
      constructor
      · rintro (rfl | ⟨k, rfl, h⟩)
        · exact ⟨0, rfl, Or.inl rfl⟩
        · exact ⟨k + 1, rfl, by simpa using h⟩
      · rintro ⟨k, rfl, h⟩
        cases k with
        | zero => exact Or.inl rfl
        | succ k => exact Or.inr ⟨k, rfl, by simpa using h⟩
    · by_cases ht5 : t = 5
      · subst ht5
        simp only [ht3, if_false, if_true]
        refine ⟨by rw [h1]; rfl, List.pairwise_cons.2 ⟨hgt, h2⟩, ?_⟩
        intro i
        rw [List.mem_cons, hcons]
        constructor
        · rintro (rfl | ⟨k, rfl, h⟩)
          · exact ⟨0, rfl, Or.inr rfl⟩
          · exact ⟨k + 1, rfl, by simpa using h⟩
        · rintro ⟨k, rfl, h⟩
          cases k with
          | zero => exact Or.inl rfl
          | succ k => exact Or.inr ⟨k, rfl, by simpa using h⟩
      · simp only [ht3, ht5, if_false]
        refine ⟨by rw [h1, List.map_cons, if_neg ht3, if_neg ht5], h2, ?_⟩
        intro i
        rw [hcons]
        constructor
        · rintro ⟨k, rfl, h⟩
          exact ⟨k + 1, rfl, by simpa using h⟩
        · rintro ⟨k, rfl, h⟩
          cases k with
          | zero => simp [ht3, ht5] at h
          | succ k => exact ⟨k, rfl, by simpa using h⟩

/-- **C124** (selection). The subset consists of the positions of the cats (label 3) and dogs (label 5), in order and each once. -/
theorem C124_selection (targets : List ℤ) :
    (cifar2 targets).indices.Pairwise (· < ·) ∧
    ∀ i, i ∈ (cifar2 targets).indices ↔ targets[i]? = some 3 ∨ targets[i]? = some 5 := by
  obtain ⟨-, h2, h3⟩ := adjustFrom_spec targets 0
  refine ⟨h2, fun i => ?_⟩
  show i ∈ (adjustFrom 0 targets).1 ↔ _
  rw [h3]
  simp

/-- **C124** (labels). The item at every position of the subset is an image of a cat with label 0 or of a dog with label 1, the `targets` attribute
holds the same labels, and no label outside the subset is changed. -/
theorem C124_labels (targets : List ℤ) :
    (∀ k (hk : k < (cifar2 targets).indices.length), ∃ i t, (cifar2 targets).item k = some (i, t) ∧ i = (cifar2 targets).indices[k] ∧
      (cifar2 targets).targets[k]? = some t ∧ ((targets[i]? = some 3 ∧ t = 0) ∨ (targets[i]? = some 5 ∧ t = 1))) ∧
    (∀ k, (cifar2 targets).indices.length ≤ k → (cifar2 targets).item k = none) ∧
    (cifar2 targets).targets.length = (cifar2 targets).indices.length ∧
    ∀ i : ℕ, i ∉ (cifar2 targets).indices → (cifar2 targets).baseTargets[i]? = targets[i]? := by
  obtain ⟨h1, -, h3⟩ := adjustFrom_spec targets 0
  have hsel := (C124_selection targets).2
  have hbase : (cifar2 targets).baseTargets = targets.map (fun t => if t = 3 then 0 else if t = 5 then 1 else t) := h1
  refine ⟨?_, ?_, ?_, ?_⟩
  · intro k hk
    have hmem := (hsel _).1 (List.getElem_mem hk)
    set i := (cifar2 targets).indices[k] with hi
    have hitem : ∀ t, (cifar2 targets).baseTargets[i]? = some t → (cifar2 targets).item k = some (i, t) ∧
        (cifar2 targets).targets[k]? = some t := by
      intro t ht
      constructor
      · unfold Cifar2.item
        rw [List.getElem?_eq_getElem hk]
        simp only [Option.bind_eq_bind, Option.bind_some]
        rw [← hi, ht]
        rfl
      · have : (cifar2 targets).targets = (cifar2 targets).indices.map fun i => (cifar2 targets).baseTargets.getD i 0 := rfl
        rw [this, List.getElem?_map, List.getElem?_eq_getElem hk, Option.map_some, ← hi, List.getD_eq_getElem?_getD, ht]
        rfl
    rcases hmem with h | h
    · obtain ⟨e1, e2⟩ := hitem 0 (by rw [hbase, List.getElem?_map, h]; rfl)
      exact ⟨i, 0, e1, rfl, e2, Or.inl ⟨h, rfl⟩⟩
    · obtain ⟨e1, e2⟩ := hitem 1 (by rw [hbase, List.getElem?_map, h]; rfl)
      exact ⟨i, 1, e1, rfl, e2, Or.inr ⟨h, rfl⟩⟩
  · intro k hk
    unfold Cifar2.item
    rw [List.getElem?_eq_none hk]
    rfl
  · show List.length (List.map _ _) = _
    rw [List.length_map]; rfl
  · intro i hi
    rw [hsel, not_or] at hi
    rw [hbase, List.getElem?_map]
    cases ht : targets[i]? with
    | none => rfl
    | some t =>
      rw [ht] at hi
      simp only [Option.some.injEq] at hi
      simp [hi.1, hi.2]

/-- **C124** (twice). Adjusting the same data set a second time selects nothing. -/
theorem C124_twice (targets : List ℤ) : (adjust (adjust targets).2).1 = [] := by
  rw [List.eq_nil_iff_forall_not_mem]
  intro i hi
  obtain ⟨k, -, h⟩ := ((adjustFrom_spec (adjust targets).2 0).2.2 i).1 hi
  have h1 : (adjust targets).2 = _ := (adjustFrom_spec targets 0).1
  rw [h1, List.getElem?_map] at h
  cases ht : targets[k]? with
  | none => rw [ht] at h; simp at h
  | some t =>
    rw [ht] at h
    simp only [Option.map_some, Option.some.injEq] at h
    split_ifs at h <;> omega

example : (cifar2 [0, 3, 5, 1, 3]).indices = [1, 2, 4] ∧ (cifar2 [0, 3, 5, 1, 3]).targets = [0, 1, 0] ∧
    (cifar2 [0, 3, 5, 1, 3]).item 1 = some (2, 1) := by decide +kernel

end Verif.Texts
