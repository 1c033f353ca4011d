import Verif.Metric.BrittleScriptModel
import Verif.Metric.BrittleProps
import Mathlib.Data.Nat.ModEq

/-! # C204: the brittleness example -/

namespace Verif.Brittle

/-! ## Specification -/

/-- `g` is the first of the `n` test samples that the fully trained model predicts rightly. -/
def FirstRight (predict : List ℕ → ℕ → ℤ) (label : ℕ → ℤ) (n g : ℕ) : Prop :=
  g < n ∧ predict (List.range n) g = label g ∧ ∀ h < g, predict (List.range n) h ≠ label h

/-- `r` is the smallest number of the search space such that leaving out a set of that many samples, highest by `s`, changes the
prediction for `g`, or `none` if there is no such number. -/
def SmallestFlip (enum : Finset ℕ → List ℕ) (s : ℕ → ℚ) (predict : List ℕ → ℕ → ℤ) (label : ℕ → ℤ) (n g : ℕ) (r : Option ℕ) : Prop :=
  ∃ T : ℕ → Finset ℕ, (∀ k, IsTop s n k (T k)) ∧
    (∀ k, r = some k ↔ k ∈ exampleSpace ∧ predict (enum (Finset.range n \ T k)) g ≠ label g ∧
      ∀ k' ∈ exampleSpace, k' < k → predict (enum (Finset.range n \ T k')) g = label g) ∧
    (r = none ↔ ∀ k ∈ exampleSpace, predict (enum (Finset.range n \ T k)) g = label g)

/-! ## Lemmas -/

theorem inBatch_some (ok : ℕ → Bool) : ∀ (l : List ℕ) (j g i : ℕ), inBatch ok j l = some (g, i) →
    ∃ p q, l = p ++ g :: q ∧ (∀ h ∈ p, ok h = false) ∧ ok g = true ∧ i = j + p.length
  | [], _, _, _, h => by simp [inBatch] at h
  | a :: l, j, g, i, h => by
      simp only [inBatch] at h
      split_ifs at h with ha
      · simp only [Option.some.injEq, Prod.mk.injEq] at h
        obtain ⟨rfl, rfl⟩ := h
        exact ⟨[], l, rfl, by simp, ha, by simp⟩
      · obtain ⟨p, q, rfl, hp, hg, hi⟩ := inBatch_some ok l (j + 1) g i h
        refine ⟨a :: p, q, rfl, ?_, hg, by simp only [List.length_cons]; omega⟩
        intro x hx
        rcases List.mem_cons.1 hx with rfl | hx
        · simpa using ha
        · exact hp x hx

theorem inBatch_none (ok : ℕ → Bool) : ∀ (l : List ℕ) (j : ℕ), inBatch ok j l = none → ∀ h ∈ l, ok h = false
  | [], _, _ => by simp
  | a :: l, j, h => by
      simp only [inBatch] at h
      split_ifs at h with ha
      intro x hx
      rcases List.mem_cons.1 hx with rfl | hx
      · simpa using ha
      · exact inBatch_none ok l (j + 1) h x hx

theorem findCorrect_some (ok : ℕ → Bool) : ∀ (l : List (List ℕ)) (g i : ℕ), findCorrect ok l = some (g, i) →
    ∃ pre post p q, l = pre ++ (p ++ g :: q) :: post ∧ (∀ b ∈ pre, ∀ h ∈ b, ok h = false) ∧
      (∀ h ∈ p, ok h = false) ∧ ok g = true ∧ i = p.length
  | [], _, _, h => by simp [findCorrect] at h
  | b :: l, g, i, h => by
      simp only [findCorrect] at h
      cases e : inBatch ok 0 b with
      | some r =>
          rw [e] at h
          simp only [Option.some.injEq] at h
          subst h
          obtain ⟨p, q, rfl, hp, hg, hi⟩ := inBatch_some ok b 0 g i e
          exact ⟨[], l, p, q, rfl, by simp, hp, hg, by simpa using hi⟩
      | none =>
          rw [e] at h
          obtain ⟨pre, post, p, q, rfl, hpre, hp, hg, hi⟩ := findCorrect_some ok l g i h
          refine ⟨b :: pre, post, p, q, rfl, ?_, hp, hg, hi⟩
          intro x hx
          rcases List.mem_cons.1 hx with rfl | hx
          · exact inBatch_none ok x 0 e
          · exact hpre x hx

theorem findCorrect_none (ok : ℕ → Bool) : ∀ (l : List (List ℕ)), findCorrect ok l = none → ∀ b ∈ l, ∀ h ∈ b, ok h = false
  | [], _ => by simp
  | b :: l, h => by
      simp only [findCorrect] at h
      cases e : inBatch ok 0 b with
      | some r => rw [e] at h; cases h
      | none =>
          rw [e] at h
          intro x hx
          rcases List.mem_cons.1 hx with rfl | hx
          · exact inBatch_none ok x 0 e
          · exact findCorrect_none ok l h x hx

theorem batchAt_getElem (B n k i : ℕ) (h : i < (batchAt B (List.range n) k).length) :
    (batchAt B (List.range n) k)[i] = k * B + i ∧ i < B ∧ k * B + i < n := by
  have h' := h
  simp only [batchAt, List.length_take, List.length_drop, List.length_range] at h'
  refine ⟨by simp [batchAt], by omega, by omega⟩

theorem mem_batchAt (B n g : ℕ) (hB : 0 < B) (hg : g < n) : g ∈ batchAt B (List.range n) (g / B) := by
  have h1 := Nat.div_add_mod g B
  have h2 := Nat.mod_lt g hB
  have hl : g % B < (batchAt B (List.range n) (g / B)).length := by
    simp only [batchAt, List.length_take, List.length_drop, List.length_range]
    have : g / B * B = B * (g / B) := Nat.mul_comm _ _
    omega
  have := (batchAt_getElem B n (g / B) (g % B) hl).1
  rw [List.mem_iff_getElem]
  refine ⟨g % B, hl, ?_⟩
  rw [this, Nat.mul_comm]
  exact h1

theorem div_lt_numBatches (B n g : ℕ) (hB : 0 < B) (hg : g < n) : g / B < numBatches B n := by
  unfold numBatches
  rw [Nat.div_lt_iff_lt_mul hB]
  have h1 := Nat.div_add_mod (n + B - 1) B
  have h2 := Nat.mod_lt (n + B - 1) hB
  have h3 : (n + B - 1) / B * B = B * ((n + B - 1) / B) := Nat.mul_comm _ _
  omega

/-- The search over the batches finds the first right sample; the index it keeps is the position in its batch. -/
theorem findCorrect_batches (ok : ℕ → Bool) (n B : ℕ) (hB : 0 < B) :
    (∀ g, (g < n ∧ ok g = true ∧ ∀ h < g, ok h = false) → findCorrect ok (batches B (List.range n)) = some (g, g % B)) ∧
    ((∀ g < n, ok g = false) → findCorrect ok (batches B (List.range n)) = none) := by
  have key : ∀ g i, findCorrect ok (batches B (List.range n)) = some (g, i) →
      g < n ∧ ok g = true ∧ (∀ h < g, ok h = false) ∧ i = g % B := by
    intro g i h
    obtain ⟨pre, post, p, q, hl, hpre, hp, hg, hi⟩ := findCorrect_some ok _ g i h
    have hlen : pre.length < numBatches B n := by
      have := congrArg List.length hl
      simp only [batches, List.length_map, List.length_range, List.length_append, List.length_cons] at this
      omega
    have hb : ∀ k < numBatches B n, (batches B (List.range n))[k]? = some (batchAt B (List.range n) k) := by
      intro k hk
      simp [batches, hk]
    have hk := hb _ hlen
    rw [hl] at hk
    simp only [List.getElem?_append_right le_rfl, Nat.sub_self, List.getElem?_cons_zero, Option.some.injEq] at hk
    have hplen : p.length < (batchAt B (List.range n) pre.length).length := by rw [← hk]; simp
    obtain ⟨e1, e2, e3⟩ := batchAt_getElem B n pre.length p.length hplen
    have e4 : (batchAt B (List.range n) pre.length)[p.length] = g := by
      simp only [← hk]
      simp
    have hgv : g = pre.length * B + p.length := by rw [← e4, e1]
    refine ⟨by omega, hg, ?_, ?_⟩
    · intro x hx
      have hxn : x < n := by omega
      have hdm := Nat.div_add_mod x B
      have hmod := Nat.mod_lt x hB
      rcases lt_or_ge (x / B) pre.length with hlt | hge
      · refine hpre (batchAt B (List.range n) (x / B)) ?_ x (mem_batchAt B n x hB hxn)
        have := hb (x / B) (by omega)
        rw [hl, List.getElem?_append_left hlt] at this
        exact List.mem_of_getElem? this
      · have hle : x / B ≤ pre.length := by
          have : x / B ≤ g / B := Nat.div_le_div_right hx.le
          have h2 : g / B = pre.length := by
            rw [hgv, Nat.mul_comm, Nat.mul_add_div hB, Nat.div_eq_of_lt e2, Nat.add_zero]
          omega
        have heq : x / B = pre.length := le_antisymm hle hge
        rw [heq] at hdm
        have hcm : pre.length * B = B * pre.length := Nat.mul_comm _ _
        have hxp : x % B < p.length := by omega
        refine hp x ?_
        have hl2 : x % B < (batchAt B (List.range n) pre.length).length := by omega
        have f1 := (batchAt_getElem B n pre.length (x % B) hl2).1
        have f2 : (batchAt B (List.range n) pre.length)[x % B] = p[x % B] := by
          simp only [← hk]
          rw [List.getElem_append_left hxp]
        rw [List.mem_iff_getElem]
        exact ⟨x % B, hxp, by omega⟩
    · rw [hi, hgv, Nat.mul_comm, Nat.mul_add_mod, Nat.mod_eq_of_lt e2]
  constructor
  · rintro g ⟨hg, hok, hbef⟩
    cases e : findCorrect ok (batches B (List.range n)) with
    | none =>
        have h1 := findCorrect_none ok _ e (batchAt B (List.range n) (g / B)) (by
          unfold batches
          refine List.mem_map.2 ⟨g / B, ?_, rfl⟩
          rw [List.length_range]
          exact List.mem_range.2 (div_lt_numBatches B n g hB hg)) g (mem_batchAt B n g hB hg)
        rw [hok] at h1
        cases h1
    | some r =>
        obtain ⟨g', i⟩ := r
        obtain ⟨h1, h2, h3, h4⟩ := key g' i e
        have : g' = g := by
          rcases lt_trichotomy g' g with h | h | h
          · have := hbef g' h; rw [h2] at this; cases this
          · exact h
          · have := h3 g h; rw [hok] at this; cases this
        subst this
        rw [h4]
  · intro hall
    cases e : findCorrect ok (batches B (List.range n)) with
    | none => rfl
    | some r =>
        obtain ⟨g', i⟩ := r
        obtain ⟨h1, h2, -, -⟩ := key g' i e
        have := hall g' h1
        rw [h2] at this
        cases this

/-! ## Theorems -/

/-- The example evaluates the first sample `g` that the model predicts rightly, but removes training samples by the scores of test
sample `g % batchSize`. -/
theorem C204_result (enum : Finset ℕ → List ℕ) (argsort : (ℕ → ℚ) → List ℕ) (score : ℕ → ℕ → ℚ) (predict : List ℕ → ℕ → ℤ)
    (label : ℕ → ℤ) (n B : ℕ) (hB : 0 < B) (g : ℕ) (hg : FirstRight predict label n g)
    (hsort : IsArgsort (fun t => score t (g % B)) n (argsort fun t => score t (g % B))) :
    ∃ r, brittleExample enum argsort score predict label n B = .ok r ∧
      SmallestFlip enum (fun t => score t (g % B)) predict label n g r := by
  have hf := (findCorrect_batches (fun g => decide (predict (List.range n) g = label g)) n B hB).1 g
    ⟨hg.1, by simpa using hg.2.1, fun h hh => by simpa using hg.2.2 h hh⟩
  have heq : brittleExample enum argsort score predict label n B =
      brittleness enum (some (List.range n)) [[label g]] (fun r => predict r g) (.vec (argsort fun t => score t (g % B)))
        (some exampleSpace) := by
    unfold brittleExample
    rw [hf]
  obtain ⟨T, hT, r, hr, hs, hn⟩ := C48_first_flip enum (List.range n) [[label g]] (label g) rfl (fun r => predict r g)
    (fun t => score t (g % B)) n (argsort fun t => score t (g % B)) hsort exampleSpace
  have hrange : (List.range n).toFinset = Finset.range n := by ext; simp
  rw [hrange] at hs hn
  refine ⟨r, heq.trans hr, T, hT, ?_, hn⟩
  intro k
  rw [hs k]
  have hasc : exampleSpace.Pairwise (· < ·) := by decide
  constructor
  · rintro ⟨pre, post, e, hk, hpre⟩
    refine ⟨by rw [e]; simp, hk, ?_⟩
    intro k' hk' hlt
    rw [e] at hk' hasc
    rw [List.pairwise_append] at hasc
    rcases List.mem_append.1 hk' with h | h
    · exact hpre k' h
    · rcases List.mem_cons.1 h with rfl | h
      · omega
      · have := (List.pairwise_cons.1 hasc.2.1).1 k' h
        omega
  · rintro ⟨hmem, hk, hbef⟩
    obtain ⟨pre, post, e⟩ := List.append_of_mem hmem
    refine ⟨pre, post, e, hk, ?_⟩
    intro k' hk'
    refine hbef k' (by rw [e]; simp [hk']) ?_
    rw [e, List.pairwise_append] at hasc
    exact hasc.2.2 k' hk' k (by simp)

/-- The scores are those of the evaluated sample exactly if it lies in the first batch; otherwise they belong to an earlier sample,
which the model predicts wrongly. -/
theorem C204_column (predict : List ℕ → ℕ → ℤ) (label : ℕ → ℤ) (n B : ℕ) (hB : 0 < B) (g : ℕ) (hg : FirstRight predict label n g) :
    (g % B = g ↔ g < B) ∧ (B ≤ g → predict (List.range n) (g % B) ≠ label (g % B)) := by
  refine ⟨⟨fun h => h ▸ Nat.mod_lt g hB, Nat.mod_eq_of_lt⟩, fun h => hg.2.2 _ ?_⟩
  exact lt_of_lt_of_le (Nat.mod_lt g hB) h

/-- If no sample is predicted rightly, the example raises `AttributeError`. -/
theorem C204_none (enum : Finset ℕ → List ℕ) (argsort : (ℕ → ℚ) → List ℕ) (score : ℕ → ℕ → ℚ) (predict : List ℕ → ℕ → ℤ)
    (label : ℕ → ℤ) (n B : ℕ) (hB : 0 < B) (h : ∀ g < n, predict (List.range n) g ≠ label g) :
    brittleExample enum argsort score predict label n B = .error .attributeError := by
  have hf := (findCorrect_batches (fun g => decide (predict (List.range n) g = label g)) n B hB).2
    (fun g hg => by simpa using h g hg)
  unfold brittleExample
  rw [hf]

theorem columns_sorted (t : ℕ) : IsArgsort (fun i : ℕ => if t = 1 then -(i : ℚ) else i) 200
    (if (fun i : ℕ => if t = 1 then -(i : ℚ) else (i : ℚ)) 0 ≤ (fun i : ℕ => if t = 1 then -(i : ℚ) else (i : ℚ)) 1
      then List.range 200 else (List.range 200).reverse) := by
  have hlt : (List.range 200).Pairwise (· < ·) := List.pairwise_lt_range
  by_cases ht : t = 1
  · subst ht
    simp only [if_true]
    rw [if_neg (by norm_num)]
    refine ⟨List.reverse_perm _, ?_⟩
    rw [List.pairwise_reverse]
    exact hlt.imp fun h => by simpa using h.le
  · simp only [ht, if_false]
    rw [if_pos (by norm_num)]
    exact ⟨List.Perm.refl _, hlt.imp fun h => by simpa using h.le⟩

/-- The two columns can give different answers. -/
theorem C204_wrong_column : ∃ (enum : Finset ℕ → List ℕ) (argsort : (ℕ → ℚ) → List ℕ) (score : ℕ → ℕ → ℚ)
    (predict : List ℕ → ℕ → ℤ) (label : ℕ → ℤ) (n B g : ℕ), 0 < B ∧ FirstRight predict label n g ∧
    (∀ t, IsArgsort (fun i => score i t) n (argsort fun i => score i t)) ∧
    brittleExample enum argsort score predict label n B = .ok none ∧
    SmallestFlip enum (fun t => score t g) predict label n g (some 20) := by
  refine ⟨fun s => (List.range 200).filter (· ∈ s), fun s => if s 0 ≤ s 1 then List.range 200 else (List.range 200).reverse,
    fun i t => if t = 1 then -(i : ℚ) else i, fun r g => if g = 1 then (if 0 ∈ r then 0 else 1) else 1, fun _ => 0, 200, 1, 1,
    by decide, ⟨by decide, by simp, fun h hh => by simp [Nat.lt_one_iff.1 hh]⟩, ?_, ?_, ?_⟩
  · exact columns_sorted
  · obtain ⟨r, hr, T, hT, -, hn⟩ := C204_result (fun s => (List.range 200).filter (· ∈ s))
      (fun s => if s 0 ≤ s 1 then List.range 200 else (List.range 200).reverse)
      (fun i t => if t = 1 then -(i : ℚ) else i) (fun r g => if g = 1 then (if 0 ∈ r then 0 else 1) else 1) (fun _ => 0) 200 1
      (by decide) 1 ⟨by decide, by simp, fun h hh => by simp [Nat.lt_one_iff.1 hh]⟩ (columns_sorted _)
    suffices h : r = none by rw [← h]; exact hr
    rw [hn]
    intro k hk
    have h0 : 0 ∉ T k := by
      intro h0
      obtain ⟨h1, h2, h3⟩ := hT k
      have hall : Finset.range 200 ⊆ T k := by
        intro b hb
        by_contra hnb
        have hb0 : b ≠ 0 := fun e => hnb (e ▸ h0)
        have := h3 0 h0 b hb hnb
        simp only [Nat.mod_one, zero_ne_one, if_false, Nat.cast_zero] at this
        exact hb0 (by exact_mod_cast le_antisymm this (Nat.cast_nonneg b))
      have hc := Finset.card_le_card hall
      rw [h2, Finset.card_range] at hc
      have : ∀ k ∈ exampleSpace, k ≤ 180 := by decide
      have := this k hk
      omega
    simp [h0]
  · have hT : ∀ k, IsTop (fun t : ℕ => if (1 : ℕ) = 1 then -(t : ℚ) else t) 200 k (Finset.range (min k 200)) := by
      intro k
      refine ⟨?_, by simp, ?_⟩
      · intro x hx
        simp only [Finset.mem_range] at hx ⊢
        omega
      · intro a ha b _ hb
        simp only [Finset.mem_range] at ha hb
        simp only [if_true, neg_le_neg_iff, Nat.cast_le]
        omega
    have hflip : ∀ k ∈ exampleSpace, 0 ∉ (List.range 200).filter (· ∈ (Finset.range 200 \ Finset.range (min k 200))) := by
      have hpos : ∀ k ∈ exampleSpace, 0 < k := by decide
      intro k hk
      have := hpos k hk
      simp
      omega
    refine ⟨fun k => Finset.range (min k 200), hT, ?_, ?_⟩
    · intro k
      constructor
      · intro e
        injection e with e
        subst e
        refine ⟨by decide, ?_, ?_⟩
        · simp only [if_true, if_neg (hflip 20 (by decide))]
          decide
        · have : ∀ k' ∈ exampleSpace, ¬ k' < 20 := by decide
          intro k' hk' hlt
          exact absurd hlt (this k' hk')
      · rintro ⟨hk, -, hb⟩
        by_contra hne
        have : ∀ k ∈ exampleSpace, 20 ≤ k := by decide
        have h20 := this k hk
        have hlt : 20 < k := lt_of_le_of_ne h20 fun e => hne (by rw [e])
        have := hb 20 (by decide) hlt
        simp only [if_true, if_neg (hflip 20 (by decide))] at this
        exact absurd this (by decide)
    · constructor
      · intro h; cases h
      · intro h
        have := h 20 (by decide)
        simp only [if_true, if_neg (hflip 20 (by decide))] at this
        exact absurd this (by decide)

/-! ## Examples -/

/-- Batches of two; the first right sample is the fourth, so the position kept is 1. -/
example : findCorrect (fun g => decide (3 ≤ g)) (batches 2 (List.range 5)) = some (3, 1) := by decide

end Verif.Brittle
