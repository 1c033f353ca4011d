import Mathlib.Tactic.Linarith
import Mathlib.Data.List.GetD
import Mathlib.Data.List.Perm.Subperm
import Verif.Bench.FlipModel

/-!
# C49: flipping labels
-/

namespace Verif.Flip

/-- Specification of the outcome of `rng.choice(n, size, replace=False)`. -/
def IsSample (n : ℕ) (size : ℤ) (noise : List ℕ) : Prop := noise.Nodup ∧ (∀ i ∈ noise, i < n) ∧ (noise.length : ℤ) = size

lemma randomFlip_spec (space : List Elem) (x : ℤ) (d : ℕ) (s' : List Elem) (y : ℤ) (h : randomFlip space x d = .ok (s', y)) :
    (∃ e ∈ space, e ≠ .num x ∧ e.val = y) ∧ ∀ e, e ∈ s' ↔ e ∈ space ∨ e = .num x := by
  unfold randomFlip at h
  simp only at h
  split_ifs at h with hl
  injection h with h
  injection h with h1 h2
  constructor
  · refine ⟨_, ?_, ?_, h2⟩
    · exact (List.mem_filter.1 (List.getElem_mem _)).1
    · have := (List.mem_filter.1 (List.getElem_mem (l := space.filter (· ≠ .num x)) (Nat.mod_lt d (Nat.pos_of_ne_zero hl)))).2
      simpa using this
  · intro e
    rw [← h1, List.mem_append, List.mem_filter, List.mem_singleton]
    by_cases he : e = .num x <;> simp [he]

lemma randomFlip_ok_iff (space : List Elem) (x : ℤ) (d : ℕ) : (∃ r, randomFlip space x d = .ok r) ↔ ∃ e ∈ space, e ≠ .num x := by
  unfold randomFlip
  simp only
  split_ifs with hl
  · simp only [exists_false, false_iff]
    rw [List.length_eq_zero_iff, List.filter_eq_nil_iff] at hl
    rintro ⟨e, he, hne⟩
    exact hl e he (by simpa using hne)
  · simp only [Except.ok.injEq, exists_eq', true_iff]
    rw [List.length_eq_zero_iff, List.filter_eq_nil_iff] at hl
    push Not at hl
    obtain ⟨e, he, h⟩ := hl
    exact ⟨e, he, by simpa using h⟩

lemma flipAll_spec (draw : ℕ → ℕ) (d : ℕ) (space : List Elem) (xs ys : List ℤ) (h : flipAll draw d space xs = .ok ys) :
    ys.length = xs.length ∧ ∀ i (hi : i < xs.length) (hi' : i < ys.length),
      ∃ e, (e ∈ space ∨ ∃ j, ∃ hj : j < i, e = .num xs[j]) ∧ e ≠ .num xs[i] ∧ e.val = ys[i] := by
  induction xs generalizing d space ys with
  | nil => simp only [flipAll, Except.ok.injEq] at h; subst h; exact ⟨rfl, by simp⟩
  | cons x xs ih =>
    simp only [flipAll, bind, Except.bind] at h
    cases hr : randomFlip space x (draw d) with
    | error e => rw [hr] at h; exact absurd h (by simp)
    | ok r =>
      obtain ⟨s', y⟩ := r
      rw [hr] at h
      simp only at h
      cases hf : flipAll draw (d + 1) s' xs with
      | error e => rw [hf] at h; exact absurd h (by simp)
      | ok zs =>
        rw [hf] at h
        simp only [Except.ok.injEq] at h
        subst h
        obtain ⟨hlen, hi⟩ := ih (d + 1) s' zs hf
        obtain ⟨h1, h2⟩ := randomFlip_spec space x (draw d) s' y hr
        refine ⟨by simp [hlen], ?_⟩
        intro i hi1 hi2
        cases i with
        | zero =>
          obtain ⟨e, he, hne, hv⟩ := h1
          exact ⟨e, Or.inl he, hne, hv⟩
        | succ i =>
          obtain ⟨e, he, hne, hv⟩ := hi i (by simpa using hi1) (by simpa using hi2)
          refine ⟨e, ?_, by simpa using hne, by simpa using hv⟩
          rcases he with he | ⟨j, hj, he⟩
          · rcases (h2 e).1 he with h | h
            · exact Or.inl h
            · exact Or.inr ⟨0, by omega, by simpa using h⟩
          · exact Or.inr ⟨j + 1, by omega, by simpa using he⟩

lemma flipAll_ok (draw : ℕ → ℕ) (d : ℕ) (space : List Elem) (xs : List ℤ) (h : ∀ x, ∃ e ∈ space, e ≠ .num x) :
    ∃ ys, flipAll draw d space xs = .ok ys := by
  induction xs generalizing d space with
  | nil => exact ⟨[], rfl⟩
  | cons x xs ih =>
    obtain ⟨⟨s', y⟩, hr⟩ := (randomFlip_ok_iff space x (draw d)).2 (h x)
    have h2 := (randomFlip_spec space x (draw d) s' y hr).2
    obtain ⟨ys, hys⟩ := ih (d + 1) s' (fun z => by
      obtain ⟨e, he, hne⟩ := h z
      exact ⟨e, (h2 e).2 (Or.inl he), hne⟩)
    exact ⟨y :: ys, by simp only [flipAll, hr, bind, Except.bind, hys]⟩

lemma scatter_length (labels : List ℤ) (upd : List (ℕ × ℤ)) : (scatter labels upd).length = labels.length := by
  induction upd generalizing labels with
  | nil => rfl
  | cons u upd ih => simp only [scatter, List.foldl_cons] at *; rw [ih]; simp

lemma scatter_getD (labels : List ℤ) (upd : List (ℕ × ℤ)) (i : ℕ) (hi : i < labels.length) (hnd : (upd.map Prod.fst).Nodup) :
    (i ∉ upd.map Prod.fst → (scatter labels upd).getD i 0 = labels.getD i 0) ∧ (∀ v, (i, v) ∈ upd → (scatter labels upd).getD i 0 = v) := by
  induction upd generalizing labels with
  | nil => exact ⟨fun _ => rfl, by simp⟩
  | cons u upd ih =>
    simp only [List.map_cons, List.nodup_cons] at hnd
    obtain ⟨h1, h2⟩ := ih (labels.set u.1 u.2) (by simpa using hi) hnd.2
    have hsc : scatter labels (u :: upd) = scatter (labels.set u.1 u.2) upd := rfl
    constructor
    · intro hn
      simp only [List.map_cons, List.mem_cons, not_or] at hn
      rw [hsc, h1 hn.2]
      simp only [List.getD_eq_getElem?_getD]
      rw [List.getElem?_set_ne (Ne.symm hn.1)]
    · intro v hv
      rcases List.mem_cons.1 hv with rfl | hv
      · rw [hsc, h1 hnd.1]
        simp [List.getD_eq_getElem?_getD, hi]
      · rw [hsc, h2 v hv]

/-- Result of a successful call, before interpreting the label space. -/
lemma flip_main (labels : List ℤ) (space : Space) (size : ℤ) (noise : List ℕ) (draw : ℕ → ℕ) (hs : IsSample labels.length size noise)
    (flipped : List ℤ) (idx : List ℕ) (h : flipLabel true labels space size noise draw = .ok (flipped, idx)) :
    idx = noise ∧ flipped.length = labels.length ∧ (∀ i < labels.length, i ∉ idx → flipped.getD i 0 = labels.getD i 0) ∧
    ∀ i ∈ idx, ∃ e, (e ∈ space.toSet labels ∨ ∃ j ∈ idx, e = .num (labels.getD j 0)) ∧ e ≠ .num (labels.getD i 0) ∧
      e.val = flipped.getD i 0 := by
  obtain ⟨hnd, hlt, hlen⟩ := hs
  unfold flipLabel at h
  by_cases hsz : size < 0 ∨ (labels.length : ℤ) < size
  · rw [if_pos hsz] at h; exact absurd h (by simp)
  rw [if_neg hsz] at h
  cases hv : vectorized draw (space.toSet labels) (noise.map fun i => labels.getD i 0) with
  | error e => rw [hv] at h; exact absurd h (by simp [bind, Except.bind])
  | ok noisy =>
    rw [hv] at h
    simp only [bind, Except.bind, if_true, Except.ok.injEq, Prod.mk.injEq] at h
    obtain ⟨rfl, rfl⟩ := h
    -- the space used for the second pass
    obtain ⟨s', d, hf, hs'⟩ : ∃ s' d, flipAll draw d s' (noise.map fun i => labels.getD i 0) = .ok noisy ∧
        ∀ e ∈ s', e ∈ space.toSet labels ∨ ∃ j ∈ noise, e = .num (labels.getD j 0) := by
      rcases noise with _ | ⟨i0, rest⟩
      · simp [vectorized] at hv
      · simp only [List.map_cons, vectorized, bind, Except.bind] at hv
        cases hr : randomFlip (space.toSet labels) (labels.getD i0 0) (draw 0) with
        | error e => rw [hr] at hv; exact absurd hv (by simp)
        | ok r =>
          obtain ⟨s', y⟩ := r
          rw [hr] at hv
          refine ⟨s', 1, hv, ?_⟩
          intro e he
          rcases ((randomFlip_spec _ _ _ _ _ hr).2 e).1 he with h | h
          · exact Or.inl h
          · exact Or.inr ⟨i0, by simp, h⟩
    obtain ⟨hl2, hspec⟩ := flipAll_spec draw d s' _ noisy hf
    rw [List.length_map] at hl2
    have hkeys : (noise.zip noisy).map Prod.fst = noise := List.map_fst_zip (by omega)
    refine ⟨rfl, scatter_length _ _, ?_, ?_⟩
    · intro i hi hni
      exact (scatter_getD labels _ i hi (by rw [hkeys]; exact hnd)).1 (by rw [hkeys]; exact hni)
    · intro i hi
      obtain ⟨p, hp, rfl⟩ := List.getElem_of_mem hi
      have hp' : p < noisy.length := by omega
      obtain ⟨e, he, hne, hval⟩ := hspec p (by simpa using hp) hp'
      have hset := (scatter_getD labels (noise.zip noisy) noise[p] (hlt _ hi) (by rw [hkeys]; exact hnd)).2 noisy[p]
        (by rw [← List.getElem_zip (i := p) (h := by simp; omega)]; exact List.getElem_mem _)
      refine ⟨e, ?_, by simpa using hne, by rw [hval, hset]⟩
      rcases he with he | ⟨j, hj, he⟩
      · exact hs' e he
      · exact Or.inr ⟨noise[j], List.getElem_mem _, by simpa using he⟩

/-- **C49** (exactly the reported labels). With labels inferred or given as numbers, a successful call returns the sampled positions, exactly `int(p*n)`
distinct ones; labels elsewhere are untouched, and each reported label becomes a different label from the label space (or one of the original labels of
the flipped positions, if a custom space lacked them). -/
theorem C49_flips_exactly (labels : List ℤ) (space : Space) (hspace : ∀ l, space ≠ .tensor l) (size : ℤ) (noise : List ℕ) (draw : ℕ → ℕ)
    (hs : IsSample labels.length size noise) (flipped : List ℤ) (idx : List ℕ)
    (h : flipLabel true labels space size noise draw = .ok (flipped, idx)) :
    idx.Nodup ∧ (idx.length : ℤ) = size ∧ flipped.length = labels.length ∧
    (∀ i < labels.length, flipped.getD i 0 ≠ labels.getD i 0 ↔ i ∈ idx) ∧
    ∀ i ∈ idx, .num (flipped.getD i 0) ∈ space.toSet labels ∨ ∃ j ∈ idx, flipped.getD i 0 = labels.getD j 0 := by
  obtain ⟨rfl, h1, h2, h3⟩ := flip_main labels space size noise draw hs flipped idx h
  have hnum : ∀ e ∈ space.toSet labels, ∃ v, e = .num v := by
    intro e he
    cases space with
    | default => obtain ⟨v, -, rfl⟩ := List.mem_map.1 he; exact ⟨v, rfl⟩
    | values l => obtain ⟨v, -, rfl⟩ := List.mem_map.1 he; exact ⟨v, rfl⟩
    | tensor l => exact absurd rfl (hspace l)
  have hkey : ∀ i ∈ idx, (.num (flipped.getD i 0) ∈ space.toSet labels ∨ ∃ j ∈ idx, flipped.getD i 0 = labels.getD j 0) ∧
      flipped.getD i 0 ≠ labels.getD i 0 := by
    intro i hi
    obtain ⟨e, he, hne, hv⟩ := h3 i hi
    rcases he with he | ⟨j, hj, rfl⟩
    · obtain ⟨v, rfl⟩ := hnum e he
      simp only [Elem.val] at hv
      rw [← hv]
      exact ⟨Or.inl he, fun e => hne (by rw [e])⟩
    · simp only [Elem.val] at hv
      rw [← hv]
      exact ⟨Or.inr ⟨j, hj, rfl⟩, fun e => hne (by rw [e])⟩
  refine ⟨hs.1, hs.2.2, h1, ?_, fun i hi => (hkey i hi).1⟩
  intro i hi
  constructor
  · intro hne
    by_contra hni
    exact hne (h2 i hi hni)
  · intro hm; exact (hkey i hm).2

/-- **C49** (inferred space). With the default label space every new label occurs in the original labels. -/
theorem C49_default_space (labels : List ℤ) (size : ℤ) (noise : List ℕ) (draw : ℕ → ℕ) (hs : IsSample labels.length size noise)
    (flipped : List ℤ) (idx : List ℕ) (h : flipLabel true labels .default size noise draw = .ok (flipped, idx)) :
    ∀ i ∈ idx, flipped.getD i 0 ∈ labels := by
  intro i hi
  obtain ⟨-, -, -, -, h5⟩ := C49_flips_exactly labels .default (by simp) size noise draw hs flipped idx h
  obtain ⟨rfl, -⟩ := flip_main labels .default size noise draw hs flipped idx h
  rcases h5 i hi with h | ⟨j, hj, h⟩
  · obtain ⟨v, hv, he⟩ := List.mem_map.1 h
    injection he with he
    rw [← he]; exact List.mem_dedup.1 hv
  · rw [h]
    have := hs.2.1 j hj
    rw [List.getD_eq_getElem _ _ this]
    exact List.getElem_mem _

/-- **C49** (when it succeeds). On a tensor with a sample of at least one position the call succeeds iff the label space contains a label other than
the first flipped one. -/
theorem C49_success_iff (labels : List ℤ) (space : Space) (size : ℤ) (i0 : ℕ) (rest : List ℕ) (draw : ℕ → ℕ)
    (hs : IsSample labels.length size (i0 :: rest)) :
    (∃ r, flipLabel true labels space size (i0 :: rest) draw = .ok r) ↔ ∃ e ∈ space.toSet labels, e ≠ .num (labels.getD i0 0) := by
  have hsz : ¬ (size < 0 ∨ (labels.length : ℤ) < size) := by
    have h1 := hs.2.2
    have h2 : (i0 :: rest).length ≤ labels.length := by
      have := (List.subperm_of_subset (l₂ := List.range labels.length) hs.1 (fun i hi => List.mem_range.2 (hs.2.1 i hi))).length_le
      simpa using this
    push Not
    omega
  unfold flipLabel
  rw [if_neg hsz]
  simp only [List.map_cons, vectorized, bind, Except.bind, if_true]
  rw [← randomFlip_ok_iff _ _ (draw 0)]
  cases hr : randomFlip (space.toSet labels) (labels.getD i0 0) (draw 0) with
  | error e => simp
  | ok r =>
    obtain ⟨s', y⟩ := r
    simp only [Except.ok.injEq, exists_eq', iff_true]
    obtain ⟨⟨e, he, hne, -⟩, h2⟩ := randomFlip_spec _ _ _ _ _ hr
    obtain ⟨ys, hys⟩ := flipAll_ok draw 1 s' (labels.getD i0 0 :: rest.map fun i => labels.getD i 0) (fun z => by
      by_cases hz : e = .num z
      · exact ⟨.num (labels.getD i0 0), (h2 _).2 (Or.inr rfl), fun h => hne (by rw [hz, h])⟩
      · exact ⟨e, (h2 _).2 (Or.inl he), hz⟩)
    rw [hys]
    exact ⟨_, rfl⟩

/-- **C49** (nothing to flip). If `int(p*n) = 0` the call raises `ValueError` instead of returning the labels unchanged. -/
theorem C49_zero_raises (isTensor : Bool) (labels : List ℤ) (space : Space) (noise : List ℕ) (draw : ℕ → ℕ) (hs : IsSample labels.length 0 noise) :
    flipLabel isTensor labels space 0 noise draw = .error .valueError := by
  have : noise = [] := by
    have := hs.2.2
    rw [← List.length_eq_zero_iff]; omega
  subst this
  simp [flipLabel, vectorized, bind, Except.bind]

/-- **C49** (numpy). A numpy array never succeeds. -/
theorem C49_numpy_raises (labels : List ℤ) (space : Space) (size : ℤ) (noise : List ℕ) (draw : ℕ → ℕ) :
    ∃ e, flipLabel false labels space size noise draw = .error e := by
  unfold flipLabel
  by_cases hsz : size < 0 ∨ (labels.length : ℤ) < size
  · rw [if_pos hsz]; exact ⟨_, rfl⟩
  · rw [if_neg hsz]
    cases vectorized draw (space.toSet labels) (noise.map fun i => labels.getD i 0) with
    | error e => exact ⟨e, rfl⟩
    | ok v => exact ⟨.attributeError, rfl⟩

/-- **C49** (tensor label space). A label space passed as a tensor does not exclude the current label: a "flipped" label can stay the same. -/
theorem C49_tensor_space_keeps_label : ∃ (labels l : List ℤ) (noise : List ℕ) (draw : ℕ → ℕ), IsSample labels.length 1 noise ∧
    flipLabel true labels (.tensor l) 1 noise draw = .ok (labels, noise) := by
  refine ⟨[0, 1], [0, 1], [0], fun _ => 0, ⟨by decide, by decide, by decide⟩, by decide +kernel⟩

example : IsSample 4 2 [2, 0] ∧ flipLabel true [0, 1, 1, 2] .default 2 [2, 0] (fun d => d) = .ok ([2, 1, 2, 2], [2, 0]) := by
  refine ⟨⟨by decide, by decide, by decide⟩, by decide +kernel⟩

end Verif.Flip
