import Mathlib.Data.List.Forall2
import Verif.BlockIF.ConcatModel

/-!
# Concatenation and splitting of per-layer gradients (property C57)
-/

namespace Verif.BlockIF

open Verif

variable {K : Type} [Zero K]

/-! ### Specification -/

/-- `g` is a `B × d` matrix. -/
def Rect (B d : ℕ) (g : Grad K) : Prop := g.length = B ∧ ∀ r ∈ g, r.length = d

/-- A gradient for a layer of dimension `d`: a non-empty `B × d` matrix or an empty tensor. -/
def Fits (B : ℕ) (g : Grad K) (d : ℕ) : Prop := g.flatten ≠ [] → Rect B d g

/-- What reading the layer back should give. -/
def expected (B : ℕ) (g : Grad K) (d : ℕ) : Grad K :=
  if g.flatten = [] then List.replicate B (List.replicate d 0) else g

omit [Zero K] in
theorem nonEmpty_iff (g : Grad K) : nonEmpty g = true ↔ g.flatten ≠ [] := by
  unfold nonEmpty; simp

theorem expected_rect {B d : ℕ} {g : Grad K} (h : Fits B g d) : Rect B d (expected B g d) := by
  unfold expected
  split_ifs with h0
  · exact ⟨by simp, fun r hr => by rw [List.eq_of_mem_replicate hr]; simp⟩
  · exact h h0

omit [Zero K] in
theorem width_rect {B d : ℕ} {g : Grad K} (h : Rect B d g) (h0 : g ≠ []) : width g = d := by
  rcases g with _ | ⟨r, g⟩
  · exact absurd rfl h0
  · exact h.2 r List.mem_cons_self

theorem place_fits {B d : ℕ} {g : Grad K} (h : Fits B g d) :
    place B d g = .ok (expected B g d) := by
  unfold place expected
  by_cases h0 : g.flatten = []
  · rw [if_neg (by rw [nonEmpty_iff]; exact not_not.2 h0), if_pos h0]
  · rw [if_pos ((nonEmpty_iff g).2 h0), if_neg h0]
    have hr := h h0
    have hg : g ≠ [] := by rintro rfl; exact h0 rfl
    rw [width_rect hr hg, hr.1]
    simp [bcast]

theorem fillLayers_ok {B : ℕ} {gs : List (Grad K)} {ds : List ℕ}
    (h : List.Forall₂ (Fits B) gs ds) :
    ∃ t, fillLayers B (gs.map some) ds = .ok t ∧ t.length = B ∧
      (∀ r ∈ t, r.length = ds.sum) ∧
      ∀ pre : Grad K, pre.length = B → ∀ s, (∀ r ∈ pre, r.length = s) →
        splitGo s (List.zipWith (· ++ ·) pre t) ds = List.zipWith (expected B) gs ds := by
  induction h with
  | nil =>
    exact ⟨_, rfl, by simp, fun r hr => by rw [List.eq_of_mem_replicate hr]; simp,
      fun _ _ _ _ => rfl⟩
  | @cons g d gs ds hg _ ih =>
    obtain ⟨t, ht, hlen, hrow, hsplit⟩ := ih
    have hrect := expected_rect hg
    set e := expected B g d with he
    refine ⟨List.zipWith (· ++ ·) e t, ?_, ?_, ?_, ?_⟩
    · simp only [List.map_cons, fillLayers, need, place_fits hg, ht, bind, Except.bind]
      rfl
    · rw [List.length_zipWith, hrect.1, hlen]; exact Nat.min_self B
    · intro r hr
      obtain ⟨i, hi, rfl⟩ := List.getElem_of_mem hr
      rw [List.getElem_zipWith, List.length_append, hrect.2 _ (List.getElem_mem _),
        hrow _ (List.getElem_mem _), List.sum_cons]
    · intro pre hpre s hs
      have hassoc : List.zipWith (· ++ ·) pre (List.zipWith (· ++ ·) e t) =
          List.zipWith (· ++ ·) (List.zipWith (· ++ ·) pre e) t := by
        apply List.ext_getElem
        · simp only [List.length_zipWith]; omega
        · intro i h1 h2
          simp
      simp only [splitGo, List.zipWith_cons_cons]
      congr 1
      · apply List.ext_getElem
        · have := hrect.1
          rw [he] at this
          simp only [List.length_map, List.length_zipWith, hpre, hrect.1, hlen]
          omega
        · intro i h1 h2
          simp only [List.getElem_map, List.getElem_zipWith]
          have hi : i < B := by rw [← hrect.1]; exact h2
          have hs' : (pre[i]'(by omega)).length = s := hs _ (List.getElem_mem _)
          have he' : (e[i]'h2).length = d := hrect.2 _ (List.getElem_mem _)
          have hdt : ∀ a b c : List K, ∀ s d, a.length = s → b.length = d →
              (List.drop s (a ++ (b ++ c))).take d = b := by
            rintro a b c _ _ rfl rfl
            rw [List.drop_left, List.take_left]
          exact hdt _ _ _ _ _ hs' he'
      · rw [hassoc]
        apply hsplit
        · rw [List.length_zipWith, hpre, hrect.1]; exact Nat.min_self B
        · intro r hr
          obtain ⟨i, hi, rfl⟩ := List.getElem_of_mem hr
          rw [List.getElem_zipWith, List.length_append, hs _ (List.getElem_mem _),
            hrect.2 _ (List.getElem_mem _)]

omit [Zero K] in
theorem firstRows_ok {B : ℕ} {gs : List (Grad K)} {ds : List ℕ}
    (h : List.Forall₂ (Fits B) gs ds) (hne : ∃ g ∈ gs, g.flatten ≠ []) :
    firstRows (gs.map some) = .ok B := by
  induction h with
  | nil => obtain ⟨g, hg, _⟩ := hne; cases hg
  | @cons g d gs ds hg _ ih =>
    simp only [List.map_cons, firstRows]
    by_cases h0 : g.flatten = []
    · rw [if_neg (by rw [nonEmpty_iff]; exact not_not.2 h0)]
      apply ih
      obtain ⟨g', hg', h1⟩ := hne
      rcases List.mem_cons.1 hg' with rfl | h2
      · exact absurd h0 h1
      · exact ⟨g', h2, h1⟩
    · rw [if_pos ((nonEmpty_iff g).2 h0), (hg h0).1]

omit [Zero K] in
theorem pos_of_fits {B : ℕ} {gs : List (Grad K)} {ds : List ℕ}
    (h : List.Forall₂ (Fits B) gs ds) (hne : ∃ g ∈ gs, g.flatten ≠ []) : B ≠ 0 := by
  rintro rfl
  obtain ⟨g, hg, h0⟩ := hne
  obtain ⟨i, hi, rfl⟩ := List.getElem_of_mem hg
  have := (h.get hi (by rw [← h.length_eq]; exact hi)) h0
  have h1 : gs[i] = [] := List.length_eq_zero_iff.1 this.1
  exact h0 (by rw [h1]; rfl)

/-- **C57.** For all layer dimensions and all gradients of matching shapes, at least one of them
non-empty, storing succeeds and splitting restores every layer's gradient; empty gradients come
back as zeros of the layer's dimension. -/
theorem C57_round_trip {B : ℕ} {gs : List (Grad K)} {ds : List ℕ}
    (h : List.Forall₂ (Fits B) gs ds) (hne : ∃ g ∈ gs, g.flatten ≠ []) :
    ∃ t, concat (some ds) (gs.map some) = .ok (ds, t) ∧ Rect B ds.sum t ∧
      split (some ds) t = .ok (List.zipWith (expected B) gs ds) := by
  obtain ⟨t, ht, hlen, hrow, hsplit⟩ := fillLayers_ok h
  refine ⟨t, ?_, ⟨hlen, hrow⟩, ?_⟩
  · simp only [concat, ensureDims, firstRows_ok h hne, bind, Except.bind, if_neg (pos_of_fits h hne),
      ht]
  · have := hsplit (List.replicate B []) (by simp) 0
      (fun r hr => by rw [List.eq_of_mem_replicate hr]; rfl)
    have hz : List.zipWith (· ++ ·) (List.replicate B []) t = t := by
      apply List.ext_getElem
      · simp [hlen]
      · intro i h1 h2; simp
    rw [hz] at this
    simp only [split, this]

omit [Zero K] in
/-- The dimensions a first batch defines. -/
theorem ensureDims_none (gs : List (Grad K)) :
    ensureDims none (gs.map some) = .ok (gs.map fun g => if g.flatten = [] then 0 else width g) := by
  unfold ensureDims
  simp only
  induction gs with
  | nil => rfl
  | cons g gs ih =>
    have : dimOf g = if g.flatten = [] then 0 else width g := by
      unfold dimOf
      by_cases h0 : g.flatten = []
      · rw [if_neg (by rw [nonEmpty_iff]; exact not_not.2 h0), if_pos h0]
      · rw [if_pos ((nonEmpty_iff g).2 h0), if_neg h0]
    rw [List.map_cons, List.mapM_cons, ih]
    simp [need, Except.map, this, bind, Except.bind, pure, Except.pure]

/-- **C57 (first batch).** When no dimensions are known they are taken from the batch itself, and the
round trip holds; a layer that is empty in that first batch is recorded with dimension 0. -/
theorem C57_first_batch {B : ℕ} {gs : List (Grad K)}
    (hr : ∀ g ∈ gs, g.flatten ≠ [] → Rect B (width g) g) (hne : ∃ g ∈ gs, g.flatten ≠ []) :
    ∃ ds t, concat none (gs.map some) = .ok (ds, t) ∧
      ds = gs.map (fun g => if g.flatten = [] then 0 else width g) ∧
      split (some ds) t = .ok (List.zipWith (expected B) gs ds) := by
  set ds := gs.map (fun g => if g.flatten = [] then 0 else width g) with hds
  have hf : List.Forall₂ (Fits B) gs ds := by
    rw [hds, List.forall₂_map_right_iff, List.forall₂_same]
    intro g hg h0
    rw [if_neg h0]
    exact hr g hg h0
  obtain ⟨t, ht, _, hs⟩ := C57_round_trip hf hne
  refine ⟨ds, t, ?_, rfl, hs⟩
  rw [← ht]
  unfold concat
  rw [ensureDims_none]
  rfl

/-- **C57 (no gradient at all).** If all gradients are empty the batch is stored with no rows. -/
theorem C57_all_empty (gs : List (Grad K)) (ds : List ℕ) (h : ∀ g ∈ gs, g.flatten = []) :
    concat (some ds) (gs.map some) = .ok (ds, []) := by
  have : firstRows (gs.map some) = .ok 0 := by
    induction gs with
    | nil => rfl
    | cons g gs ih =>
      have h0 := h g List.mem_cons_self
      simp only [List.map_cons, firstRows]
      rw [if_neg (by rw [nonEmpty_iff]; exact not_not.2 h0)]
      exact ih fun g' hg' => h g' (List.mem_cons_of_mem _ hg')
  simp only [concat, ensureDims, this, bind, Except.bind, if_true]

theorem fillLayers_missing {B : ℕ} {gs : List (Option (Grad K))} {ds : List ℕ}
    (h : List.Forall₂ (fun g d => ∀ g', g = some g' → Fits B g' d) gs ds) (hn : none ∈ gs) :
    fillLayers B gs ds = .error .attributeError := by
  induction h with
  | nil => cases hn
  | @cons g d gs ds hg _ ih =>
    rcases g with _ | g
    · rfl
    · have hn' : none ∈ gs := by simpa using hn
      simp only [fillLayers, need, place_fits (hg g rfl), ih hn', bind, Except.bind]

/-- **C57 (missing gradient).** A layer whose gradient is `None` - a hooked layer that the backward
pass did not reach - is not stored as zeros: storing the batch raises `AttributeError`. -/
theorem C57_missing {B : ℕ} {gs : List (Option (Grad K))} {ds : List ℕ} (hB : B ≠ 0)
    (h : List.Forall₂ (fun g d => ∀ g', g = some g' → Fits B g' d) gs ds) (hn : none ∈ gs) :
    concat (some ds) gs = .error .attributeError := by
  have hfirst : firstRows gs = .error .attributeError ∨ firstRows gs = .ok B := by
    clear hB
    induction h with
    | nil => cases hn
    | @cons g d gs ds hg _ ih =>
      rcases g with _ | g
      · exact Or.inl rfl
      · simp only [firstRows]
        by_cases h0 : g.flatten = []
        · rw [if_neg (by rw [nonEmpty_iff]; exact not_not.2 h0)]
          exact ih (by simpa using hn)
        · rw [if_pos ((nonEmpty_iff g).2 h0), (hg g rfl h0).1]
          exact Or.inr rfl
  rcases hfirst with h1 | h1
  · simp only [concat, ensureDims, h1, bind, Except.bind]
  · simp only [concat, ensureDims, h1, bind, Except.bind, if_neg hB, fillLayers_missing h hn]

/-- **C57 (test side).** On the test side missing and empty gradients do become zeros. -/
theorem C57_test_zeros (B : ℕ) (gs : List (Option (Grad K))) (ds : List ℕ)
    (hlen : gs.length = ds.length) :
    testFeatures B (some ds) gs =
      List.zipWith (fun g d => expected B (g.getD []) d) gs ds := by
  unfold testFeatures
  suffices H : ∀ (gs : List (Option (Grad K))) (pre ds : List ℕ), gs.length = ds.length →
      (gs.zipIdx pre.length).filterMap (fun p =>
        match p.1 with
        | some g => if nonEmpty g then some g
            else ((some (pre ++ ds)).bind (·[p.2]?)).map fun d =>
              List.replicate B (List.replicate d 0)
        | none => ((some (pre ++ ds)).bind (·[p.2]?)).map fun d =>
            List.replicate B (List.replicate d (0 : K))) =
        List.zipWith (fun g d => expected B (g.getD []) d) gs ds from H gs [] ds hlen
  intro gs
  induction gs with
  | nil => intro pre ds _; rfl
  | cons g gs ih =>
    intro pre ds hlen
    rcases ds with _ | ⟨d, ds⟩
    · cases hlen
    · have hih := ih (pre ++ [d]) ds (by simpa using hlen)
      rw [List.append_assoc, List.length_append] at hih
      simp only [List.singleton_append, List.length_singleton] at hih
      rw [List.zipIdx_cons, List.filterMap_cons, List.zipWith_cons_cons, hih]
      rcases g with _ | g
      · simp [expected]
      · by_cases h0 : g.flatten = []
        · have hb : nonEmpty g = false := by
            by_contra hc
            exact (nonEmpty_iff g).1 (by simpa using hc) h0
          simp [expected, hb, h0]
        · simp [expected, (nonEmpty_iff g).2 h0, h0]

/-! ### Concrete cases -/

example : ∃ t, concat (some [2, 1, 1]) ([[[1, 2], [3, 4]], [], [[5], [6]]].map some) =
      .ok ([2, 1, 1], t) ∧ split (some [2, 1, 1]) t =
      .ok [[[1, 2], [3, 4]], [[0], [0]], [[(5 : ℤ)], [6]]] :=
  ⟨[[1, 2, 0, 5], [3, 4, 0, 6]], by decide, by decide⟩

example : List.Forall₂ (Fits 2) [[[1, 2], [3, 4]], [], [[(5 : ℤ)], [6]]] [2, 1, 1] := by
  refine .cons ?_ (.cons ?_ (.cons ?_ .nil)) <;> intro h
  · exact ⟨rfl, by decide⟩
  · exact absurd rfl h
  · exact ⟨rfl, by decide⟩

example : concat (some [2, 1]) [some [[1, 2], [3, (4 : ℤ)]], none] = .error .attributeError := by
  decide

end Verif.BlockIF
