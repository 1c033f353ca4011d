import Verif.Bench.MusicGenModel
import Verif.Bench.MusicNetProps
import Mathlib.Algebra.BigOperators.Intervals

/-! # C139: music generation -/

namespace Verif.Music

open Verif

/-! ### Specification -/

/-- The probability of the token `v` after `pre`: the softmax of the last logits of the sequence `pre`, conditioned on the token being
neither the end nor the padding token. -/
noncomputable def nextProb (net : Net) (pre : List ℕ) (v : ℕ) : ℝ :=
  match net.forward pre.length 1 (fun _ t => pre.getD t 0) true with
  | .ok y => if v < 388 then Real.exp (y (pre.length - 1) 0 v) / ∑ w ∈ Finset.range 388, Real.exp (y (pre.length - 1) 0 w) else 0
  | .error _ => 0

/-- The probability of the continuation `ys` of `pre`. -/
noncomputable def contProb (net : Net) : List ℕ → List ℕ → ℝ
  | _, [] => 1
  | pre, y :: ys => nextProb net pre y * contProb net (pre ++ [y]) ys

/-- The probability of the continuation `ys` of `pre` if every token is drawn after the last `P` tokens only. -/
noncomputable def slideProb (net : Net) (P : ℕ) : List ℕ → List ℕ → ℝ
  | _, [] => 1
  | pre, y :: ys => nextProb net (pre.drop (pre.length - P)) y * slideProb net P (pre ++ [y]) ys

/-- The probability a list of results gives to `r`. -/
noncomputable def mass {α : Type} (D : List (α × ℝ)) (r : α) : ℝ := by
  classical exact ((D.filter fun z => decide (z.1 = r)).map (·.2)).sum

/-- What `torch.topk(values, k)` promises for its indices. -/
def TopK (topk : List ℝ → ℕ → List ℕ) : Prop :=
  ∀ l k, k ≤ l.length → (topk l k).length = k ∧ (topk l k).Nodup ∧ (∀ f ∈ topk l k, f < l.length) ∧
    ∀ f ∈ topk l k, ∀ g < l.length, g ∉ topk l k → l.getD g 0 ≤ l.getD f 0

/-! ### Helper lemmas -/

theorem mass_append {α : Type} (D E : List (α × ℝ)) (y : α) : mass (D ++ E) y = mass D y + mass E y := by
  unfold mass
  rw [List.filter_append, List.map_append, List.sum_append]

theorem mass_scale {α : Type} (c : ℝ) (D : List (α × ℝ)) (y : α) : mass (D.map fun z => (z.1, c * z.2)) y = c * mass D y := by
  unfold mass
  induction D with
  | nil => simp
  | cons z D ih =>
    by_cases hz : z.1 = y
    · simp only [List.map_cons, List.filter_cons, hz, decide_true, if_true, List.sum_cons]
      rw [ih]
      ring
    · simp only [List.map_cons, List.filter_cons, hz, decide_false]
      exact ih

theorem mass_flatten {α : Type} (R : List (List (α × ℝ))) (y : α) : mass R.flatten y = (R.map fun D => mass D y).sum := by
  induction R with
  | nil => simp [mass]
  | cons D R ih => rw [List.flatten_cons, mass_append, ih]; rfl

theorem mass_zero {α : Type} (D : List (α × ℝ)) (y : α) (h : ∀ z ∈ D, z.1 ≠ y) : mass D y = 0 := by
  classical
  unfold mass
  rw [List.filter_eq_nil_iff.2]
  · rfl
  · intro z hz hzy
    rw [decide_eq_true_eq] at hzy
    exact h z hz hzy

theorem sum_range_list (n : ℕ) (f : ℕ → ℝ) : ((List.range n).map f).sum = ∑ v ∈ Finset.range n, f v := by
  induction n with
  | zero => rfl
  | succ n ih => rw [List.range_succ, List.map_append, List.sum_append, ih, Finset.sum_range_succ]; simp

theorem single_probs (net : Net) (wf : net.WF) (hv : net.vocab = 390) (pre : List ℕ) (hne : pre ≠ []) (hlen : pre.length ≤ net.maxSeq)
    (htok : ∀ v ∈ pre, v < 390) :
    ∃ p : Row, lastProbs net [pre] pre.length = .ok [p] ∧ (∀ v, 0 < p v) ∧
      (∀ v < 388, p v / ∑ w ∈ Finset.range 388, p w = nextProb net pre v) ∧ ∑ v ∈ Finset.range 388, nextProb net pre v = 1 := by
  have hget : ∀ t < pre.length, pre.getD t 0 < net.vocab := by
    intro t ht
    rw [hv, List.getD_eq_getElem?_getD, List.getElem?_eq_getElem ht]
    exact htok _ (List.getElem_mem ht)
  obtain ⟨y, hy, h1, -⟩ := C138_separate net wf pre.length 1 (fun b t => ([pre].getD b []).getD t 0) true (by
    intro t ht b hb
    have : b = 0 := by omega
    subst this
    exact hget t ht) hlen
  obtain ⟨y', hy', h2, -⟩ := C138_separate net wf pre.length 1 (fun _ t => pre.getD t 0) true (fun t ht _ _ => hget t ht) hlen
  have hpos : 0 < pre.length := List.length_pos_iff.2 hne
  have he : y (pre.length - 1) 0 = y' (pre.length - 1) 0 := by
    rw [h1 _ (by omega) 0 (by omega), h2 _ (by omega) 0 (by omega)]
    rfl
  have hZ : 0 < ∑ w ∈ Finset.range vocabSize, Real.exp (y (pre.length - 1) 0 w) :=
    Finset.sum_pos (fun w _ => Real.exp_pos _) ⟨0, by simp [vocabSize]⟩
  have hZ' : 0 < ∑ w ∈ Finset.range 388, Real.exp (y' (pre.length - 1) 0 w) :=
    Finset.sum_pos (fun w _ => Real.exp_pos _) ⟨0, by simp⟩
  have hnp : ∀ v < 388, nextProb net pre v = Real.exp (y' (pre.length - 1) 0 v) / ∑ w ∈ Finset.range 388, Real.exp (y' (pre.length - 1) 0 w) := by
    intro v hv
    unfold nextProb
    rw [hy']
    simp only [hv, if_true]
  refine ⟨fun v => Real.exp (y (pre.length - 1) 0 v) / ∑ w ∈ Finset.range vocabSize, Real.exp (y (pre.length - 1) 0 w), ?_, ?_, ?_, ?_⟩
  · unfold lastProbs
    rw [if_neg (by omega)]
    have : ([pre] : List (List ℕ)).length = 1 := rfl
    rw [this, hy]
    rfl
  · intro v
    exact div_pos (Real.exp_pos _) hZ
  · intro v hv
    rw [hnp v hv, he, ← Finset.sum_div, div_div_div_cancel_right₀ (by rw [← he]; exact hZ.ne')]
  · rw [Finset.sum_congr rfl fun v hv => hnp v (Finset.mem_range.1 hv), ← Finset.sum_div, div_self hZ'.ne']

/-! ### C139 -/

/-- The loop without beam. -/
theorem gen_sample (net : Net) (wf : net.WF) (hv : net.vocab = 390) (topk : List ℝ → ℕ → List ℕ) (chance : ℝ) (hc : chance < 2)
    (coin : ℕ → ℝ) (n : ℕ) (pre : List ℕ) (hne : pre ≠ []) (hlen : n = 0 ∨ pre.length + n ≤ net.maxSeq + 1) (htok : ∀ v ∈ pre, v < 390) :
    ∃ D, gen net topk 0 chance coin n [pre] pre.length = .ok D ∧
      (∀ z ∈ D, ∃ ys, z.1 = [pre ++ ys] ∧ ys.length = n ∧ ∀ v ∈ ys, v < 388) ∧
      (∀ ys, ys.length = n → mass D [pre ++ ys] = contProb net pre ys) ∧ (D.map (·.2)).sum = 1 := by
  induction n generalizing pre with
  | zero =>
    refine ⟨[([pre], 1)], rfl, ?_, ?_, by simp⟩
    · intro z hz
      rw [List.mem_singleton] at hz
      subst hz
      exact ⟨[], by simp, rfl, by simp⟩
    · intro ys hys
      rw [List.length_eq_zero_iff] at hys
      subst hys
      simp [mass, contProb]
  | succ n ih =>
    obtain ⟨p, hp, hpos, hnext, hone⟩ := single_probs net wf hv pre hne (by omega) htok
    have hstep : ∀ v : ℕ, v < 388 → ∃ D, gen net topk 0 chance coin n [pre ++ [v]] (pre.length + 1) = .ok D ∧
        (∀ z ∈ D, ∃ ys, z.1 = [pre ++ [v] ++ ys] ∧ ys.length = n ∧ ∀ v ∈ ys, v < 388) ∧
        (∀ ys, ys.length = n → mass D [pre ++ [v] ++ ys] = contProb net (pre ++ [v]) ys) ∧ (D.map (·.2)).sum = 1 := by
      intro v hv388
      have := ih (pre ++ [v]) (by simp) (by
        rw [List.length_append, List.length_singleton]
        omega) (by
        intro w hw
        rcases List.mem_append.1 hw with h | h
        · exact htok w h
        · rw [List.mem_singleton] at h
          omega)
      rwa [List.length_append, List.length_singleton] at this
    have hch : ∀ v : ℕ, ∃ D, v < 388 → gen net topk 0 chance coin n [pre ++ [v]] (pre.length + 1) = .ok D ∧
        (∀ z ∈ D, ∃ ys, z.1 = [pre ++ [v] ++ ys] ∧ ys.length = n ∧ ∀ v ∈ ys, v < 388) ∧
        (∀ ys, ys.length = n → mass D [pre ++ [v] ++ ys] = contProb net (pre ++ [v]) ys) ∧ (D.map (·.2)).sum = 1 := by
      intro v
      by_cases h : v < 388
      · obtain ⟨D, hD⟩ := hstep v h
        exact ⟨D, fun _ => hD⟩
      · exact ⟨[], fun h' => absurd h' h⟩
    choose E hE using hch
    have hgen : gen net topk 0 chance coin (n + 1) [pre] pre.length =
        .ok ((List.range 388).map fun v => (E v).map fun q => (q.1, nextProb net pre v * q.2)).flatten := by
      unfold gen
      rw [hp]
      simp only [bind, Except.bind, if_true, if_neg (not_le.2 hc)]
      rw [mapM_all' _ (fun v => (E v).map fun q => (q.1, nextProb net pre v * q.2)) (List.range tokenEnd) (by
        intro v hvm
        have hv388 : v < 388 := List.mem_range.1 hvm
        rw [if_neg (by unfold tokenEnd; omega), (hE v hv388).1]
        simp only [pure, Except.pure, tokenEnd, hnext v hv388])]
      rfl
    refine ⟨_, hgen, ?_, ?_, ?_⟩
    · intro z hz
      obtain ⟨l, hl, hz⟩ := List.mem_flatten.1 hz
      obtain ⟨v, hvm, rfl⟩ := List.mem_map.1 hl
      have hv388 : v < 388 := List.mem_range.1 hvm
      obtain ⟨q, hq, rfl⟩ := List.mem_map.1 hz
      obtain ⟨ys, h1, h2, h3⟩ := (hE v hv388).2.1 q hq
      refine ⟨v :: ys, by simp [h1], by simp [h2], ?_⟩
      intro w hw
      rcases List.mem_cons.1 hw with rfl | hw
      · exact hv388
      · exact h3 w hw
    · intro ys hys
      cases ys with
      | nil => simp at hys
      | cons y ys =>
        have hys' : ys.length = n := by simpa using hys
        rw [mass_flatten, List.map_map]
        have hterm : ∀ v ∈ List.range 388, ((fun D => mass D [pre ++ y :: ys]) ∘ fun v => (E v).map fun q => (q.1, nextProb net pre v * q.2)) v =
            if v = y then nextProb net pre y * contProb net (pre ++ [y]) ys else 0 := by
          intro v hvm
          have hv388 : v < 388 := List.mem_range.1 hvm
          simp only [Function.comp_apply]
          rw [mass_scale]
          split_ifs with hvy
          · subst hvy
            rw [← (hE v hv388).2.2.1 ys hys', List.append_assoc]
            rfl
          · rw [mass_zero _ _ ?_, mul_zero]
            intro z hz hzy
            obtain ⟨ys', h1, -, -⟩ := (hE v hv388).2.1 z hz
            rw [h1] at hzy
            simp only [List.append_assoc, List.cons.injEq, and_true, List.append_cancel_left_eq, List.singleton_append] at hzy
            exact hvy hzy.1
        rw [List.map_congr_left hterm, sum_range_list, Finset.sum_ite_eq']
        rw [show contProb net pre (y :: ys) = nextProb net pre y * contProb net (pre ++ [y]) ys from rfl]
        split_ifs with hy
        · rfl
        · have : nextProb net pre y = 0 := by
            unfold nextProb
            have hy' : ¬ y < 388 := by simpa using hy
            cases net.forward pre.length 1 (fun _ t => pre.getD t 0) true with
            | ok y' => simp [hy']
            | error e => rfl
          rw [this, zero_mul]
    · rw [List.map_flatten, List.sum_flatten, List.map_map, List.map_map]
      have : ∀ v ∈ List.range 388, ((List.sum ∘ List.map (·.2)) ∘ fun v => (E v).map fun q => (q.1, nextProb net pre v * q.2)) v =
          nextProb net pre v := by
        intro v hvm
        have hv388 : v < 388 := List.mem_range.1 hvm
        simp only [Function.comp_apply, List.map_map]
        have h1 : ((E v).map ((fun x : List (List ℕ) × ℝ => x.2) ∘ fun q => (q.1, nextProb net pre v * q.2))).sum =
            nextProb net pre v * ((E v).map (·.2)).sum := by
          rw [← List.sum_map_mul_left]
          rfl
        rw [h1, (hE v hv388).2.2.2, mul_one]
      rw [List.map_congr_left this, sum_range_list, hone]

/-- **C139** (sampling).  Without beam, `generate` returns the primer continued to exactly the target length, by tokens other than the end
and the padding token: it never stops early.  A continuation has the product of the probabilities of its tokens, and these sum to one.  This
needs target lengths of at most `max_sequence + 1`. -/
theorem C139_sample (net : Net) (wf : net.WF) (hv : net.vocab = 390) (topk : List ℝ → ℕ → List ℕ) (chance : ℝ) (hc : chance < 2)
    (coin : ℕ → ℝ) (primer : List ℕ) (target : ℕ) (hne : primer ≠ []) (hpt : primer.length ≤ target) (hlen : target ≤ net.maxSeq + 1)
    (htok : ∀ v ∈ primer, v < 390) :
    ∃ D, generate net topk 0 chance coin primer target = .ok D ∧
      (∀ z ∈ D, ∃ ys, z.1 = [primer ++ ys] ∧ (primer ++ ys).length = target ∧ ∀ v ∈ ys, v < 388) ∧
      (∀ ys, (primer ++ ys).length = target → mass D [primer ++ ys] = contProb net primer ys) ∧ (D.map (·.2)).sum = 1 := by
  obtain ⟨D, hD, h1, h2, h3⟩ := gen_sample net wf hv topk chance hc coin (target - primer.length) primer hne (by omega) htok
  refine ⟨D, ?_, ?_, ?_, h3⟩
  · unfold generate
    rw [if_neg (by omega), List.take_of_length_le hpt]
    exact hD
  · intro z hz
    obtain ⟨ys, h4, h5, h6⟩ := h1 z hz
    exact ⟨ys, h4, by rw [List.length_append, h5]; omega, h6⟩
  · intro ys hys
    rw [List.length_append] at hys
    exact h2 ys (by omega)

/-- **C139** (too long).  Without beam, for a network with `max_sequence ≥ 2`, a target above `max_sequence + 1` raises
`RuntimeError`. -/
theorem C139_too_long (net : Net) (wf : net.WF) (hv : net.vocab = 390) (topk : List ℝ → ℕ → List ℕ) (chance : ℝ) (hc : chance < 2)
    (coin : ℕ → ℝ) (primer : List ℕ) (target : ℕ) (hne : primer ≠ []) (hpt : primer.length < target) (hm : 2 ≤ net.maxSeq)
    (hlen : net.maxSeq + 1 < target) (htok : ∀ v ∈ primer, v < 390) :
    generate net topk 0 chance coin primer target = .error .runtimeError := by
  have key : ∀ n (pre : List ℕ), pre ≠ [] → 0 < n → net.maxSeq + 1 < pre.length + n → (∀ v ∈ pre, v < 390) →
      gen net topk 0 chance coin n [pre] pre.length = .error .runtimeError := by
    intro n
    induction n with
    | zero => intro pre _ h0; omega
    | succ n ih =>
      intro pre hne _ hlen htok
      have hpos : 0 < pre.length := List.length_pos_iff.2 hne
      by_cases hl : pre.length ≤ net.maxSeq
      · obtain ⟨p, hp, hpos, hnext, hone⟩ := single_probs net wf hv pre hne hl htok
        unfold gen
        rw [hp]
        simp only [bind, Except.bind, if_true, if_neg (not_le.2 hc)]
        have h0 : List.range tokenEnd = 0 :: (List.range 387).map Nat.succ := List.range_succ_eq_map
        rw [h0, List.mapM_cons]
        have : gen net topk 0 chance coin n [pre ++ [0]] (pre.length + 1) = .error .runtimeError := by
          have := ih (pre ++ [0]) (by simp) (by omega) (by rw [List.length_append, List.length_singleton]; omega) (by
            intro w hw
            rcases List.mem_append.1 hw with h | h
            · exact htok w h
            · rw [List.mem_singleton] at h
              omega)
          rwa [List.length_append, List.length_singleton] at this
        rw [if_neg (by unfold tokenEnd; omega), this]
        rfl
      · have hget : ∀ t < pre.length, pre.getD t 0 < net.vocab := by
          intro t ht
          rw [hv, List.getD_eq_getElem?_getD, List.getElem?_eq_getElem ht]
          exact htok _ (List.getElem_mem ht)
        have hf : lastProbs net [pre] pre.length = .error .runtimeError := by
          unfold lastProbs
          rw [if_neg (by omega), (C138_errors net pre.length ([pre] : List (List ℕ)).length _ true).2 (by
            intro t ht b hb
            have : b = 0 := by simp at hb; omega
            subst this
            exact hget t ht) hm (by omega)]
          rfl
        unfold gen
        rw [hf]
        rfl
  unfold generate
  rw [if_neg (by omega), List.take_of_length_le (by omega)]
  exact key _ primer hne (by omega) (by omega) htok

theorem mass_select {α : Type} (D : List (α × ℝ)) (r : α) (F : α → ℝ) (c : ℝ) (hr : F r = c) (ho : ∀ q ∈ D, q.1 ≠ r → F q.1 = 0) :
    (D.map fun q => q.2 * F q.1).sum = mass D r * c := by
  classical
  unfold mass
  induction D with
  | nil => simp
  | cons q D ih =>
    have ih' := ih fun q hq => ho q (List.mem_cons_of_mem _ hq)
    rw [List.map_cons, List.sum_cons, ih', List.filter_cons]
    by_cases hq : q.1 = r
    · simp only [hq, decide_true, if_true, List.map_cons, List.sum_cons, hr]
      ring
    · simp only [hq, decide_false, ho q List.mem_cons_self hq]
      simp

theorem slide_eq (net : Net) (wf : net.WF) (hv : net.vocab = 390) (topk : List ℝ → ℕ → List ℕ) (coin : ℕ → ℝ) (P : ℕ) (hP : 0 < P)
    (hPm : P ≤ net.maxSeq) (n i : ℕ) (cur : List ℕ) (acc : Option (List ℕ)) (hlen : cur.length = P + i) (htok : ∀ v ∈ cur, v < 390)
    (hacc : acc = if i = 0 then none else some cur) :
    ∃ D, slide net topk coin P n i cur acc = .ok D ∧
      (∀ z ∈ D, ∃ ys, ys.length = n ∧ (∀ v ∈ ys, v < 388) ∧ z.1 = if n = 0 ∧ i = 0 then none else some (cur ++ ys)) ∧
      (¬ (n = 0 ∧ i = 0) → ∀ ys, ys.length = n → mass D (some (cur ++ ys)) = slideProb net P cur ys) ∧ (D.map (·.2)).sum = 1 := by
  induction n generalizing i cur acc with
  | zero =>
    refine ⟨[(acc, 1)], rfl, ?_, ?_, by simp⟩
    · intro z hz
      rw [List.mem_singleton] at hz
      subst hz
      refine ⟨[], rfl, by simp, ?_⟩
      rw [hacc]
      simp
    · intro hn ys hys
      rw [List.length_eq_zero_iff] at hys
      subst hys
      have hi : ¬ i = 0 := fun h => hn ⟨rfl, h⟩
      rw [hacc, if_neg hi]
      simp [mass, slideProb]
  | succ n ih =>
    have hwin : (cur.take (P + i)).drop i = cur.drop (cur.length - P) := by
      rw [List.take_of_length_le (by omega), hlen, Nat.add_sub_cancel_left]
    set win := cur.drop (cur.length - P) with hwd
    have hwl : win.length = P := by rw [hwd, List.length_drop]; omega
    obtain ⟨G, hG, hG1, hG2, hG3⟩ := C139_sample net wf hv topk 1 (by norm_num) coin win (P + 1) (by
      intro h0
      rw [h0] at hwl
      simp at hwl
      omega) (by omega) (by omega) (fun v hvm => htok v (List.mem_of_mem_drop hvm))
    have hG1' : ∀ q ∈ G, ∃ v, v < 388 ∧ q.1 = [win ++ [v]] := by
      intro q hq
      obtain ⟨ys, h1, h2, h3⟩ := hG1 q hq
      rw [List.length_append, hwl] at h2
      obtain ⟨v, rfl⟩ := List.length_eq_one_iff.1 (show ys.length = 1 by omega)
      exact ⟨v, h3 v (by simp), h1⟩
    have hstep : ∀ v : ℕ, v < 388 → ∃ D, slide net topk coin P n (i + 1) (cur ++ [v]) (some (cur ++ [v])) = .ok D ∧
        (∀ z ∈ D, ∃ ys, ys.length = n ∧ (∀ v ∈ ys, v < 388) ∧ z.1 = some (cur ++ [v] ++ ys)) ∧
        (∀ ys, ys.length = n → mass D (some (cur ++ [v] ++ ys)) = slideProb net P (cur ++ [v]) ys) ∧ (D.map (·.2)).sum = 1 := by
      intro v hv388
      obtain ⟨D, h1, h2, h3, h4⟩ := ih (i + 1) (cur ++ [v]) (some (cur ++ [v])) (by
        rw [List.length_append, List.length_singleton]; omega) (by
        intro w hw
        rcases List.mem_append.1 hw with h | h
        · exact htok w h
        · rw [List.mem_singleton] at h
          omega) (by simp)
      refine ⟨D, h1, ?_, h3 (by omega), h4⟩
      intro z hz
      obtain ⟨ys, h5, h6, h7⟩ := h2 z hz
      exact ⟨ys, h5, h6, by rw [h7, if_neg (by omega)]⟩
    have hch : ∀ v : ℕ, ∃ D, v < 388 → slide net topk coin P n (i + 1) (cur ++ [v]) (some (cur ++ [v])) = .ok D ∧
        (∀ z ∈ D, ∃ ys, ys.length = n ∧ (∀ v ∈ ys, v < 388) ∧ z.1 = some (cur ++ [v] ++ ys)) ∧
        (∀ ys, ys.length = n → mass D (some (cur ++ [v] ++ ys)) = slideProb net P (cur ++ [v]) ys) ∧ (D.map (·.2)).sum = 1 := by
      intro v
      by_cases h : v < 388
      · obtain ⟨D, hD⟩ := hstep v h
        exact ⟨D, fun _ => hD⟩
      · exact ⟨[], fun h' => absurd h' h⟩
    choose E hE using hch
    have hlast : ∀ v, (([win ++ [v]] : List (List ℕ)).headD []).drop ((([win ++ [v]] : List (List ℕ)).headD []).length - 1) = [v] := by
      intro v
      simp
    let lastOf : List (List ℕ) → ℕ := fun r => (r.headD []).getLastD 0
    have hlo : ∀ v, lastOf [win ++ [v]] = v := by
      intro v
      simp [lastOf]
    have hsl : slide net topk coin P (n + 1) i cur acc =
        .ok (G.map fun q => (E (lastOf q.1)).map fun z => (z.1, q.2 * z.2)).flatten := by
      unfold slide
      rw [hwin, hG]
      simp only [bind, Except.bind]
      rw [mapM_all' _ (fun q => (E (lastOf q.1)).map fun z => (z.1, q.2 * z.2)) G (by
        intro q hq
        obtain ⟨v, hv388, hqv⟩ := hG1' q hq
        rw [hqv]
        simp only [hlast, hlo]
        have hv1 := (hE v hv388).1
        by_cases hi : i = 0
        · have hc : win = cur := by rw [hwd, hlen, hi]; simp
          rw [if_pos hi] at hacc
          subst hacc
          simp only [List.headD_cons, hc]
          rw [hv1]
          rfl
        · rw [if_neg hi] at hacc
          subst hacc
          simp only []
          rw [hv1]
          rfl)]
      rfl
    refine ⟨_, hsl, ?_, ?_, ?_⟩
    · intro z hz
      obtain ⟨l, hl, hz⟩ := List.mem_flatten.1 hz
      obtain ⟨q, hq, rfl⟩ := List.mem_map.1 hl
      obtain ⟨v, hv388, hqv⟩ := hG1' q hq
      obtain ⟨w, hw, rfl⟩ := List.mem_map.1 hz
      rw [hqv, hlo] at hw
      obtain ⟨ys, h1, h2, h3⟩ := (hE v hv388).2.1 w hw
      refine ⟨v :: ys, by simp [h1], ?_, ?_⟩
      · intro u hu
        rcases List.mem_cons.1 hu with rfl | hu
        · exact hv388
        · exact h2 u hu
      · rw [if_neg (by omega), h3]
        simp
    · intro _ ys hys
      cases ys with
      | nil => simp at hys
      | cons y ys =>
        have hys' : ys.length = n := by simpa using hys
        rw [mass_flatten, List.map_map]
        have hterm : ∀ q ∈ G, ((fun D => mass D (some (cur ++ y :: ys))) ∘ fun q => (E (lastOf q.1)).map fun z => (z.1, q.2 * z.2)) q =
            q.2 * (fun r : List (List ℕ) => if r = [win ++ [y]] ∧ y < 388 then slideProb net P (cur ++ [y]) ys else 0) q.1 := by
          intro q hq
          obtain ⟨v, hv388, hqv⟩ := hG1' q hq
          simp only [Function.comp_apply]
          rw [mass_scale, hqv, hlo]
          congr 1
          by_cases hvy : v = y
          · subst hvy
            rw [if_pos ⟨rfl, hv388⟩, ← (hE v hv388).2.2.1 ys hys', List.append_assoc]
            rfl
          · rw [if_neg]
            · apply mass_zero
              intro z hz hzy
              obtain ⟨ys', -, -, h1⟩ := (hE v hv388).2.1 z hz
              rw [h1] at hzy
              simp only [Option.some.injEq, List.append_assoc, List.append_cancel_left_eq, List.singleton_append, List.cons.injEq] at hzy
              exact hvy hzy.1
            · rintro ⟨h1, -⟩
              simp only [List.cons.injEq, and_true, List.append_cancel_left_eq] at h1
              exact hvy h1
        rw [List.map_congr_left hterm]
        rw [show slideProb net P cur (y :: ys) = nextProb net win y * slideProb net P (cur ++ [y]) ys from rfl]
        have hm : mass G [win ++ [y]] = nextProb net win y := by
          rw [hG2 [y] (by rw [List.length_append, hwl]; rfl)]
          simp [contProb]
        by_cases hy : y < 388
        · rw [mass_select G [win ++ [y]] (fun r : List (List ℕ) => if r = [win ++ [y]] ∧ y < 388 then slideProb net P (cur ++ [y]) ys else 0)
            (slideProb net P (cur ++ [y]) ys) (by simp [hy]) (fun q _ hne => if_neg fun h => hne h.1), hm]
        · have h0 : nextProb net win y = 0 := by
            unfold nextProb
            cases net.forward win.length 1 (fun _ t => win.getD t 0) true with
            | ok y' => simp [hy]
            | error e => rfl
          rw [h0, zero_mul]
          simp [hy]
    · rw [List.map_flatten, List.sum_flatten, List.map_map, List.map_map]
      have : ∀ q ∈ G, ((List.sum ∘ List.map (·.2)) ∘ fun q => (E (lastOf q.1)).map fun z => (z.1, q.2 * z.2)) q = q.2 := by
        intro q hq
        obtain ⟨v, hv388, hqv⟩ := hG1' q hq
        simp only [Function.comp_apply, List.map_map]
        rw [hqv, hlo]
        have h1 : ((E v).map ((fun x : Option (List ℕ) × ℝ => x.2) ∘ fun z => (z.1, q.2 * z.2))).sum = q.2 * ((E v).map (·.2)).sum := by
          rw [← List.sum_map_mul_left]
          rfl
        rw [h1, (hE v hv388).2.2.2, mul_one]
      rw [List.map_congr_left this, hG3]

/-- **C139** (`generate.py`).  For a primer of `num_prime` tokens, `1 ≤ num_prime ≤ max_sequence`, and a larger target length the pickled
piece is the primer continued to the target length, each token drawn given the last `num_prime` tokens.  If the target length does not exceed
`num_prime`, the script fails with `AttributeError`. -/
theorem C139_main (net : Net) (wf : net.WF) (hv : net.vocab = 390) (topk : List ℝ → ℕ → List ℕ) (coin : ℕ → ℝ) (P : ℕ) (hP : 0 < P)
    (hPm : P ≤ net.maxSeq) (primer : List ℕ) (hlen : primer.length = P) (htok : ∀ v ∈ primer, v < 390) (target : ℕ) :
    (target ≤ P → mainPiece net topk coin P target primer = .error .attributeError) ∧
    (P < target → ∃ D, mainPiece net topk coin P target primer = .ok D ∧
      (∀ z ∈ D, ∃ ys, z.1 = primer ++ ys ∧ z.1.length = target ∧ ∀ v ∈ ys, v < 388) ∧
      (∀ ys, (primer ++ ys).length = target → mass D (primer ++ ys) = slideProb net P primer ys) ∧ (D.map (·.2)).sum = 1) := by
  constructor
  · intro h
    unfold mainPiece
    rw [show target - P = 0 by omega]
    rfl
  · intro h
    obtain ⟨D, h1, h2, h3, h4⟩ := slide_eq net wf hv topk coin P hP hPm (target - P) 0 primer none (by omega) htok (by simp)
    have h2' : ∀ z ∈ D, ∃ ys, ys.length = target - P ∧ (∀ v ∈ ys, v < 388) ∧ z.1 = some (primer ++ ys) := by
      intro z hz
      obtain ⟨ys, h5, h6, h7⟩ := h2 z hz
      exact ⟨ys, h5, h6, by rw [h7, if_neg (by omega)]⟩
    have hD : mainPiece net topk coin P target primer = .ok (D.map fun z => (z.1.getD [], z.2)) := by
      unfold mainPiece
      rw [h1]
      simp only [bind, Except.bind]
      exact mapM_all' _ _ _ (by
        intro z hz
        obtain ⟨ys, -, -, h7⟩ := h2' z hz
        rw [h7]
        rfl)
    refine ⟨_, hD, ?_, ?_, ?_⟩
    · intro z hz
      obtain ⟨w, hw, rfl⟩ := List.mem_map.1 hz
      obtain ⟨ys, h5, h6, h7⟩ := h2' w hw
      refine ⟨ys, by simp [h7], ?_, h6⟩
      simp [h7, hlen, h5]
      omega
    · intro ys hys
      rw [List.length_append, hlen] at hys
      rw [← h3 (by omega) ys (by omega)]
      have key : ∀ D : List (Option (List ℕ) × ℝ), (∀ z ∈ D, z.1 ≠ none) →
          mass (D.map fun z => (z.1.getD [], z.2)) (primer ++ ys) = mass D (some (primer ++ ys)) := by
        intro D
        classical
        unfold mass
        induction D with
        | nil => intro _; simp
        | cons z D ih =>
          intro hn
          have ih' := ih fun z hz => hn z (List.mem_cons_of_mem _ hz)
          have hz : z.1.getD [] = primer ++ ys ↔ z.1 = some (primer ++ ys) := by
            cases hz1 : z.1 with
            | none => exact absurd hz1 (hn z List.mem_cons_self)
            | some l => simp
          rw [List.map_cons, List.filter_cons, List.filter_cons]
          by_cases hq : z.1 = some (primer ++ ys)
          · have hq' := hz.2 hq
            rw [if_pos (by simpa using hq'), if_pos (by simpa using hq), List.map_cons, List.map_cons, List.sum_cons, List.sum_cons, ih']
          · have hq' : ¬ z.1.getD [] = primer ++ ys := fun h => hq (hz.1 h)
            simp only [hq', hq, decide_false]
            exact ih'
      apply key
      intro z hz h0
      obtain ⟨ys', -, -, h7⟩ := h2' z hz
      rw [h0] at h7
      cases h7
    · rw [List.map_map, ← h4]
      rfl

/-! #### Beam search -/

/-- The `f`-th entry of the flattened probabilities. -/
theorem flat_get (y : List Row) (f : ℕ) (hf : f < 388 * y.length) :
    (y.flatMap fun p => (List.range 388).map p).getD f 0 = (y.getD (f / 388) fun _ => 0) (f % 388) := by
  induction y generalizing f with
  | nil => simp at hf
  | cons p y ih =>
    rw [List.flatMap_cons]
    have hl : ((List.range 388).map p).length = 388 := by simp
    by_cases h : f < 388
    · rw [List.getD_eq_getElem?_getD, List.getElem?_append_left (by omega), Nat.div_eq_of_lt h, Nat.mod_eq_of_lt h]
      rw [List.getElem?_map, List.getElem?_range h]
      rfl
    · rw [List.getD_eq_getElem?_getD, List.getElem?_append_right (by omega), hl, ← List.getD_eq_getElem?_getD, ih (f - 388) (by
        rw [List.length_cons] at hf
        omega)]
      have h1 : f / 388 = (f - 388) / 388 + 1 := by omega
      have h2 : f % 388 = (f - 388) % 388 := by omega
      rw [h1, h2, List.getD_cons_succ]

theorem flat_length (y : List Row) : (y.flatMap fun p => (List.range 388).map p).length = 388 * y.length := by
  induction y with
  | nil => rfl
  | cons p y ih => rw [List.flatMap_cons, List.length_append, ih]; simp; omega

theorem beamStep_eq (topk : List ℝ → ℕ → List ℕ) (beam : ℕ) (rows : List (List ℕ)) (y : List Row) (h : beam ≤ 388 * y.length) :
    beamStep topk beam rows y = (topk (y.flatMap fun p => (List.range 388).map p) beam).mapM fun f =>
      match rows[f / 390]? with
      | none => .error .indexError
      | some r => .ok (r ++ [f % 390]) := by
  unfold beamStep
  have h2 : ¬ (y.flatMap fun p => (List.range tokenEnd).map p).length < beam := by
    have := flat_length y
    unfold tokenEnd
    omega
  exact if_neg h2

/-- **C139** (one beam decision).  Given the probabilities of the tokens after each of the `R` sequences, the `beam` best pairs `(r, c)` of
a sequence and a token are selected.  A pair of the first sequence is written as it should be: the sequence continued by `c`.  For `r ≥ 1`
the token written is never `c`: it is `c - 2r` after the sequence `r` or, if `c < 2r ≤ 390`, `390 + c - 2r` after the sequence `r - 1`. -/
theorem C139_beam_step (topk : List ℝ → ℕ → List ℕ) (hk : TopK topk) (beam : ℕ) (rows : List (List ℕ)) (y : List Row)
    (hy : y.length = rows.length) (hb : beam ≤ 388 * rows.length) :
    ∃ (cand : List (ℕ × ℕ)) (rows' : List (List ℕ)), beamStep topk beam rows y = .ok rows' ∧ cand.length = beam ∧ rows'.length = beam ∧
      cand.Nodup ∧ (∀ q ∈ cand, q.1 < rows.length ∧ q.2 < 388) ∧
      (∀ q ∈ cand, ∀ r < rows.length, ∀ c < 388, (r, c) ∉ cand → (y.getD r fun _ => 0) c ≤ (y.getD q.1 fun _ => 0) q.2) ∧
      ∀ i (hi : i < cand.length),
        (cand[i].1 = 0 → rows'[i]? = some (rows.getD 0 [] ++ [cand[i].2])) ∧
        (2 * cand[i].1 ≤ cand[i].2 → rows'[i]? = some (rows.getD cand[i].1 [] ++ [cand[i].2 - 2 * cand[i].1])) ∧
        (cand[i].2 < 2 * cand[i].1 → 2 * cand[i].1 ≤ 390 →
          rows'[i]? = some (rows.getD (cand[i].1 - 1) [] ++ [390 + cand[i].2 - 2 * cand[i].1])) := by
  have hfl := flat_length y
  obtain ⟨h1, h2, h3, h4⟩ := hk (y.flatMap fun p => (List.range 388).map p) beam (by rw [hfl, hy]; exact hb)
  set L := topk (y.flatMap fun p => (List.range 388).map p) beam with hL
  have hlt : ∀ f ∈ L, f < 388 * rows.length := fun f hf => by
    have := h3 f hf
    rw [hfl, hy] at this
    exact this
  refine ⟨L.map fun f => (f / 388, f % 388), L.map fun f => rows.getD (f / 390) [] ++ [f % 390], ?_, by simp [h1], by simp [h1], ?_, ?_, ?_, ?_⟩
  · rw [beamStep_eq topk beam rows y (by rw [hy]; exact hb), ← hL]
    apply mapM_all'
    intro f hf
    have := hlt f hf
    have hd : f / 390 < rows.length := by omega
    rw [List.getElem?_eq_getElem hd, List.getD_eq_getElem?_getD, List.getElem?_eq_getElem hd]
    rfl
  · refine List.Nodup.map_on ?_ h2
    intro f _ g _ hfg
    simp only [Prod.mk.injEq] at hfg
    omega
  · intro q hq
    obtain ⟨f, hf, rfl⟩ := List.mem_map.1 hq
    have := hlt f hf
    simp only
    omega
  · intro q hq r hr c hc hn
    obtain ⟨f, hf, rfl⟩ := List.mem_map.1 hq
    have hg : 388 * r + c < 388 * y.length := by
      rw [hy]
      have : 388 * (r + 1) ≤ 388 * rows.length := Nat.mul_le_mul_left _ hr
      omega
    have := h4 f hf (388 * r + c) (by rw [hfl]; exact hg) (by
      intro hm
      apply hn
      refine List.mem_map.2 ⟨_, hm, ?_⟩
      simp only [Prod.mk.injEq]
      omega)
    rw [flat_get y _ hg, flat_get y _ (by rw [hy]; exact hlt f hf)] at this
    rw [show (388 * r + c) / 388 = r by omega, show (388 * r + c) % 388 = c by omega] at this
    exact this
  · intro i hi
    rw [List.length_map] at hi
    have := hlt L[i] (List.getElem_mem hi)
    simp only [List.getElem_map, List.getElem?_map, List.getElem?_eq_getElem hi, Option.map_some, Option.some.injEq]
    generalize L[i] = f at *
    refine ⟨?_, ?_, ?_⟩
    · intro h
      rw [show f / 390 = 0 by omega, show f % 390 = f % 388 by omega]
    · intro h
      rw [show f / 390 = f / 388 by omega, show f % 390 = f % 388 - 2 * (f / 388) by omega]
    · intro h h'
      rw [show f / 390 = f / 388 - 1 by omega, show f % 390 = 390 + f % 388 - 2 * (f / 388) by omega]

/-- The loop with a beam of one. -/
theorem gen_greedy (net : Net) (wf : net.WF) (hv : net.vocab = 390) (topk : List ℝ → ℕ → List ℕ) (hk : TopK topk) (chance : ℝ)
    (coin : ℕ → ℝ) (hcoin : ∀ i, coin i ≤ chance) (n : ℕ) (pre : List ℕ) (hne : pre ≠ []) (hlen : n = 0 ∨ pre.length + n ≤ net.maxSeq + 1)
    (htok : ∀ v ∈ pre, v < 390) :
    ∃ ys, gen net topk 1 chance coin n [pre] pre.length = .ok [([pre ++ ys], 1)] ∧ ys.length = n ∧
      ∀ t (ht : t < ys.length), ys[t] < 388 ∧ ∀ w < 388, nextProb net (pre ++ ys.take t) w ≤ nextProb net (pre ++ ys.take t) ys[t] := by
  induction n generalizing pre with
  | zero => exact ⟨[], by simp [gen], rfl, by simp⟩
  | succ n ih =>
    obtain ⟨p, hp, hpos, hnext, hone⟩ := single_probs net wf hv pre hne (by omega) htok
    obtain ⟨cand, rows', hb, hc1, hr1, hnd, hrng, hbest, hw⟩ := C139_beam_step topk hk 1 [pre] [p] rfl (by simp)
    obtain ⟨q, rfl⟩ := List.length_eq_one_iff.1 hc1
    obtain ⟨r', rfl⟩ := List.length_eq_one_iff.1 hr1
    obtain ⟨hq1, hq2⟩ := hrng q (by simp)
    have hq0 : q.1 = 0 := by simpa using hq1
    have hr' : r' = pre ++ [q.2] := by
      have := (hw 0 (by simp)).1 hq0
      simpa using this
    obtain ⟨ys, h1, h2, h3⟩ := ih (pre ++ [q.2]) (by simp) (by
      rw [List.length_append, List.length_singleton]
      omega) (by
      intro v hvm
      rcases List.mem_append.1 hvm with h | h
      · exact htok v h
      · rw [List.mem_singleton] at h
        omega)
    refine ⟨q.2 :: ys, ?_, by simp [h2], ?_⟩
    · unfold gen
      rw [hp]
      simp only [bind, Except.bind, one_ne_zero, if_false]
      rw [if_pos (hcoin _), hb]
      simp only []
      rw [hr']
      rw [List.length_append, List.length_singleton, List.append_assoc] at h1
      exact h1
    · intro t ht
      cases t with
      | zero =>
        refine ⟨hq2, fun w hw388 => ?_⟩
        simp only [List.take_zero, List.append_nil, List.getElem_cons_zero]
        by_cases hwq : w = q.2
        · rw [hwq]
        · have := hbest q (by simp) 0 (by simp) w hw388 (by
            rw [List.mem_singleton]
            intro h
            exact hwq (by rw [← h]))
          rw [hq0] at this
          simp only [List.getD_cons_zero] at this
          rw [← hnext w hw388, ← hnext q.2 hq2]
          exact div_le_div_of_nonneg_right this (Finset.sum_nonneg fun w _ => (hpos w).le)
      | succ t =>
        have := h3 t (by simpa using ht)
        simpa using this

/-- **C139** (a beam of one).  If every decision is a beam decision, `generate` with a beam of one returns one sequence, the primer continued
greedily: every token is one of largest probability given the sequence before it. -/
theorem C139_greedy (net : Net) (wf : net.WF) (hv : net.vocab = 390) (topk : List ℝ → ℕ → List ℕ) (hk : TopK topk) (chance : ℝ)
    (coin : ℕ → ℝ) (hcoin : ∀ i, coin i ≤ chance) (primer : List ℕ) (target : ℕ) (hne : primer ≠ []) (hpt : primer.length ≤ target)
    (hlen : target ≤ net.maxSeq + 1) (htok : ∀ v ∈ primer, v < 390) :
    ∃ ys, generate net topk 1 chance coin primer target = .ok [([primer ++ ys], 1)] ∧ (primer ++ ys).length = target ∧
      ∀ t (ht : t < ys.length), ys[t] < 388 ∧
        ∀ w < 388, nextProb net (primer ++ ys.take t) w ≤ nextProb net (primer ++ ys.take t) ys[t] := by
  obtain ⟨ys, h1, h2, h3⟩ := gen_greedy net wf hv topk hk chance coin hcoin (target - primer.length) primer hne (by omega) htok
  refine ⟨ys, ?_, by rw [List.length_append]; omega, h3⟩
  unfold generate
  rw [if_neg (by omega), List.take_of_length_le hpt]
  exact h1

/-- **C139** (several rows cannot be sampled).  With a beam of at least two, a step in which the draw decides for sampling after a beam
decision raises `RuntimeError`. -/
theorem C139_beam_sample (net : Net) (wf : net.WF) (topk : List ℝ → ℕ → List ℕ) (beam : ℕ) (chance : ℝ)
    (coin : ℕ → ℝ) (n : ℕ) (rows : List (List ℕ)) (hr : 2 ≤ rows.length) (cur : ℕ) (hcur : 0 < cur) (hlen : cur ≤ net.maxSeq)
    (htok : ∀ b < rows.length, ∀ t < cur, (rows.getD b []).getD t 0 < net.vocab) (hb : beam ≠ 0) (hcoin : chance < coin cur) :
    gen net topk beam chance coin (n + 1) rows cur = .error .runtimeError := by
  obtain ⟨y, hy, -⟩ := C138_separate net wf cur rows.length (fun b t => (rows.getD b []).getD t 0) true (fun t ht b hb => htok b hb t ht) hlen
  unfold gen lastProbs
  rw [if_neg (by omega), hy]
  simp only [bind, Except.bind, pure, Except.pure]
  rw [if_neg (by rw [if_neg hb]; exact not_le.2 hcoin)]
  match rows, hr with
  | a :: b :: l, _ => rfl

/-- **C139** (a primer that does not fit). -/
theorem C139_primer_long (net : Net) (topk : List ℝ → ℕ → List ℕ) (beam : ℕ) (chance : ℝ) (coin : ℕ → ℝ) (primer : List ℕ) (target : ℕ)
    (h : target < primer.length) (h2 : 2 ≤ primer.length) : generate net topk beam chance coin primer target = .error .runtimeError := by
  unfold generate
  rw [if_pos ⟨h, by omega⟩]

/-- The contract of `topk` can be met. -/
example : ∃ topk, TopK topk := by
  have key : ∀ (l : List ℝ) (k : ℕ), ∃ L : List ℕ, k ≤ l.length → L.length = k ∧ L.Nodup ∧ (∀ f ∈ L, f < l.length) ∧
      ∀ f ∈ L, ∀ g < l.length, g ∉ L → l.getD g 0 ≤ l.getD f 0 := by
    intro l k
    induction k with
    | zero => exact ⟨[], fun _ => ⟨rfl, List.nodup_nil, by simp, by simp⟩⟩
    | succ k ih =>
      obtain ⟨L, hL⟩ := ih
      by_cases hk : k + 1 ≤ l.length
      · obtain ⟨h1, h2, h3, h4⟩ := hL (by omega)
        have hne : ((Finset.range l.length) \ L.toFinset).Nonempty := by
          rw [← Finset.card_pos]
          have := Finset.le_card_sdiff L.toFinset (Finset.range l.length)
          rw [Finset.card_range, List.toFinset_card_of_nodup h2, h1] at this
          omega
        obtain ⟨m, hm, hmax⟩ := Finset.exists_max_image _ (fun i => l.getD i 0) hne
        rw [Finset.mem_sdiff, Finset.mem_range, List.mem_toFinset] at hm
        refine ⟨m :: L, fun _ => ⟨by simp [h1], List.nodup_cons.2 ⟨hm.2, h2⟩, ?_, ?_⟩⟩
        · intro f hf
          rcases List.mem_cons.1 hf with rfl | hf
          · exact hm.1
          · exact h3 f hf
        · intro f hf g hg hgn
          rw [List.mem_cons, not_or] at hgn
          rcases List.mem_cons.1 hf with rfl | hf
          · exact hmax g (by simp [hg, hgn.2])
          · exact h4 f hf g hg hgn.2
      · exact ⟨[], fun h => absurd h hk⟩
  choose T hT using key
  exact ⟨T, hT⟩

/-- Two sequences, probabilities that make the token 0 after the second one best: it is written as the end token after the first one. -/
example : beamStep (fun _ _ => [388]) 1 [[60], [62]] [fun _ => 0, fun v => if v = 0 then 1 else 0] = .ok [[60, 388]] := by
  rw [beamStep_eq _ _ _ _ (by simp)]
  rfl

end Verif.Music
