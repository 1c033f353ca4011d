import Mathlib.Data.List.Range
import Mathlib.Data.List.Induction
import Mathlib.Data.Finset.Card
import Mathlib.Order.Interval.Finset.Nat
import Mathlib.Tactic.Linarith
import Verif.Metric.SeedModel

/-!
# C221: what retrained models depend on

Retraining with training functions that use the process's random generators.
-/

namespace Verif.RetrainSeed

open Verif.Retrain (remaining)

variable {G N P M : Type}

/-! ## Loops -/

/-- The exception of an outcome. -/
def errOf {α : Type} : Except Err α → Option Err
  | .error e => some e
  | .ok _ => none

theorem errOf_none {α : Type} (x : Except Err α) : errOf x = none ↔ ∃ a, x = .ok a := by
  cases x <;> simp [errOf]

theorem loopW_mem {α ε : Type} (f : α → World G N P → List ε × Except Err (World G N P)) (ev : α → List ε) (er : α → Option Err)
    (hf : ∀ a w, (f a w).1 = ev a ∧ errOf (f a w).2 = er a) (l : List α) (w : World G N P) (x : ε) :
    x ∈ (loopW f l w).1 ↔ ∃ l1 a l2, l = l1 ++ a :: l2 ∧ (∀ b ∈ l1, er b = none) ∧ x ∈ ev a := by
  induction l generalizing w with
  | nil => simp [loopW]
  | cons a as ih =>
    obtain ⟨h1, h2⟩ := hf a w
    rcases hfa : f a w with ⟨es, r⟩
    rw [hfa] at h1 h2
    simp only at h1 h2
    subst h1
    cases r with
    | error e =>
      simp only [loopW, hfa]
      constructor
      · intro h; exact ⟨[], a, as, rfl, by simp, h⟩
      · rintro ⟨l1, b, l2, hl, hb, hx⟩
        cases l1 with
        | nil => simp at hl; rw [hl.1]; exact hx
        | cons c l1 =>
          simp at hl
          have := hb c (by simp)
          rw [← hl.1, ← h2] at this
          simp [errOf] at this
    | ok w' =>
      simp only [loopW, hfa, List.mem_append, ih w']
      constructor
      · rintro (h | ⟨l1, b, l2, hl, hb, hx⟩)
        · exact ⟨[], a, as, rfl, by simp, h⟩
        · refine ⟨a :: l1, b, l2, by simp [hl], ?_, hx⟩
          intro c hc
          rcases List.mem_cons.1 hc with rfl | hc
          · rw [← h2]; rfl
          · exact hb c hc
      · rintro ⟨l1, b, l2, hl, hb, hx⟩
        cases l1 with
        | nil => simp at hl; left; rw [hl.1]; exact hx
        | cons c l1 =>
          simp at hl
          exact Or.inr ⟨l1, b, l2, hl.2, fun d hd => hb d (by simp [hd]), hx⟩

theorem loopW_err {α ε : Type} (f : α → World G N P → List ε × Except Err (World G N P)) (er : α → Option Err)
    (hf : ∀ a w, errOf (f a w).2 = er a) (l : List α) (w : World G N P) :
    errOf (loopW f l w).2 = l.findSome? er := by
  induction l generalizing w with
  | nil => rfl
  | cons a as ih =>
    have h2 := hf a w
    rcases hfa : f a w with ⟨es, r⟩
    rw [hfa] at h2
    cases r with
    | error e => simp only [loopW, hfa, List.findSome?_cons, ← h2, errOf]
    | ok w' => simp only [loopW, hfa, List.findSome?_cons, ← h2, errOf]; exact ih w'

/-- Simulation of two loops. -/
theorem loopW_congr {α ε : Type} (R : World G N P → World G N P → Prop) (f g : α → World G N P → List ε × Except Err (World G N P))
    (hf : ∀ a w w', R w w' → (f a w).1 = (g a w').1 ∧
      ((∃ e, (f a w).2 = .error e ∧ (g a w').2 = .error e) ∨ ∃ u u', (f a w).2 = .ok u ∧ (g a w').2 = .ok u' ∧ R u u'))
    (l : List α) (w w' : World G N P) (h : R w w') :
    (loopW f l w).1 = (loopW g l w').1 ∧
      ((∃ e, (loopW f l w).2 = .error e ∧ (loopW g l w').2 = .error e) ∨
        ∃ u u', (loopW f l w).2 = .ok u ∧ (loopW g l w').2 = .ok u' ∧ R u u') := by
  induction l generalizing w w' with
  | nil => exact ⟨rfl, Or.inr ⟨w, w', rfl, rfl, h⟩⟩
  | cons a as ih =>
    obtain ⟨h1, h2⟩ := hf a w w' h
    rcases hfa : f a w with ⟨es, r⟩
    rcases hga : g a w' with ⟨es', r'⟩
    rw [hfa, hga] at h1 h2
    simp only at h1 h2
    subst h1
    rcases h2 with ⟨e, rfl, rfl⟩ | ⟨u, u', rfl, rfl, hu⟩
    · simp [loopW, hfa, hga]
    · obtain ⟨i1, i2⟩ := ih u u' hu
      simp only [loopW, hfa, hga]
      exact ⟨by rw [i1], i2⟩

theorem range_split (m : ℕ) (l1 l2 : List ℕ) (j : ℕ) : List.range m = l1 ++ j :: l2 → l1 = List.range j ∧ j < m := by
  intro h
  have hlen : l1.length < m := by
    have := congrArg List.length h
    simp at this; omega
  have hj : j = l1.length := by
    have := congrArg (fun l => l[l1.length]?) h
    simp [hlen] at this
    exact this.symm
  subst hj
  refine ⟨?_, hlen⟩
  have := congrArg (List.take l1.length) h
  simp [List.take_range] at this
  rw [Nat.min_eq_left (Nat.le_of_lt hlen)] at this
  exact this.symm

theorem range'_split (s m : ℕ) (l1 l2 : List ℕ) (i : ℕ) :
    List.range' s m = l1 ++ i :: l2 → s ≤ i ∧ i < s + m ∧ ∀ b, b ∈ l1 ↔ s ≤ b ∧ b < i := by
  intro h
  rw [List.range'_eq_map_range, List.map_eq_append_iff] at h
  obtain ⟨a1, a2, h, rfl, h2⟩ := h
  rw [List.map_eq_cons_iff] at h2
  obtain ⟨c, a3, rfl, rfl, rfl⟩ := h2
  obtain ⟨rfl, hc⟩ := range_split _ _ _ _ h
  refine ⟨by omega, by omega, fun b => ?_⟩
  rw [List.mem_map]
  constructor
  · rintro ⟨x, hx, rfl⟩
    rw [List.mem_range] at hx
    omega
  · rintro ⟨h1, h2⟩
    exact ⟨b - s, by rw [List.mem_range]; omega, by omega⟩

theorem range_split' (m j : ℕ) (h : j < m) : List.range m = List.range j ++ j :: (List.range (m - j - 1)).map (j + 1 + ·) := by
  have : m = j + (1 + (m - j - 1)) := by omega
  conv_lhs => rw [this, List.range_add, List.range_add]
  simp [List.map_map, Function.comp_def, Nat.add_assoc]

theorem range'_split' (s m i : ℕ) (h1 : s ≤ i) (h2 : i < s + m) :
    ∃ l2, List.range' s m = List.range' s (i - s) ++ i :: l2 := by
  rw [List.range'_eq_map_range, range_split' m (i - s) (by omega), List.map_append, ← List.range'_eq_map_range, List.map_cons]
  exact ⟨_, by rw [Nat.add_sub_cancel' h1]⟩

/-! ## Training functions that set their own random state -/

/-- The model does not depend on the random state in which training begins: with seed `s` it is `out (some s) …`. -/
def SelfSeeded (train : Trainer G N P M) (out : Option ℤ → Bool → List ℕ → Except Err M) : Prop :=
  ∀ s sh idx w, (train s sh idx w).map Prod.fst = out s sh idx

theorem selfSeeded_err {train : Trainer G N P M} {out} (h : SelfSeeded train out) (s sh idx) (w : World G N P) :
    errOf (train s sh idx w) = errOf (out s sh idx) := by
  rw [← h s sh idx w]; cases train s sh idx w <;> rfl

theorem selfSeeded_ok {train : Trainer G N P M} {out} (h : SelfSeeded train out) (s sh idx) (w : World G N P) {m w'}
    (ht : train s sh idx w = .ok (m, w')) : out s sh idx = .ok m := by
  rw [← h s sh idx w, ht]; rfl

/-- The model a benchmark training function arrives at, by seed. -/
def benchOut (E : Gen G N P) (body : Bool → List ℕ → World G N P → M × World G N P) (seed : Option ℤ) (sh : Bool) (idx : List ℕ) : Except Err M :=
  match seed with
  | none => .error .typeError
  | some s =>
    if 0 ≤ s ∧ s < 2 ^ 32 then .ok (body sh idx ⟨E.seedT s, E.seedN s, E.seedP s⟩).1
    else if -2 ^ 63 ≤ s ∧ s < 2 ^ 64 then .error .valueError else .error .runtimeError

theorem bench_eq (E : Gen G N P) (body : Bool → List ℕ → World G N P → M × World G N P) (s : ℤ) (sh : Bool) (idx : List ℕ) (w : World G N P) :
    bench E body (some s) sh idx w =
      if 0 ≤ s ∧ s < 2 ^ 32 then .ok (body sh idx ⟨E.seedT s, E.seedN s, E.seedP s⟩)
      else if -2 ^ 63 ≤ s ∧ s < 2 ^ 64 then .error .valueError else .error .runtimeError := by
  simp only [bench, manualSeed, npSeed, pySeed]
  by_cases h1 : -2 ^ 63 ≤ s ∧ s < 2 ^ 64
  · by_cases h2 : 0 ≤ s ∧ s < 2 ^ 32
    · simp only [h1, h2, and_self, if_true, bind, Except.bind]
    · simp only [if_pos h1, if_neg h2, bind, Except.bind]
  · have h2 : ¬ (0 ≤ s ∧ s < 2 ^ 32) := fun h => h1 ⟨by have := h.1; norm_num at *; linarith, by have := h.2; norm_num at *; linarith⟩
    simp only [if_neg h1, if_neg h2, bind, Except.bind]

/-- The benchmark's training functions set all three generators. -/
theorem C221_bench_self_seeded (E : Gen G N P) (body : Bool → List ℕ → World G N P → M × World G N P) :
    SelfSeeded (bench E body) (benchOut E body) := by
  intro s sh idx w
  cases s with
  | none => rfl
  | some s =>
    rw [bench_eq]
    simp only [benchOut]
    split_ifs <;> rfl

/-! ## `retrain_loo` -/

/-- The indices retrained. -/
def looList (n : ℕ) (indices : Option (List ℤ)) : List ℤ := indices.getD ((List.range n).map Int.ofNat)

theorem looBody_spec {train : Trainer G N P M} {out} (h : SelfSeeded train out) (n : ℕ) (seed : Option ℤ) (index : ℤ) (w : World G N P) :
    (looBody train n seed index w).1 = (match out seed false (remaining n index) with | .ok m => [(index, m)] | .error _ => []) ∧
      errOf (looBody train n seed index w).2 = errOf (out seed false (remaining n index)) := by
  simp only [looBody]
  have h1 := h seed false (remaining n index) w
  rcases ht : train seed false (remaining n index) w with e | ⟨m, w'⟩
  · rw [ht] at h1; rw [← h1]; exact ⟨rfl, rfl⟩
  · rw [ht] at h1; rw [← h1]; exact ⟨rfl, rfl⟩

/-- **LOO with the benchmark's training functions**: with a seed from 0 to 2^32 - 1 the call succeeds, and the model saved for an index is the one
trained on the remaining positions from the generators seeded by that seed - the same for every index, every list of indices and every
random state before the call. -/
theorem C221_loo_bench (E : Gen G N P) (body : Bool → List ℕ → World G N P → M × World G N P) (n : ℕ) (indices : Option (List ℤ)) (s : ℤ)
    (h0 : 0 ≤ s) (h1 : s < 2 ^ 32) (w : World G N P) :
    (retrainLoo E (bench E body) n indices (some s) w).1 =
        (looList n indices).map (fun i : ℤ => (i, (body false (remaining n i) ⟨E.seedT s, E.seedN s, E.seedP s⟩).1)) ∧
      ∃ w', (retrainLoo E (bench E body) n indices (some s) w).2 = .ok w' := by
  have hm : manualSeed E s w = .ok { w with torch := E.seedT s } := by
    rw [manualSeed, if_pos ⟨by norm_num at *; linarith, by norm_num at *; linarith⟩]
  simp only [retrainLoo, hm, looList]
  generalize (indices.getD ((List.range n).map Int.ofNat)) = l
  generalize ({ w with torch := E.seedT s } : World G N P) = v
  induction l generalizing v with
  | nil => exact ⟨rfl, v, rfl⟩
  | cons a as ih =>
    have hb : ∀ v, looBody (bench E body) n (some s) a v =
        ([(a, (body false (remaining n a) ⟨E.seedT s, E.seedN s, E.seedP s⟩).1)],
          .ok (body false (remaining n a) ⟨E.seedT s, E.seedN s, E.seedP s⟩).2) := by
      intro v
      simp only [looBody, bench_eq, if_pos (And.intro h0 h1)]
    obtain ⟨i1, w', i2⟩ := ih (body false (remaining n a) ⟨E.seedT s, E.seedN s, E.seedP s⟩).2
    simp only [loopW, hb]
    exact ⟨by rw [i1]; rfl, w', i2⟩

/-- **Outside that range nothing is trained**: the default `seed=None` raises `TypeError` at the first index, other seeds raise `ValueError`, or
`RuntimeError` beyond 64 bits, and no model is written. -/
theorem C221_loo_bench_fails (E : Gen G N P) (body : Bool → List ℕ → World G N P → M × World G N P) (n : ℕ) (indices : Option (List ℤ))
    (seed : Option ℤ) (hseed : ∀ s, seed = some s → ¬ (0 ≤ s ∧ s < 2 ^ 32)) (hne : looList n indices ≠ []) (w : World G N P) :
    retrainLoo E (bench E body) n indices seed w = ([], .error (match seed with
      | none => .typeError
      | some s => if -2 ^ 63 ≤ s ∧ s < 2 ^ 64 then .valueError else .runtimeError)) := by
  simp only [looList] at hne
  simp only [retrainLoo]
  generalize hl : (indices.getD ((List.range n).map Int.ofNat)) = l at hne
  cases l with
  | nil => exact absurd rfl hne
  | cons a as =>
    cases seed with
    | none => rfl
    | some s =>
      have hs := hseed s rfl
      simp only [manualSeed]
      by_cases h : -2 ^ 63 ≤ s ∧ s < 2 ^ 64
      · simp only [if_pos h, loopW, looBody, bench_eq, if_neg hs]
      · simp only [if_neg h]

/-- The documented form of training function, without a `seed` parameter, is never run. -/
theorem C221_loo_documented (E : Gen G N P) (n : ℕ) (indices : Option (List ℤ)) (hne : looList n indices ≠ []) (w : World G N P) :
    retrainLoo E (noSeedParam : Trainer G N P M) n indices none w = ([], .error .typeError) := by
  simp only [looList] at hne
  simp only [retrainLoo]
  generalize hl : (indices.getD ((List.range n).map Int.ofNat)) = l at hne
  cases l with
  | nil => exact absurd rfl hne
  | cons a as => rfl

/-- Self-seeded training functions in general: as long as nothing raises, the model saved for an index is a function of seed and index. -/
theorem C221_loo_self_seeded (E : Gen G N P) {train : Trainer G N P M} {out} (h : SelfSeeded train out) (n : ℕ) (indices : Option (List ℤ))
    (seed : Option ℤ) (w : World G N P) (i : ℤ) (m : M) (hm : (i, m) ∈ (retrainLoo E train n indices seed w).1) :
    i ∈ looList n indices ∧ out seed false (remaining n i) = .ok m := by
  have key : ∀ (v : World G N P), (i, m) ∈ (loopW (looBody train n seed) (looList n indices) v).1 →
      i ∈ looList n indices ∧ out seed false (remaining n i) = .ok m := by
    intro v hv
    rw [loopW_mem (looBody train n seed) _ _ (looBody_spec h n seed)] at hv
    obtain ⟨l1, a, l2, hl, -, hx⟩ := hv
    rcases ho : out seed false (remaining n a) with e | m'
    · rw [ho] at hx; simp at hx
    · rw [ho] at hx
      simp at hx
      rw [hx.1, hx.2]
      exact ⟨by rw [hl]; simp, ho⟩
  simp only [retrainLoo] at hm
  cases seed with
  | none => exact key w hm
  | some s =>
    simp only at hm
    rcases hs : manualSeed E s w with e | v
    · rw [hs] at hm; simp at hm
    · rw [hs] at hm; exact key v hm

/-- **Training functions that just draw**: the first model is trained from the state set by the seed, each later one from the state left by the
model before. -/
theorem C221_loo_stream (E : Gen G N P) (t : Option ℤ → Bool → List ℕ → World G N P → M × World G N P) (n : ℕ) (l : List ℤ) (s : ℤ)
    (h0 : -2 ^ 63 ≤ s) (h1 : s < 2 ^ 64) (w : World G N P) (k : ℕ) (i : ℤ) (hk : l[k]? = some i) :
    (retrainLoo E (total t) n (some l) (some s) w).1[k]? =
      some (i, (t (some s) false (remaining n i)
        ((l.take k).foldl (fun v j => (t (some s) false (remaining n j) v).2) { w with torch := E.seedT s })).1) := by
  simp only [retrainLoo, manualSeed, if_pos (And.intro h0 h1), Option.getD_some]
  generalize ({ w with torch := E.seedT s } : World G N P) = v
  induction l generalizing v k with
  | nil => simp at hk
  | cons a as ih =>
    simp only [loopW, looBody, total]
    cases k with
    | zero => simp at hk; subst hk; simp
    | succ k =>
      simp at hk
      simpa using ih k hk _

/-- So the model of an index can depend on which other indices are retrained in the same call, although the seed is fixed. -/
theorem C221_loo_not_a_function : ∃ (E : Gen ℕ Unit Unit) (t : Option ℤ → Bool → List ℕ → World ℕ Unit Unit → ℕ × World ℕ Unit Unit),
    ∀ w, (retrainLoo E (total t) 3 (some [0, 1]) (some 7) w).1 = [(0, 0), (1, 1)] ∧
      (retrainLoo E (total t) 3 (some [1]) (some 7) w).1 = [(1, 0)] :=
  ⟨⟨fun _ => 0, fun _ => (), fun _ => (), fun _ => (0, ())⟩, fun _ _ _ w => (w.torch, { w with torch := w.torch + 1 }), fun _ => ⟨by rfl, by rfl⟩⟩

/-! ## `retrain_lds` -/

/-- The first subset of a call. -/
def startOf (tot : ℤ) (startId : ℕ) : ℕ := if tot = 0 then 0 else startId

/-- Arguments that `retrain_lds` accepts. -/
structure Valid (n k num : ℕ) (tot : ℤ) : Prop where
  nonneg : 0 ≤ tot
  pos : num ≠ 0
  dvd : (num : ℤ) ∣ tot
  ratio : k ≤ n

theorem lds_eq (E : Gen G N P) (choice : ℤ → ℕ → ℕ → List ℕ) (train : Trainer G N P M) {n k num : ℕ} (runs startId : ℕ) {tot : ℤ}
    (hv : Valid n k num tot) (seed : Option ℤ) (w : World G N P) (h0 : 0 ≤ (ldsSeed E seed w).1) (h1 : (ldsSeed E seed w).1 < 2 ^ 64) :
    retrainLds E choice train n k num runs startId tot seed w =
      loopW (subsetBody choice train n k runs (ldsSeed E seed w).1) (List.range' (startOf tot startId) num)
        { (ldsSeed E seed w).2 with torch := E.seedT (ldsSeed E seed w).1 } := by
  have a1 : ¬ tot < 0 := by have := hv.nonneg; omega
  have a2 : ¬ tot % num ≠ 0 := by rw [not_not]; exact Int.emod_eq_zero_of_dvd hv.dvd
  have a3 : ¬ (ldsSeed E seed w).1 < 0 := by omega
  have a4 : -2 ^ 63 ≤ (ldsSeed E seed w).1 ∧ (ldsSeed E seed w).1 < 2 ^ 64 := ⟨by norm_num at *; linarith, h1⟩
  simp only [retrainLds, if_neg a1, if_neg hv.pos, if_neg a2, defaultRng, if_neg a3, manualSeed, if_pos a4, startOf]

theorem runBody_spec {train : Trainer G N P M} {out} (h : SelfSeeded train out) (runs : ℕ) (seed : ℤ) (i : ℕ) (idx : List ℕ) (j : ℕ)
    (w : World G N P) :
    (runBody train runs seed i idx j w).1 =
        (match out (some (seed + i * runs + j)) true idx with | .ok m => [.weights i j m] | .error _ => []) ∧
      errOf (runBody train runs seed i idx j w).2 = errOf (out (some (seed + i * runs + j)) true idx) := by
  simp only [runBody]
  have h1 := h (some (seed + i * runs + j)) true idx w
  rcases ht : train (some (seed + i * runs + j)) true idx w with e | ⟨m, w'⟩
  · rw [ht] at h1; rw [← h1]; exact ⟨rfl, rfl⟩
  · rw [ht] at h1; rw [← h1]; exact ⟨rfl, rfl⟩

/-- What a self-seeded training function makes of run `j` of subset `i`. -/
def runOut (out : Option ℤ → Bool → List ℕ → Except Err M) (choice : ℤ → ℕ → ℕ → List ℕ) (n k runs : ℕ) (seed : ℤ) (i j : ℕ) : Except Err M :=
  out (some (seed + i * runs + j)) true (choice (seed + i) n k)

theorem runs_mem {train : Trainer G N P M} {out} (h : SelfSeeded train out) (choice : ℤ → ℕ → ℕ → List ℕ) (n k runs : ℕ) (seed : ℤ) (i : ℕ)
    (w : World G N P) (f : File M) :
    f ∈ (loopW (runBody train runs seed i (choice (seed + i) n k)) (List.range runs) w).1 ↔
      ∃ j m, f = .weights i j m ∧ j < runs ∧ (∀ j' < j, errOf (runOut out choice n k runs seed i j') = none) ∧
        runOut out choice n k runs seed i j = .ok m := by
  rw [loopW_mem _ _ _ (runBody_spec h runs seed i (choice (seed + i) n k))]
  constructor
  · rintro ⟨l1, j, l2, hl, hb, hx⟩
    obtain ⟨rfl, hj⟩ := range_split _ _ _ _ hl
    rcases ho : out (some (seed + i * runs + j)) true (choice (seed + i) n k) with e | m
    · rw [ho] at hx; simp at hx
    · rw [ho] at hx; simp at hx
      exact ⟨j, m, hx, hj, fun j' hj' => hb j' (List.mem_range.2 hj'), ho⟩
  · rintro ⟨j, m, rfl, hj, hb, ho⟩
    refine ⟨List.range j, j, _, range_split' runs j hj, fun b hb' => hb b (List.mem_range.1 hb'), ?_⟩
    simp only [runOut] at ho
    rw [ho]; simp

theorem findSome_none {α : Type} (l : List α) (er : α → Option Err) : l.findSome? er = none ↔ ∀ a ∈ l, er a = none := by
  simp [List.findSome?_eq_none_iff]

theorem runs_err {train : Trainer G N P M} {out} (h : SelfSeeded train out) (choice : ℤ → ℕ → ℕ → List ℕ) (n k runs : ℕ) (seed : ℤ) (i : ℕ)
    (w : World G N P) :
    errOf (loopW (runBody train runs seed i (choice (seed + i) n k)) (List.range runs) w).2 =
      (List.range runs).findSome? (fun j => errOf (runOut out choice n k runs seed i j)) :=
  loopW_err _ _ (fun j w => (runBody_spec h runs seed i (choice (seed + i) n k) j w).2) _ _

/-- The files of a subset, as a set. -/
theorem subset_spec {train : Trainer G N P M} {out} (h : SelfSeeded train out) (choice : ℤ → ℕ → ℕ → List ℕ) {n k : ℕ} (hk : k ≤ n) (runs : ℕ)
    (seed : ℤ) (h0 : 0 ≤ seed) (i : ℕ) (w : World G N P) :
    (∀ f, f ∈ (subsetBody choice train n k runs seed i w).1 ↔ f = .indices i (choice (seed + i) n k) ∨
      ∃ j m, f = .weights i j m ∧ j < runs ∧ (∀ j' < j, errOf (runOut out choice n k runs seed i j') = none) ∧
        runOut out choice n k runs seed i j = .ok m) ∧
    errOf (subsetBody choice train n k runs seed i w).2 =
      (List.range runs).findSome? (fun j => errOf (runOut out choice n k runs seed i j)) := by
  have a1 : ¬ seed + (i : ℤ) < 0 := by omega
  have a2 : ¬ n < k := by omega
  simp only [subsetBody, defaultRng, if_neg a1, if_neg a2]
  exact ⟨fun f => by rw [List.mem_cons, runs_mem h], runs_err h choice n k runs seed i w⟩

theorem loopW_mem' {α ε : Type} (f : α → World G N P → List ε × Except Err (World G N P)) (ev : α → ε → Prop) (er : α → Option Err)
    (hf : ∀ a w, (∀ x, x ∈ (f a w).1 ↔ ev a x) ∧ errOf (f a w).2 = er a) (l : List α) (w : World G N P) (x : ε) :
    x ∈ (loopW f l w).1 ↔ ∃ l1 a l2, l = l1 ++ a :: l2 ∧ (∀ b ∈ l1, er b = none) ∧ ev a x := by
  induction l generalizing w with
  | nil => simp [loopW]
  | cons a as ih =>
    obtain ⟨h1, h2⟩ := hf a w
    rcases hfa : f a w with ⟨es, r⟩
    rw [hfa] at h1 h2
    simp only at h1 h2
    cases r with
    | error e =>
      simp only [loopW, hfa]
      constructor
      · intro h; exact ⟨[], a, as, rfl, by simp, (h1 x).1 h⟩
      · rintro ⟨l1, b, l2, hl, hb, hx⟩
        cases l1 with
        | nil => simp at hl; rw [← hl.1] at hx; exact (h1 x).2 hx
        | cons c l1 =>
          simp at hl
          have := hb c (by simp)
          rw [← hl.1, ← h2] at this
          simp [errOf] at this
    | ok w' =>
      simp only [loopW, hfa, List.mem_append, ih w']
      constructor
      · rintro (h | ⟨l1, b, l2, hl, hb, hx⟩)
        · exact ⟨[], a, as, rfl, by simp, (h1 x).1 h⟩
        · refine ⟨a :: l1, b, l2, by simp [hl], ?_, hx⟩
          intro c hc
          rcases List.mem_cons.1 hc with rfl | hc
          · rw [← h2]; rfl
          · exact hb c hc
      · rintro ⟨l1, b, l2, hl, hb, hx⟩
        cases l1 with
        | nil => simp at hl; left; rw [← hl.1] at hx; exact (h1 x).2 hx
        | cons c l1 =>
          simp at hl
          exact Or.inr ⟨l1, b, l2, hl.2, fun d hd => hb d (by simp [hd]), hx⟩

/-- **LDS with self-seeded training functions**: the model saved as run `j` of subset `i` is a function of seed, `i` and `j`; it is saved exactly if
no run before it in the same call raised. Neither the random state before the call nor the division into calls enters. -/
theorem C221_lds_self_seeded (E : Gen G N P) (choice : ℤ → ℕ → ℕ → List ℕ) {train : Trainer G N P M} {out} (h : SelfSeeded train out)
    {n k num : ℕ} (runs startId : ℕ) {tot : ℤ} (hv : Valid n k num tot) (s : ℤ) (h0 : 0 ≤ s) (h1 : s < 2 ^ 64) (w : World G N P) (i j : ℕ) (m : M) :
    File.weights i j m ∈ (retrainLds E choice train n k num runs startId tot (some s) w).1 ↔
      startOf tot startId ≤ i ∧ i < startOf tot startId + num ∧ j < runs ∧
        (∀ i' j', startOf tot startId ≤ i' → j' < runs → (i' < i ∨ i' = i ∧ j' < j) → ∃ m', runOut out choice n k runs s i' j' = .ok m') ∧
        runOut out choice n k runs s i j = .ok m := by
  rw [lds_eq E choice train runs startId hv (some s) w h0 h1]
  simp only [ldsSeed]
  rw [loopW_mem' _ _ _ (fun i w => subset_spec h choice hv.ratio runs s h0 i w)]
  constructor
  · rintro ⟨l1, a, l2, hl, hb, hx⟩
    obtain ⟨b1, b2, b3⟩ := range'_split _ _ _ _ _ hl
    rcases hx with hx | ⟨j', m', hx, hj, hb', ho⟩
    · cases hx
    · injection hx with e1 e2 e3
      subst e1; subst e2; subst e3
      refine ⟨b1, b2, hj, ?_, ho⟩
      intro i' j' hi' hj' hlt
      rw [← errOf_none]
      rcases hlt with hlt | ⟨rfl, hlt⟩
      · have := hb i' ((b3 i').2 ⟨hi', hlt⟩)
        rw [findSome_none] at this
        exact this j' (List.mem_range.2 hj')
      · exact hb' j' hlt
  · rintro ⟨b1, b2, hj, hb, ho⟩
    obtain ⟨l2, hl⟩ := range'_split' (startOf tot startId) num i b1 b2
    refine ⟨_, i, l2, hl, ?_, Or.inr ⟨j, m, rfl, hj, fun j' hj' => (errOf_none _).2 (hb i j' b1 (by omega) (Or.inr ⟨rfl, hj'⟩)), ho⟩⟩
    intro b hb'
    rw [List.mem_range'_1] at hb'
    rw [findSome_none]
    intro j' hj'
    rw [List.mem_range] at hj'
    exact (errOf_none _).2 (hb b j' hb'.1 hj' (Or.inl (by omega)))

/-- It raises exactly if some run does, and then with the exception of the first that does. -/
theorem C221_lds_outcome (E : Gen G N P) (choice : ℤ → ℕ → ℕ → List ℕ) {train : Trainer G N P M} {out} (h : SelfSeeded train out)
    {n k num : ℕ} (runs startId : ℕ) {tot : ℤ} (hv : Valid n k num tot) (seed : Option ℤ) (w : World G N P)
    (h0 : 0 ≤ (ldsSeed E seed w).1) (h1 : (ldsSeed E seed w).1 < 2 ^ 64) :
    errOf (retrainLds E choice train n k num runs startId tot seed w).2 =
      (List.range' (startOf tot startId) num).findSome? fun i => (List.range runs).findSome? fun j =>
        errOf (runOut out choice n k runs (ldsSeed E seed w).1 i j) := by
  rw [lds_eq E choice train runs startId hv seed w h0 h1]
  exact loopW_err _ _ (fun i w => (subset_spec h choice hv.ratio runs _ h0 i w).2) _ _

/-- **LDS with the benchmark's training functions**: success exactly if the largest training seed is below 2^32. -/
theorem C221_lds_bench_succeeds_iff (E : Gen G N P) (choice : ℤ → ℕ → ℕ → List ℕ) (body : Bool → List ℕ → World G N P → M × World G N P)
    {n k num : ℕ} (runs startId : ℕ) {tot : ℤ} (hv : Valid n k num tot) (seed : Option ℤ) (w : World G N P)
    (h0 : 0 ≤ (ldsSeed E seed w).1) (h1 : (ldsSeed E seed w).1 < 2 ^ 64) :
    (∃ w', (retrainLds E choice (bench E body) n k num runs startId tot seed w).2 = .ok w') ↔
      runs = 0 ∨ (ldsSeed E seed w).1 + (startOf tot startId + num) * runs ≤ 2 ^ 32 := by
  rw [← errOf_none, C221_lds_outcome E choice (C221_bench_self_seeded E body) runs startId hv seed w h0 h1, findSome_none]
  generalize (ldsSeed E seed w).1 = s at *
  generalize startOf tot startId = st
  have hok : ∀ i j : ℕ, errOf (runOut (benchOut E body) choice n k runs s i j) = none ↔ s + i * runs + j < 2 ^ 32 := by
    intro i j
    have hnn : 0 ≤ s + (i : ℤ) * runs + j := by positivity
    simp only [runOut, benchOut]
    by_cases hb : s + (i : ℤ) * runs + j < 2 ^ 32
    · rw [if_pos ⟨hnn, hb⟩]; exact ⟨fun _ => hb, fun _ => rfl⟩
    · rw [if_neg (fun h => hb h.2)]
      split_ifs <;> simp only [errOf, hb, reduceCtorEq]
  constructor
  · intro h
    by_cases hr : runs = 0
    · exact Or.inl hr
    · right
      have hn := hv.pos
      have := h (st + num - 1) (by rw [List.mem_range'_1]; omega)
      rw [findSome_none] at this
      have := (hok _ _).1 (this (runs - 1) (by rw [List.mem_range]; omega))
      have e1 : ((st + num - 1 : ℕ) : ℤ) = st + num - 1 := by omega
      have e2 : ((runs - 1 : ℕ) : ℤ) = runs - 1 := by omega
      rw [e1, e2] at this
      have e3 : s + ((st : ℤ) + num - 1) * runs + (runs - 1) = s + (st + num) * runs - 1 := by ring
      omega
  · intro h i hi
    rw [findSome_none]
    intro j hj
    rw [hok]
    rw [List.mem_range'_1] at hi
    rw [List.mem_range] at hj
    rcases h with h | h
    · omega
    · have : (i : ℤ) * runs + runs ≤ (st + num) * runs := by
        have e : ((i + 1 : ℕ) : ℤ) * runs ≤ ((st + num : ℕ) : ℤ) * runs := by
          apply mul_le_mul_of_nonneg_right
          · exact_mod_cast (by omega : i + 1 ≤ st + num)
          · positivity
        push_cast at e
        linarith
      have hj' : (j : ℤ) < runs := by exact_mod_cast hj
      linarith

/-- The models it saves, also when it fails: those whose training seed is below 2^32. -/
theorem C221_lds_bench_models (E : Gen G N P) (choice : ℤ → ℕ → ℕ → List ℕ) (body : Bool → List ℕ → World G N P → M × World G N P)
    {n k num : ℕ} (runs startId : ℕ) {tot : ℤ} (hv : Valid n k num tot) (s : ℤ) (h0 : 0 ≤ s) (h1 : s < 2 ^ 64) (w : World G N P) (i j : ℕ) (m : M) :
    File.weights i j m ∈ (retrainLds E choice (bench E body) n k num runs startId tot (some s) w).1 ↔
      startOf tot startId ≤ i ∧ i < startOf tot startId + num ∧ j < runs ∧ s + i * runs + j < 2 ^ 32 ∧
        m = (body true (choice (s + i) n k) ⟨E.seedT (s + i * runs + j), E.seedN (s + i * runs + j), E.seedP (s + i * runs + j)⟩).1 := by
  rw [C221_lds_self_seeded E choice (C221_bench_self_seeded E body) runs startId hv s h0 h1]
  have hval : ∀ (i j : ℕ) (m : M), runOut (benchOut E body) choice n k runs s i j = .ok m ↔ s + i * runs + j < 2 ^ 32 ∧
      m = (body true (choice (s + i) n k) ⟨E.seedT (s + i * runs + j), E.seedN (s + i * runs + j), E.seedP (s + i * runs + j)⟩).1 := by
    intro i j m
    have hnn : 0 ≤ s + (i : ℤ) * runs + j := by positivity
    simp only [runOut, benchOut]
    by_cases hb : s + (i : ℤ) * runs + j < 2 ^ 32
    · rw [if_pos ⟨hnn, hb⟩]; simp only [Except.ok.injEq, hb, true_and]; exact eq_comm
    · rw [if_neg (fun h => hb h.2)]
      split_ifs <;> simp only [hb, false_and]
  rw [hval]
  constructor
  · rintro ⟨a, b, c, -, d⟩; exact ⟨a, b, c, d⟩
  · rintro ⟨a, b, c, d, e⟩
    refine ⟨a, b, c, ?_, d, e⟩
    intro i' j' hi' hj' hlt
    refine ⟨_, (hval i' j' _).2 ⟨?_, rfl⟩⟩
    have hj2 : (j' : ℤ) < runs := by exact_mod_cast hj'
    rcases hlt with hlt | ⟨rfl, hlt⟩
    · have e1 : ((i' + 1 : ℕ) : ℤ) * runs ≤ (i : ℤ) * runs := by
        apply mul_le_mul_of_nonneg_right
        · exact_mod_cast hlt
        · positivity
      push_cast at e1
      have : (0 : ℤ) ≤ j := by positivity
      linarith
    · have : (j' : ℤ) < j := by exact_mod_cast hlt
      linarith

open Classical in
/-- **The default seed**: of the 2^64 seeds that `seed=None` may draw, `2^32 + 1 - (num_subsets * num_runs_per_subset)` (none if this is negative)
let a run in one call succeed with the benchmark's training functions. -/
theorem C221_lds_default_seed (choice : ℤ → ℕ → ℕ → List ℕ) (E : Gen G N P) (body : Bool → List ℕ → World G N P → M × World G N P)
    {n k num runs : ℕ} (hv : Valid n k num 0) (hr : runs ≠ 0) (w : World G N P) :
    ((Finset.range (2 ^ 64)).filter fun b => ∃ w', (retrainLds { E with bits := fun p => (b, p) } choice
      (bench { E with bits := fun p => (b, p) } body) n k num runs 0 0 none w).2 = Except.ok w').card = 2 ^ 32 + 1 - num * runs := by
  have : ((Finset.range (2 ^ 64)).filter fun b => ∃ w', (retrainLds { E with bits := fun p => (b, p) } choice
      (bench { E with bits := fun p => (b, p) } body) n k num runs 0 0 none w).2 = Except.ok w') = Finset.range (2 ^ 32 + 1 - num * runs) := by
    ext b
    rw [Finset.mem_filter, Finset.mem_range, Finset.mem_range]
    have hpos : 0 < num * runs := Nat.mul_pos (Nat.pos_of_ne_zero hv.pos) (Nat.pos_of_ne_zero hr)
    have key : b < 2 ^ 64 → ((∃ w', (retrainLds { E with bits := fun p => (b, p) } choice
        (bench { E with bits := fun p => (b, p) } body) n k num runs 0 0 none w).2 = Except.ok w') ↔ b + num * runs ≤ 2 ^ 32) := by
      intro hb
      have hs : (ldsSeed { E with bits := fun p => (b, p) } none w).1 = (b : ℤ) := rfl
      rw [C221_lds_bench_succeeds_iff _ choice body runs 0 hv none w (by rw [hs]; positivity) (by rw [hs]; exact_mod_cast hb), hs]
      simp only [hr, false_or, startOf, if_true]
      push_cast
      rw [zero_add]
      constructor
      · intro h; exact_mod_cast h
      · intro h; exact_mod_cast h
    constructor
    · rintro ⟨h1, h2⟩
      have := (key h1).1 h2
      omega
    · intro h
      have h1 : b < 2 ^ 64 := by
        have : (2 : ℕ) ^ 32 + 1 ≤ 2 ^ 64 := by norm_num
        omega
      exact ⟨h1, (key h1).2 (by omega)⟩
  rw [this, Finset.card_range]

/-- **Training functions that just draw**: in every call, whatever its `start_id`, the first model is trained from the same generator state, the one
set by the common seed. -/
theorem C221_lds_first (E : Gen G N P) (choice : ℤ → ℕ → ℕ → List ℕ) (t : Option ℤ → Bool → List ℕ → World G N P → M × World G N P)
    {n k num : ℕ} (runs startId : ℕ) {tot : ℤ} (hv : Valid n k num tot) (hr : runs ≠ 0) (s : ℤ) (h0 : 0 ≤ s) (h1 : s < 2 ^ 64) (w : World G N P) :
    (retrainLds E choice (total t) n k num runs startId tot (some s) w).1[1]? =
      some (.weights (startOf tot startId) 0 (t (some (s + startOf tot startId * runs)) true (choice (s + startOf tot startId) n k)
        ⟨E.seedT s, w.np, w.py⟩).1) := by
  rw [lds_eq E choice (total t) runs startId hv (some s) w h0 h1]
  obtain ⟨num, rfl⟩ := Nat.exists_eq_succ_of_ne_zero hv.pos
  obtain ⟨runs, rfl⟩ := Nat.exists_eq_succ_of_ne_zero hr
  simp only [ldsSeed, List.range'_succ]
  have a1 : ∀ i : ℕ, ¬ s + (i : ℤ) < 0 := by intro i; omega
  have a2 : ¬ n < k := by have := hv.ratio; omega
  have hb : ∃ x y rest, subsetBody choice (total t) n k (runs + 1) s (startOf tot startId) { w with torch := E.seedT s } =
      (x :: .weights (startOf tot startId) 0 (t (some (s + startOf tot startId * (runs + 1 : ℕ))) true (choice (s + startOf tot startId) n k)
        ⟨E.seedT s, w.np, w.py⟩).1 :: rest, y) := by
    simp only [subsetBody, defaultRng, if_neg (a1 _), if_neg a2, List.range_succ_eq_map, loopW, runBody, total, Int.natCast_zero, add_zero,
      List.cons_append, List.nil_append]
    exact ⟨_, _, _, rfl⟩
  obtain ⟨x, y, rest, hb⟩ := hb
  simp only [loopW, hb]
  cases y <;> rfl

/-- So a run divided into two calls need not give the models of the undivided run, although subsets and seeds are the same. -/
theorem C221_lds_division_matters : ∃ (E : Gen ℕ Unit Unit) (t : Option ℤ → Bool → List ℕ → World ℕ Unit Unit → ℕ × World ℕ Unit Unit),
    ∀ w, (retrainLds E (fun _ _ _ => [0]) (total t) 1 1 2 1 0 2 (some 7) w).1 =
        [.indices 0 [0], .weights 0 0 0, .indices 1 [0], .weights 1 0 1] ∧
      (retrainLds E (fun _ _ _ => [0]) (total t) 1 1 1 1 0 2 (some 7) w).1 = [.indices 0 [0], .weights 0 0 0] ∧
      (retrainLds E (fun _ _ _ => [0]) (total t) 1 1 1 1 1 2 (some 7) w).1 = [.indices 1 [0], .weights 1 0 0] :=
  ⟨⟨fun _ => 0, fun _ => (), fun _ => (), fun _ => (0, ())⟩, fun _ _ _ w => (w.torch, { w with torch := w.torch + 1 }),
    fun _ => ⟨by rfl, by rfl, by rfl⟩⟩

/-! ## Reproducibility -/

/-- The training function draws from torch's generator only. -/
def TorchOnly (train : Trainer G N P M) : Prop :=
  ∀ s sh idx w w', w.torch = w'.torch → (∃ e, train s sh idx w = .error e ∧ train s sh idx w' = .error e) ∨
    ∃ m u u', train s sh idx w = .ok (m, u) ∧ train s sh idx w' = .ok (m, u') ∧ u.torch = u'.torch

theorem manualSeed_torch (E : Gen G N P) (s : ℤ) (w w' : World G N P) :
    (∃ e, manualSeed E s w = .error e ∧ manualSeed E s w' = .error e) ∨
      ∃ u u', manualSeed E s w = .ok u ∧ manualSeed E s w' = .ok u' ∧ u.torch = u'.torch := by
  simp only [manualSeed]
  by_cases h : -2 ^ 63 ≤ s ∧ s < 2 ^ 64
  · simp only [if_pos h]; exact Or.inr ⟨_, _, rfl, rfl, rfl⟩
  · simp only [if_neg h]; exact Or.inl ⟨_, rfl, rfl⟩

/-- **A given seed makes LOO retraining reproducible** for training functions that draw from torch only: the models, and whether the call raises, do not
depend on the random state before the call. -/
theorem C221_loo_reproducible (E : Gen G N P) {train : Trainer G N P M} (h : TorchOnly train) (n : ℕ) (indices : Option (List ℤ)) (s : ℤ)
    (w w' : World G N P) :
    (retrainLoo E train n indices (some s) w).1 = (retrainLoo E train n indices (some s) w').1 ∧
      errOf (retrainLoo E train n indices (some s) w).2 = errOf (retrainLoo E train n indices (some s) w').2 := by
  simp only [retrainLoo]
  rcases manualSeed_torch E s w w' with ⟨e, h1, h2⟩ | ⟨u, u', h1, h2, hu⟩
  · rw [h1, h2]; exact ⟨rfl, rfl⟩
  · rw [h1, h2]
    have := loopW_congr (fun v v' => v.torch = v'.torch) (looBody train n (some s)) (looBody train n (some s)) (by
      intro a v v' hv
      simp only [looBody]
      rcases h (some s) false (remaining n a) v v' hv with ⟨e, e1, e2⟩ | ⟨m, x, x', e1, e2, hx⟩
      · rw [e1, e2]; exact ⟨rfl, Or.inl ⟨e, rfl, rfl⟩⟩
      · rw [e1, e2]; exact ⟨rfl, Or.inr ⟨x, x', rfl, rfl, hx⟩⟩) (indices.getD ((List.range n).map Int.ofNat)) u u' hu
    refine ⟨this.1, ?_⟩
    rcases this.2 with ⟨e, e1, e2⟩ | ⟨x, x', e1, e2, -⟩
    · simp only [e1, e2]
    · simp only [e1, e2]; rfl

/-- The same for LDS retraining. -/
theorem C221_lds_reproducible (E : Gen G N P) (choice : ℤ → ℕ → ℕ → List ℕ) {train : Trainer G N P M} (h : TorchOnly train)
    (n k num runs startId : ℕ) (tot : ℤ) (s : ℤ) (w w' : World G N P) :
    (retrainLds E choice train n k num runs startId tot (some s) w).1 = (retrainLds E choice train n k num runs startId tot (some s) w').1 ∧
      errOf (retrainLds E choice train n k num runs startId tot (some s) w).2 =
        errOf (retrainLds E choice train n k num runs startId tot (some s) w').2 := by
  have hrun : ∀ i idx j (v v' : World G N P), v.torch = v'.torch →
      (runBody train runs s i idx j v).1 = (runBody train runs s i idx j v').1 ∧
      ((∃ e, (runBody train runs s i idx j v).2 = .error e ∧ (runBody train runs s i idx j v').2 = .error e) ∨
        ∃ x x', (runBody train runs s i idx j v).2 = .ok x ∧ (runBody train runs s i idx j v').2 = .ok x' ∧ x.torch = x'.torch) := by
    intro i idx j v v' hv
    simp only [runBody]
    rcases h (some (s + i * runs + j)) true idx v v' hv with ⟨e, e1, e2⟩ | ⟨m, x, x', e1, e2, hx⟩
    · rw [e1, e2]; exact ⟨rfl, Or.inl ⟨e, rfl, rfl⟩⟩
    · rw [e1, e2]; exact ⟨rfl, Or.inr ⟨x, x', rfl, rfl, hx⟩⟩
  have hsub : ∀ i (v v' : World G N P), v.torch = v'.torch →
      (subsetBody choice train n k runs s i v).1 = (subsetBody choice train n k runs s i v').1 ∧
      ((∃ e, (subsetBody choice train n k runs s i v).2 = .error e ∧ (subsetBody choice train n k runs s i v').2 = .error e) ∨
        ∃ x x', (subsetBody choice train n k runs s i v).2 = .ok x ∧ (subsetBody choice train n k runs s i v').2 = .ok x' ∧
          x.torch = x'.torch) := by
    intro i v v' hv
    simp only [subsetBody]
    rcases defaultRng (s + i) with e | _
    · exact ⟨rfl, Or.inl ⟨e, rfl, rfl⟩⟩
    · by_cases hk : n < k
      · simp only [if_pos hk]; exact ⟨trivial, Or.inl ⟨_, rfl, rfl⟩⟩
      · simp only [if_neg hk]
        have := loopW_congr (fun v v' => v.torch = v'.torch) _ _ (hrun i (choice (s + i) n k)) (List.range runs) v v' hv
        exact ⟨by rw [this.1], this.2⟩
  simp only [retrainLds, ldsSeed]
  by_cases c1 : tot < 0
  · simp only [if_pos c1]; exact ⟨trivial, trivial⟩
  simp only [if_neg c1]
  by_cases c2 : num = 0
  · simp only [if_pos c2]; exact ⟨trivial, trivial⟩
  simp only [if_neg c2]
  by_cases c3 : tot % num ≠ 0
  · simp only [if_pos c3]; exact ⟨trivial, trivial⟩
  simp only [if_neg c3]
  rcases defaultRng s with e | _
  · exact ⟨rfl, rfl⟩
  simp only
  rcases manualSeed_torch E s w w' with ⟨e, h1, h2⟩ | ⟨u, u', h1, h2, hu⟩
  · rw [h1, h2]; exact ⟨rfl, rfl⟩
  · rw [h1, h2]
    have := loopW_congr (fun v v' => v.torch = v'.torch) _ _ hsub (List.range' (if tot = 0 then 0 else startId) num) u u' hu
    refine ⟨this.1, ?_⟩
    rcases this.2 with ⟨e, e1, e2⟩ | ⟨x, x', e1, e2, -⟩
    · simp only [e1, e2]
    · simp only [e1, e2]; rfl

/-- It does not for training functions that draw from numpy's or Python's generators: these are not seeded. -/
theorem C221_other_generators :
    ∃ E : Gen Unit ℕ ℕ, ∃ t t' : Option ℤ → Bool → List ℕ → World Unit ℕ ℕ → ℕ × World Unit ℕ ℕ,
      (retrainLoo E (total t) 2 (some [0]) (some 7) ⟨(), 1, 0⟩).1 ≠ (retrainLoo E (total t) 2 (some [0]) (some 7) ⟨(), 2, 0⟩).1 ∧
      (retrainLds E (fun _ _ _ => []) (total t') 2 1 1 1 0 0 (some 7) ⟨(), 0, 1⟩).1 ≠
        (retrainLds E (fun _ _ _ => []) (total t') 2 1 1 1 0 0 (some 7) ⟨(), 0, 2⟩).1 :=
  ⟨⟨fun _ => (), fun _ => 0, fun _ => 0, fun p => (0, p)⟩, fun _ _ _ w => (w.np, w), fun _ _ _ w => (w.py, w), by decide, by decide⟩

/-! ## The random state left behind -/

/-- After LOO retraining with a benchmark training function the process's random state is a function of the arguments: the state before is lost. -/
theorem C221_loo_state_lost (E : Gen G N P) (body : Bool → List ℕ → World G N P → M × World G N P) (n : ℕ) (indices : Option (List ℤ))
    (seed : Option ℤ) (hne : looList n indices ≠ []) (w w' : World G N P) :
    retrainLoo E (bench E body) n indices seed w = retrainLoo E (bench E body) n indices seed w' := by
  simp only [looList] at hne
  simp only [retrainLoo]
  generalize hl : (indices.getD ((List.range n).map Int.ofNat)) = l at hne
  cases l with
  | nil => exact absurd rfl hne
  | cons a as =>
    cases seed with
    | none => rfl
    | some s =>
      simp only [manualSeed]
      by_cases h : -2 ^ 63 ≤ s ∧ s < 2 ^ 64
      · simp only [if_pos h, loopW, looBody, bench_eq]
      · simp only [if_neg h]

/-- The same for LDS retraining with an explicit seed, if a model is trained at all. -/
theorem C221_lds_state_lost (E : Gen G N P) (choice : ℤ → ℕ → ℕ → List ℕ) (body : Bool → List ℕ → World G N P → M × World G N P)
    {n k num : ℕ} (runs startId : ℕ) {tot : ℤ} (hv : Valid n k num tot) (hr : runs ≠ 0) (s : ℤ) (h0 : 0 ≤ s) (h1 : s < 2 ^ 64)
    (w w' : World G N P) :
    retrainLds E choice (bench E body) n k num runs startId tot (some s) w =
      retrainLds E choice (bench E body) n k num runs startId tot (some s) w' := by
  rw [lds_eq E choice _ runs startId hv (some s) w h0 h1, lds_eq E choice _ runs startId hv (some s) w' h0 h1]
  obtain ⟨num, rfl⟩ := Nat.exists_eq_succ_of_ne_zero hv.pos
  obtain ⟨runs, rfl⟩ := Nat.exists_eq_succ_of_ne_zero hr
  simp only [ldsSeed, List.range'_succ, loopW]
  have : ∀ v v' : World G N P, subsetBody choice (bench E body) n k (runs + 1) s (startOf tot startId) v =
      subsetBody choice (bench E body) n k (runs + 1) s (startOf tot startId) v' := by
    intro v v'
    simp only [subsetBody, List.range_succ_eq_map, loopW, runBody, bench_eq]
  rw [this _ { w' with torch := E.seedT s }]

/-- With a training function that does not touch the generators, LDS retraining leaves torch's generator seeded and the others as they were; a drawn
seed advances Python's. -/
theorem C221_lds_state_pure (E : Gen G N P) (choice : ℤ → ℕ → ℕ → List ℕ) (f : Option ℤ → Bool → List ℕ → M)
    {n k num : ℕ} (runs startId : ℕ) {tot : ℤ} (hv : Valid n k num tot) (seed : Option ℤ) (w : World G N P)
    (h0 : 0 ≤ (ldsSeed E seed w).1) (h1 : (ldsSeed E seed w).1 < 2 ^ 64) :
    (retrainLds E choice (total fun s sh idx w => (f s sh idx, w)) n k num runs startId tot seed w).2 =
      .ok { torch := E.seedT (match seed with | some s => s | none => (E.bits w.py).1), np := w.np,
            py := match seed with | some _ => w.py | none => (E.bits w.py).2 } := by
  rw [lds_eq E choice _ runs startId hv seed w h0 h1]
  have hloop : ∀ {α ε : Type} (g : α → World G N P → List ε × Except Err (World G N P)) (l : List α) (v : World G N P),
      (∀ a ∈ l, ∀ v, (g a v).2 = .ok v) → (loopW g l v).2 = .ok v := by
    intro α ε g l
    induction l with
    | nil => intro v _; rfl
    | cons a as ih =>
      intro v hg
      have h2 := hg a (by simp) v
      rcases hga : g a v with ⟨es, r⟩
      rw [hga] at h2
      simp only at h2
      subst h2
      simp only [loopW, hga]
      exact ih v (fun b hb => hg b (by simp [hb]))
  rw [hloop]
  · cases seed <;> rfl
  · intro i _ v
    have a1 : ¬ (ldsSeed E seed w).1 + (i : ℤ) < 0 := by omega
    have a2 : ¬ n < k := by have := hv.ratio; omega
    simp only [subsetBody, defaultRng, if_neg a1, if_neg a2]
    exact hloop _ _ _ (fun j _ v => rfl)

/-- Seeds that `retrain_lds` itself refuses: negative ones with `ValueError`, those beyond 64 bits with `RuntimeError`; nothing is written. -/
theorem C221_lds_bad_seed (E : Gen G N P) (choice : ℤ → ℕ → ℕ → List ℕ) (train : Trainer G N P M) {n k num : ℕ} (runs startId : ℕ) {tot : ℤ}
    (hv : Valid n k num tot) (s : ℤ) (hs : s < 0 ∨ 2 ^ 64 ≤ s) (w : World G N P) :
    retrainLds E choice train n k num runs startId tot (some s) w = ([], .error (if s < 0 then .valueError else .runtimeError)) := by
  have a1 : ¬ tot < 0 := by have := hv.nonneg; omega
  have a2 : ¬ tot % num ≠ 0 := by rw [not_not]; exact Int.emod_eq_zero_of_dvd hv.dvd
  by_cases h : s < 0
  · have e1 : defaultRng s = .error .valueError := by rw [defaultRng, if_pos h]
    simp only [retrainLds, if_neg a1, if_neg hv.pos, if_neg a2, ldsSeed, e1, if_pos h]
  · have e1 : defaultRng s = .ok () := by rw [defaultRng, if_neg h]
    have h2 : ¬ (-2 ^ 63 ≤ s ∧ s < 2 ^ 64) := fun c => by
      rcases hs with hs | hs
      · exact h hs
      · exact absurd c.2 (not_lt.2 hs)
    have e2 : manualSeed E s w = .error .runtimeError := by rw [manualSeed, if_neg h2]
    simp only [retrainLds, if_neg a1, if_neg hv.pos, if_neg a2, ldsSeed, e1, e2, if_neg h]

/-- The GPT-2 training function, which does not seed numpy's global generator, accepts all 64-bit seeds. -/
theorem C221_gpt_seeds (E : Gen G N P) (body : Bool → List ℕ → World G N P → M × World G N P) (seed : Option ℤ) (sh : Bool) (idx : List ℕ)
    (w : World G N P) (r : M × World G N P) :
    benchGpt E body seed sh idx w = .ok r ↔
      ∃ s, seed = some s ∧ 0 ≤ s ∧ s < 2 ^ 64 ∧ r = body sh idx ⟨E.seedT s, w.np, E.seedP s⟩ := by
  cases seed with
  | none => simp [benchGpt]
  | some s =>
    simp only [benchGpt, manualSeed, defaultRng, pySeed, Option.some.injEq, exists_eq_left']
    by_cases h1 : -2 ^ 63 ≤ s ∧ s < 2 ^ 64
    · by_cases h2 : s < 0
      · have : ¬ 0 ≤ s := by omega
        simp only [if_pos h1, if_pos h2, bind, Except.bind, this, false_and, reduceCtorEq]
      · have : 0 ≤ s := by omega
        simp only [if_pos h1, if_neg h2, bind, Except.bind, Except.ok.injEq]
        exact ⟨fun h => ⟨this, h1.2, h.symm⟩, fun h => h.2.2.symm⟩
    · have : ¬ (0 ≤ s ∧ s < 2 ^ 64) := fun h => h1 ⟨by have := h.1; norm_num at *; linarith, h.2⟩
      simp only [if_neg h1, bind, Except.bind]
      constructor
      · intro h; simp at h
      · rintro ⟨a, b, -⟩; exact absurd ⟨a, b⟩ this

/-! ## Cases -/

/-- A benchmark training function that records the generator states from which it trains. -/
def recordBody : Bool → List ℕ → World ℤ ℤ ℤ → (Bool × List ℕ × ℤ × ℤ × ℤ) × World ℤ ℤ ℤ := fun sh idx w =>
  ((sh, idx, w.torch, w.np, w.py), ⟨w.torch + 100, w.np + 100, w.py + 100⟩)

/-- Generators that show their seed. -/
def showGen : Gen ℤ ℤ ℤ := ⟨id, id, id, fun p => (p.toNat, p + 1)⟩

example : (retrainLoo showGen (bench showGen recordBody) 3 none (some 5) ⟨1, 2, 3⟩).1 =
    [(0, (false, [1, 2], 5, 5, 5)), (1, (false, [0, 2], 5, 5, 5)), (2, (false, [0, 1], 5, 5, 5))] := by decide

example : (retrainLds showGen (fun s _ _ => [s.toNat]) (bench showGen recordBody) 3 1 2 2 0 0 (some 5) ⟨1, 2, 3⟩).1 =
    [.indices 0 [5], .weights 0 0 (true, [5], 5, 5, 5), .weights 0 1 (true, [5], 6, 6, 6),
     .indices 1 [6], .weights 1 0 (true, [6], 7, 7, 7), .weights 1 1 (true, [6], 8, 8, 8)] := by decide

example : Valid 3 1 2 4 := ⟨by decide, by decide, by decide, by decide⟩

example : SelfSeeded (bench showGen recordBody) (benchOut showGen recordBody) := C221_bench_self_seeded _ _

example : TorchOnly (total (fun _ _ _ w => (w.torch, { w with torch := w.torch + 1 })) : Trainer ℕ ℕ ℕ ℕ) := by
  intro s sh idx w w' h
  exact Or.inr ⟨_, _, _, rfl, by simp only [total, h]; rfl, by simp [h]⟩

/-- A drawn 64-bit seed above 2^32: nothing but the first index file is written. -/
example : (retrainLds showGen (fun _ _ _ => [0]) (bench showGen recordBody) 3 1 2 2 0 0 none ⟨1, 2, 2 ^ 40⟩).1 = [.indices 0 [0]] := by decide

end Verif.RetrainSeed
