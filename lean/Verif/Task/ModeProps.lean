import Verif.Task.ModeModel

/-! # C233: training and evaluation mode of the model during attribution -/

namespace Verif.Modes

open Verif Verif.Dropout

/-- Specification: the same modules with the same probabilities, all in evaluation mode. -/
def Evaluated (ms ms' : List Module) : Prop :=
  List.Forall₂ (fun m m' => m'.name = m.name ∧ m'.cls = m.cls ∧ m'.p = m.p ∧ m'.training = false) ms ms'

/-- Specification: the same modules, dropout layers active with probability `prob`, all others in evaluation mode. -/
def Dropping (prob : ℚ) (ms ms' : List Module) : Prop := List.Forall₂ (fun m m' => Result prob (Drops m) m m') ms ms'

lemma evaluated_iff (ms ms' : List Module) : Evaluated ms ms' ↔ ms' = setMode false ms := by
  unfold Evaluated setMode
  constructor
  · intro h
    induction h with
    | nil => rfl
    | cons h _ ih =>
      rw [List.map_cons, ih]
      congr 1
      rename_i a b _ _ _
      cases a; cases b
      simp_all
  · rintro rfl
    exact forall2_map _ fun a _ => ⟨rfl, rfl, rfl, rfl⟩

lemma setMode_setMode (a b : Bool) (ms : List Module) : setMode a (setMode b ms) = setMode a ms := by
  unfold setMode
  rw [List.map_map]
  rfl

/-- What the dropout loading function does without positions. -/
def dropped (prob : ℚ) (ms : List Module) : List Module :=
  ms.map fun m => if isDropout m then { m with p := some prob, training := true } else { m with training := false }

lemma apply_dropout (prob : ℚ) (positions : Option (List (List Char))) (hp : positions = none ∨ positions = some []) (ms : List Module) :
    (LoadFn.dropout positions prob).apply ms = (dropped prob ms, .ok ()) := by
  have e : positions.getD [] = [] := by rcases hp with rfl | rfl <;> rfl
  unfold LoadFn.apply activateDropout setMode dropped
  simp only [e, List.length_nil, if_true, List.map_map]
  congr 1

lemma dropped_dropped (prob : ℚ) (ms : List Module) : dropped prob (dropped prob ms) = dropped prob ms := by
  unfold dropped
  rw [List.map_map]
  apply List.map_congr_left
  intro m _
  simp only [Function.comp]
  by_cases h : isDropout m = true
  · have : isDropout { m with p := some prob, training := true } = true := h
    simp [h, this]
  · have : isDropout { m with training := false } = false := by rw [isDropout_eval]; simpa using h
    simp [h, this]

lemma dropping_dropped (prob : ℚ) (ms : List Module) : Dropping prob ms (dropped prob ms) := by
  apply forall2_map
  intro m _
  unfold Result
  rw [← isDropout_iff]
  by_cases h : isDropout m = true <;> simp [h]

/-- A loop with a loading function that maps the modes by an idempotent function. -/
lemma loop_idem (cfg : ℕ → Cfg) (t : ℕ) (f : List Module → List Module) (hf : ∀ ms, (cfg t).fn.apply ms = (f ms, .ok ())) (hi : ∀ ms, f (f ms) = f ms)
    (s : St) (a k : ℕ) :
    (loop cfg t s (List.range' a k)).2.2 = .ok () ∧
    (loop cfg t s (List.range' a k)).2.1 = (List.range' a k).map (fun c : ℕ => if c = a ∧ s.cur t = some a then s.ms else f s.ms) ∧
    (loop cfg t s (List.range' a k)).1.cur t = (if k = 0 then s.cur t else some (a + k - 1)) ∧
    (∀ u, u ≠ t → (loop cfg t s (List.range' a k)).1.cur u = s.cur u) ∧
    (loop cfg t s (List.range' a k)).1.ms = (if k = 0 ∨ (k = 1 ∧ s.cur t = some a) then s.ms else f s.ms) := by
  induction k generalizing a s with
  | zero => simp [loop]
  | succ k ih =>
    rw [List.range'_succ]
    unfold loop
    by_cases hc : s.cur t = some a
    · have e : load cfg s t a = (s, .ok ()) := by
        unfold load
        rw [if_neg (by simp [hc])]
      rw [e]
      obtain ⟨h1, h2, h3, h4, h5⟩ := ih s (a + 1)
      refine ⟨h1, ?_, ?_, h4, ?_⟩
      · simp only [h2, List.map_cons, hc, and_self, if_true]
        congr 1
        apply List.map_congr_left
        intro c hm
        have := (List.mem_range'_1.1 hm).1
        rw [if_neg (by simp), if_neg (by omega)]
      · simp only [h3, hc]
        by_cases hk : k = 0
        · simp [hk]
        · rw [if_neg hk, if_neg (by omega)]
          congr 1
          omega
      · simp only [h5, hc]
        by_cases hk : k = 0
        · simp [hk]
        · simp [hk]
    · have e : load cfg s t a = (⟨f s.ms, fun u => if u = t then some a else s.cur u⟩, .ok ()) := by
        unfold load
        rw [if_pos (Or.inr hc), hf]
      rw [e]
      obtain ⟨h1, h2, h3, h4, h5⟩ := ih ⟨f s.ms, fun u => if u = t then some a else s.cur u⟩ (a + 1)
      refine ⟨h1, ?_, ?_, ?_, ?_⟩
      · simp only [h2, List.map_cons, hc, and_false, if_false]
        congr 1
        apply List.map_congr_left
        intro c hm
        rw [hi, if_neg (by simp)]
      · simp only [h3]
        by_cases hk : k = 0
        · simp [hk]
        · rw [if_neg hk, if_neg (by omega)]
          congr 1
          omega
      · intro u hu
        simp only [h4 u hu, if_neg hu]
      · simp only [h5, hi]
        simp [hc]

lemma attribute_idem (cfg : ℕ → Cfg) (t : ℕ) (f : List Module → List Module) (hf : ∀ ms, (cfg t).fn.apply ms = (f ms, .ok ())) (hi : ∀ ms, f (f ms) = f ms)
    (s : St) :
    (step cfg s (.call t)).2.2 = .ok () ∧
    (step cfg s (.call t)).2.1 = (List.range (cfg t).n).map (fun c : ℕ => if c = 0 ∧ s.cur t = some 0 then s.ms else f s.ms) ∧
    (step cfg s (.call t)).1.cur t = (if (cfg t).n = 0 then s.cur t else some ((cfg t).n - 1)) ∧
    (∀ u, u ≠ t → (step cfg s (.call t)).1.cur u = s.cur u) ∧
    (step cfg s (.call t)).1.ms = (if (cfg t).n = 0 ∨ ((cfg t).n = 1 ∧ s.cur t = some 0) then s.ms else f s.ms) := by
  have h := loop_idem cfg t f hf hi s 0 (cfg t).n
  rw [← List.range_eq_range'] at h
  simp only [Nat.zero_add] at h
  exact h

lemma setMode_idem (ms : List Module) : setMode false (setMode false ms) = setMode false ms := setMode_setMode _ _ _

/-- **C233** (default loading function). During a call of an attributor the model is in evaluation mode at every checkpoint, whatever its modes were before, except at
checkpoint 0 when this was the checkpoint the task loaded last: then the modes are those the model has at the call. -/
theorem C233_default (cfg : ℕ → Cfg) (t : ℕ) (ht : (cfg t).fn = .default) (s : St) :
    (step cfg s (.call t)).2.2 = .ok () ∧ (step cfg s (.call t)).2.1.length = (cfg t).n ∧
    ∀ c < (cfg t).n, ∃ ms, (step cfg s (.call t)).2.1[c]? = some ms ∧
      (¬ (c = 0 ∧ s.cur t = some 0) → Evaluated s.ms ms) ∧ (c = 0 ∧ s.cur t = some 0 → ms = s.ms) := by
  obtain ⟨h1, h2, -⟩ := attribute_idem cfg t (setMode false) (fun ms => by rw [ht]; rfl) setMode_idem s
  refine ⟨h1, by simp [h2], fun c hc => ⟨_, by rw [h2, List.getElem?_map, List.getElem?_range hc]; rfl, ?_, ?_⟩⟩
  · intro h
    dsimp only
    rw [if_neg h, evaluated_iff]
  · intro h
    dsimp only
    rw [if_pos h]

/-- **C233** (loading function that activates dropout layers). At every checkpoint exactly the dropout layers are active, with the given probability, with the same exception
for checkpoint 0. -/
theorem C233_dropout (cfg : ℕ → Cfg) (t : ℕ) (prob : ℚ) (positions : Option (List (List Char))) (hp : positions = none ∨ positions = some [])
    (ht : (cfg t).fn = .dropout positions prob) (s : St) :
    (step cfg s (.call t)).2.2 = .ok () ∧ (step cfg s (.call t)).2.1.length = (cfg t).n ∧
    ∀ c < (cfg t).n, ∃ ms, (step cfg s (.call t)).2.1[c]? = some ms ∧
      (¬ (c = 0 ∧ s.cur t = some 0) → Dropping prob s.ms ms) ∧ (c = 0 ∧ s.cur t = some 0 → ms = s.ms) := by
  obtain ⟨h1, h2, -⟩ := attribute_idem cfg t (dropped prob) (fun ms => by rw [ht]; exact apply_dropout prob positions hp ms) (dropped_dropped prob) s
  refine ⟨h1, by simp [h2], fun c hc => ⟨_, by rw [h2, List.getElem?_map, List.getElem?_range hc]; rfl, ?_, ?_⟩⟩
  · intro h
    dsimp only
    rw [if_neg h]
    exact dropping_dropped prob s.ms
  · intro h
    dsimp only
    rw [if_pos h]

/-- **C233** (loading functions that build a new model or only load weights). The modes of the model the loss functions call are those it has at the call, at every
checkpoint, and stay. -/
theorem C233_fresh (cfg : ℕ → Cfg) (t : ℕ) (ht : (cfg t).fn = .fresh ∨ (cfg t).fn = .weights) (s : St) :
    (step cfg s (.call t)).2.2 = .ok () ∧ (step cfg s (.call t)).2.1 = List.replicate (cfg t).n s.ms ∧ (step cfg s (.call t)).1.ms = s.ms := by
  obtain ⟨h1, h2, -, -, h5⟩ := attribute_idem cfg t id (fun ms => by rcases ht with h | h <;> rw [h] <;> rfl) (fun _ => rfl) s
  refine ⟨h1, ?_, by simpa using h5⟩
  rw [h2]
  simp [List.map_const']

/-- **C233** (a loading function that raises). If a loading function activates dropout layers at positions of which one occurs in the name of another module, then a call
raises `ValueError` at the first checkpoint it has to load, and so does every later call. -/
theorem C233_raises (cfg : ℕ → Cfg) (t : ℕ) (prob : ℚ) (positions : List (List Char)) (ht : (cfg t).fn = .dropout (some positions) prob) (s : St)
    (hs : s.cur t = none) (m : Module) (hm : m ∈ s.ms) (hd : ¬ Drops m) (hn : Named positions m) (hc : 0 < (cfg t).n) :
    (step cfg s (.call t)).2.2 = .error .valueError ∧ (step cfg s (.call t)).2.1 = [] ∧ (step cfg s (.call t)).1.cur t = none ∧
    ∃ m' ∈ (step cfg s (.call t)).1.ms, ¬ Drops m' ∧ Named positions m' := by
  have hne : positions ≠ [] := by
    rintro rfl
    obtain ⟨p, hp, -⟩ := hn
    simp at hp
  obtain ⟨k, hk⟩ : ∃ k, (cfg t).n = k + 1 := ⟨(cfg t).n - 1, by omega⟩
  have hv := visitAll_spec prob positions ((setMode false s.ms).map fun m => { m with training := false }) []
  have hbad : ((visitAll prob positions ((setMode false s.ms).map fun m => { m with training := false }) []).2 ≠ []) := by
    intro h
    rw [hv.2] at h
    have hmem : ({ m with training := false } : Module) ∈ (setMode false s.ms).map fun m => { m with training := false } := by
      unfold setMode
      rw [List.map_map]
      exact List.mem_map.2 ⟨m, hm, rfl⟩
    rcases h.2 _ hmem with h | h
    · exact hd ((isDropout_iff m).1 h)
    · obtain ⟨pos, hpos, a, b, hab⟩ := hn
      exact h pos hpos ((infix_iff pos m.name).2 ⟨a, b, hab⟩)
  have ea : (LoadFn.dropout (some positions) prob).apply s.ms =
      ((visitAll prob positions ((setMode false s.ms).map fun m => { m with training := false }) []).1, .error .valueError) := by
    unfold LoadFn.apply activateDropout
    simp only [Option.getD_some]
    rw [if_neg (by simpa using hne), if_pos hbad]
  have el : load cfg s t 0 = (⟨(visitAll prob positions ((setMode false s.ms).map fun m => { m with training := false }) []).1, s.cur⟩, .error .valueError) := by
    unfold load
    rw [if_pos (Or.inl hs), ht, ea]
  have e : step cfg s (.call t) =
      (⟨(visitAll prob positions ((setMode false s.ms).map fun m => { m with training := false }) []).1, s.cur⟩, [], .error .valueError) := by
    show loop cfg t s (List.range (cfg t).n) = _
    rw [hk, List.range_succ_eq_map]
    unfold loop
    rw [el]
  rw [e]
  refine ⟨rfl, rfl, hs, ?_⟩
  refine ⟨{ m with training := false }, ?_, hd, hn⟩
  show _ ∈ (visitAll prob positions ((setMode false s.ms).map fun m => { m with training := false }) []).1
  rw [hv.1]
  unfold setMode
  rw [List.map_map, List.map_map]
  refine List.mem_map.2 ⟨m, hm, ?_⟩
  simp only [Function.comp]
  rw [if_neg]
  rintro ⟨h, -⟩
  exact hd ((isDropout_iff m).1 h)

lemma load_cur (cfg : ℕ → Cfg) (s : St) (t c u : ℕ) (hu : u ≠ t) : (load cfg s t c).1.cur u = s.cur u := by
  unfold load
  split
  · split
    · simp [hu]
    · rfl
  · rfl

lemma loop_cur (cfg : ℕ → Cfg) (t u : ℕ) (hu : u ≠ t) (cs : List ℕ) (s : St) : (loop cfg t s cs).1.cur u = s.cur u := by
  induction cs generalizing s with
  | nil => rfl
  | cons c cs ih =>
    unfold loop
    have h := load_cur cfg s t c u hu
    cases hl : load cfg s t c with
    | mk s' r =>
      rw [hl] at h
      cases r with
      | error e => exact h
      | ok _ => exact (ih s').trans h

lemma step_cur (cfg : ℕ → Cfg) (s : St) (o : Op) (u : ℕ) (h : o ≠ .call u) : (step cfg s o).1.cur u = s.cur u := by
  cases o with
  | call t => exact loop_cur cfg t u (fun e => h (by rw [e])) _ s
  | train => rfl
  | eval => rfl
  | activate _ _ => rfl
  | dvemb => rfl

/-- **C233** (first use of a task). With the default loading function the first call of an attributor on a task sees the model in evaluation mode at all checkpoints,
whatever was done before: `train()`, `activate_dropout`, or calls on other tasks. -/
theorem C233_first (cfg : ℕ → Cfg) (t : ℕ) (ht : (cfg t).fn = .default) (s : St) (hs : s.cur t = none) (ops : List Op) (ho : Op.call t ∉ ops) :
    ∀ ms ∈ (step cfg (run cfg s ops) (.call t)).2.1, ∀ m ∈ ms, m.training = false := by
  have hc : (run cfg s ops).cur t = none := by
    unfold run
    induction ops generalizing s with
    | nil => exact hs
    | cons o l ih =>
      rw [List.foldl_cons]
      apply ih
      · rw [step_cur cfg s o t (fun e => ho (by rw [e]; exact List.mem_cons_self)), hs]
      · exact fun h => ho (List.mem_cons_of_mem _ h)
  obtain ⟨-, h2, -⟩ := attribute_idem cfg t (setMode false) (fun ms => by rw [ht]; rfl) setMode_idem (run cfg s ops)
  intro ms hms m hm
  rw [h2] at hms
  obtain ⟨c, -, rfl⟩ := List.mem_map.1 hms
  rw [hc] at hm
  simp only [reduceCtorEq, and_false, if_false] at hm
  obtain ⟨a, -, rfl⟩ := List.mem_map.1 hm
  rfl

/-- **C233** (several checkpoints). With the default loading function and at least two checkpoints, every call in every execution sees the model in evaluation mode. -/
theorem C233_many (cfg : ℕ → Cfg) (t : ℕ) (ht : (cfg t).fn = .default) (hn : 2 ≤ (cfg t).n) (s : St) (hs : s.cur t = none) (ops : List Op) :
    ∀ ms ∈ (step cfg (run cfg s ops) (.call t)).2.1, ∀ m ∈ ms, m.training = false := by
  have hc : (run cfg s ops).cur t ≠ some 0 := by
    have h0 : s.cur t ≠ some 0 := by simp [hs]
    clear hs
    unfold run
    induction ops generalizing s with
    | nil => exact h0
    | cons o l ih =>
      rw [List.foldl_cons]
      apply ih
      by_cases e : o = .call t
      · subst e
        obtain ⟨-, -, h3, -⟩ := attribute_idem cfg t (setMode false) (fun ms => by rw [ht]; rfl) setMode_idem s
        rw [h3, if_neg (by omega)]
        simp only [ne_eq, Option.some.injEq]
        omega
      · rw [step_cur cfg s o t e]
        exact h0
  obtain ⟨-, h2, -⟩ := attribute_idem cfg t (setMode false) (fun ms => by rw [ht]; rfl) setMode_idem (run cfg s ops)
  intro ms hms m hm
  rw [h2] at hms
  obtain ⟨c, -, rfl⟩ := List.mem_map.1 hms
  rw [if_neg (fun h => hc h.2)] at hm
  obtain ⟨a, -, rfl⟩ := List.mem_map.1 hm
  rfl

/-- **C233** (one checkpoint). After its first call a task with one checkpoint never sets the modes again, with any of the loading functions that do not raise: later calls
see the model as the user, other tasks or DVEmb left it. -/
theorem C233_single (cfg : ℕ → Cfg) (t : ℕ) (ht : ∀ ms, (cfg t).fn.apply ms = (((cfg t).fn.apply ms).1, .ok ())) (hn : (cfg t).n = 1) (s : St) (ops : List Op) :
    let s' := run cfg (step cfg s (.call t)).1 ops
    step cfg s' (.call t) = (s', [s'.ms], .ok ()) := by
  intro s'
  have aux : ∀ s : St, s.cur t = some 0 → step cfg s (.call t) = (s, [s.ms], .ok ()) := by
    intro s h
    show loop cfg t s (List.range (cfg t).n) = _
    rw [hn]
    show loop cfg t s [0] = _
    unfold loop
    have e : load cfg s t 0 = (s, .ok ()) := by
      unfold load
      rw [if_neg (by simp [h])]
    rw [e]
    rfl
  apply aux
  have h0 : (step cfg s (.call t)).1.cur t = some 0 := by
    by_cases h : s.cur t = some 0
    · rw [aux s h]
      exact h
    · show (loop cfg t s (List.range (cfg t).n)).1.cur t = _
      rw [hn]
      show (loop cfg t s [0]).1.cur t = _
      unfold loop
      have e : load cfg s t 0 = (⟨((cfg t).fn.apply s.ms).1, fun u => if u = t then some 0 else s.cur u⟩, .ok ()) := by
        unfold load
        rw [if_pos (Or.inr h), ht s.ms]
      rw [e]
      simp [loop]
  show (run cfg (step cfg s (.call t)).1 ops).cur t = some 0
  generalize (step cfg s (.call t)).1 = s0 at h0
  unfold run
  induction ops generalizing s0 with
  | nil => exact h0
  | cons o l ih =>
    rw [List.foldl_cons]
    apply ih
    by_cases e : o = .call t
    · subst e
      rw [aux s0 h0]
      exact h0
    · rw [step_cur cfg s0 o t e]
      exact h0

/-- Specification: operations that never switch on training mode. -/
def Quiet (cfg : ℕ → Cfg) : Op → Prop
  | .call t => (cfg t).fn = .default ∨ (cfg t).fn = .fresh ∨ (cfg t).fn = .weights
  | .train => False
  | .eval => True
  | .activate _ _ => False
  | .dvemb => True

/-- **C233** (DVEmb, and evaluation mode stays). `DVEmbAttributor.attribute` evaluates the loss in evaluation mode and leaves the model there.  As long as neither the user nor a
loading function switches modules to training, everything runs in evaluation mode: training that goes on without calling `train()` has no dropout. -/
theorem C233_dvemb (cfg : ℕ → Cfg) (s : St) :
    (∃ ms, Evaluated s.ms ms ∧ step cfg s .dvemb = (⟨ms, s.cur⟩, [ms], .ok ())) ∧
    ∀ ops : List Op, (∀ o ∈ ops, Quiet cfg o) →
      (∀ m ∈ (run cfg (step cfg s .dvemb).1 ops).ms, m.training = false) ∧
      ∀ o, Quiet cfg o → ∀ ms ∈ (step cfg (run cfg (step cfg s .dvemb).1 ops) o).2.1, ∀ m ∈ ms, m.training = false := by
  have hoff : ∀ ms : List Module, ∀ m ∈ setMode false ms, m.training = false := by
    intro ms m hm
    obtain ⟨a, -, rfl⟩ := List.mem_map.1 hm
    rfl
  have key : ∀ s : St, (∀ m ∈ s.ms, m.training = false) → ∀ o, Quiet cfg o →
      (∀ m ∈ (step cfg s o).1.ms, m.training = false) ∧ ∀ ms ∈ (step cfg s o).2.1, ∀ m ∈ ms, m.training = false := by
    intro s hs o ho
    cases o with
    | call t =>
      obtain ⟨f, hf, hi, hq⟩ : ∃ f : List Module → List Module, (∀ ms, (cfg t).fn.apply ms = (f ms, .ok ())) ∧ (∀ ms, f (f ms) = f ms) ∧
          ∀ ms, (∀ m ∈ ms, m.training = false) → ∀ m ∈ f ms, m.training = false := by
        rcases ho with h | h | h
        · exact ⟨setMode false, fun ms => by rw [h]; rfl, setMode_idem, fun ms _ => hoff ms⟩
        · exact ⟨id, fun ms => by rw [h]; rfl, fun _ => rfl, fun _ h => h⟩
        · exact ⟨id, fun ms => by rw [h]; rfl, fun _ => rfl, fun _ h => h⟩
      obtain ⟨-, h2, -, -, h5⟩ := attribute_idem cfg t f hf hi s
      rw [h2, h5]
      constructor
      · split
        · exact hs
        · exact hq _ hs
      · intro ms hms
        obtain ⟨c, -, rfl⟩ := List.mem_map.1 hms
        split
        · exact hs
        · exact hq _ hs
    | train => exact ho.elim
    | eval => exact ⟨hoff _, by simp [step]⟩
    | activate _ _ => exact ho.elim
    | dvemb =>
      refine ⟨hoff _, ?_⟩
      intro ms hms
      rw [List.mem_singleton.1 hms]
      exact hoff _
  refine ⟨⟨setMode false s.ms, (evaluated_iff _ _).2 rfl, rfl⟩, fun ops hops => ?_⟩
  have h0 : ∀ m ∈ (step cfg s .dvemb).1.ms, m.training = false := hoff _
  generalize (step cfg s .dvemb).1 = s0 at h0
  have h1 : ∀ m ∈ (run cfg s0 ops).ms, m.training = false := by
    unfold run
    induction ops generalizing s0 with
    | nil => exact h0
    | cons o l ih =>
      rw [List.foldl_cons]
      exact ih (fun o' h' => hops o' (List.mem_cons_of_mem _ h')) _ (key s0 h0 o (hops o List.mem_cons_self)).1
  exact ⟨h1, fun o ho => (key _ h1 o ho).2⟩

/-- A model with a linear and a dropout layer. -/
def demoModel : List Module := [⟨"fc".toList, "Linear".toList, true, none⟩, ⟨"drop".toList, "Dropout".toList, true, some (1 / 2)⟩]

/-- Task 0 with the default loading function, task 1 with one that activates dropout layers, both with one checkpoint; task 2 with two checkpoints. -/
def demoCfg : ℕ → Cfg
  | 0 => ⟨.default, 1⟩
  | 1 => ⟨.dropout none (1 / 10), 1⟩
  | _ => ⟨.default, 2⟩

/-- The first call on task 0 sees evaluation mode although the model was in training mode; `activate_dropout` afterwards is in effect for its second call, not for task 2; and so is
a call on task 1. -/
example :
    (step demoCfg ⟨demoModel, fun _ => none⟩ (.call 0)).2.1.map (·.map (·.training)) = [[false, false]] ∧
    (step demoCfg (run demoCfg ⟨demoModel, fun _ => none⟩ [.call 0, .activate none (1 / 5)]) (.call 0)).2.1.map (·.map (·.training)) = [[false, true]] ∧
    (step demoCfg (run demoCfg ⟨demoModel, fun _ => none⟩ [.call 2, .activate none (1 / 5)]) (.call 2)).2.1.map (·.map (·.training)) =
      [[false, false], [false, false]] ∧
    (step demoCfg (run demoCfg ⟨demoModel, fun _ => none⟩ [.call 0, .call 1]) (.call 0)).2.1.map (·.map (·.training)) = [[false, true]] := by
  decide +kernel

/-- Hypotheses of `C233_raises`: position `f` occurs in the name of the linear layer. -/
example : ∃ m ∈ demoModel, ¬ Drops m ∧ Named ["f".toList] m :=
  ⟨⟨"fc".toList, "Linear".toList, true, none⟩, List.mem_cons_self, by rintro ⟨r, hr⟩; simp at hr, "f".toList, List.mem_cons_self, [], "c".toList, rfl⟩

end Verif.Modes
