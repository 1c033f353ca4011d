import Mathlib.Data.List.Forall2
import Mathlib.Data.List.Nodup
import Mathlib.Tactic.Linarith
import Mathlib.Tactic.Ring
import Verif.DVEmb.LayersModel

/-!
# C209: constructing a DVEmb attributor and choosing its layers
-/

namespace Verif.DVEmbLayers

open Verif

/-! ## Specification -/

/-- Module `i` is known by the name `s`: of all paths to `i`, `s` is the one met first. -/
def Known (paths : Paths) (s : String) (i : ℕ) : Prop :=
  ∃ pre post, paths = pre ++ (s, i) :: post ∧ ∀ q ∈ pre, q.2 ≠ i

/-- The layers that a request for the names `l` yields: the known ones, in the order and with the multiplicity of the request. -/
def Chosen (paths : Paths) (l : List String) (ids : List ℕ) : Prop :=
  ∃ found, found.Sublist l ∧ (∀ s, (∃ i, Known paths s i) → found.count s = l.count s) ∧ List.Forall₂ (Known paths) found ids

/-- An `nn.Linear` with `o` outputs and `n` inputs. -/
def IsLinear (L : Layer) (o n : ℕ) : Prop :=
  L.isLinear = true ∧ L.weight = some [o, n] ∧
    ((L.bias = some none ∧ L.numels = [o * n]) ∨ (L.bias = some (some o) ∧ L.numels = [o * n, o]))

/-- Sum of products of the entries of two rows. -/
def dotRow {K : Type} [Ring K] (x y : List K) : K := (List.zipWith (fun a b : K => a * b) x y).sum

/-! ## Lemmas -/

theorem mem_namedModules (s : String) (i : ℕ) : ∀ (paths : Paths) (memo : List ℕ),
    (s, i) ∈ namedModules memo paths ↔ i ∉ memo ∧ Known paths s i := by
  intro paths
  induction paths with
  | nil =>
    intro memo
    simp only [namedModules, List.not_mem_nil, false_iff, not_and]
    rintro _ ⟨pre, post, h, _⟩
    simp at h
  | cons q rest ih =>
    intro memo
    obtain ⟨t, j⟩ := q
    have hk : Known ((t, j) :: rest) s i ↔ (t = s ∧ j = i) ∨ (j ≠ i ∧ Known rest s i) := by
      constructor
      · rintro ⟨pre, post, h, hp⟩
        cases pre with
        | nil => simp at h; exact Or.inl h.1
        | cons p pre =>
          simp only [List.cons_append, List.cons.injEq] at h
          refine Or.inr ⟨?_, pre, post, h.2, fun q hq => hp q (by simp [hq])⟩
          have := hp p (by simp)
          rwa [← h.1] at this
      · rintro (⟨rfl, rfl⟩ | ⟨hj, pre, post, h, hp⟩)
        · exact ⟨[], rest, rfl, by simp⟩
        · refine ⟨(t, j) :: pre, post, by simp [h], ?_⟩
          intro q hq
          rcases List.mem_cons.1 hq with rfl | hq
          · exact hj
          · exact hp q hq
    by_cases hm : j ∈ memo
    · rw [show namedModules memo ((t, j) :: rest) = namedModules memo rest by simp [namedModules, hm], ih, hk]
      constructor
      · rintro ⟨h1, h2⟩
        refine ⟨h1, Or.inr ⟨?_, h2⟩⟩
        rintro rfl; exact h1 hm
      · rintro ⟨h1, ⟨-, rfl⟩ | ⟨_, h2⟩⟩
        · exact absurd hm h1
        · exact ⟨h1, h2⟩
    · rw [show namedModules memo ((t, j) :: rest) = (t, j) :: namedModules (j :: memo) rest by simp [namedModules, hm]]
      simp only [List.mem_cons, Prod.mk.injEq, ih, hk, not_or]
      constructor
      · rintro (⟨rfl, rfl⟩ | ⟨⟨h0, h1⟩, h2⟩)
        · exact ⟨hm, Or.inl ⟨rfl, rfl⟩⟩
        · exact ⟨h1, Or.inr ⟨fun h => h0 h.symm, h2⟩⟩
      · rintro ⟨h1, ⟨rfl, rfl⟩ | ⟨h3, h2⟩⟩
        · exact Or.inl ⟨rfl, rfl⟩
        · exact Or.inr ⟨⟨fun h => h3 h.symm, h1⟩, h2⟩

theorem namedModules_sublist : ∀ (paths : Paths) (memo : List ℕ), (namedModules memo paths).Sublist paths := by
  intro paths
  induction paths with
  | nil => intro memo; simp [namedModules]
  | cons q rest ih =>
    intro memo
    obtain ⟨t, j⟩ := q
    by_cases hm : j ∈ memo
    · simpa [namedModules, hm] using (ih memo).cons _
    · simpa [namedModules, hm] using ih (j :: memo)

theorem namedModules_nodup : ∀ (paths : Paths) (memo : List ℕ), ((namedModules memo paths).map Prod.snd).Nodup := by
  intro paths
  induction paths with
  | nil => intro memo; simp [namedModules]
  | cons q rest ih =>
    intro memo
    obtain ⟨t, j⟩ := q
    by_cases hm : j ∈ memo
    · simpa [namedModules, hm] using ih memo
    · simp only [namedModules, hm, if_false, List.map_cons, List.nodup_cons]
      refine ⟨?_, ih _⟩
      intro h
      obtain ⟨⟨s, i⟩, hp, hi⟩ := List.mem_map.1 h
      have := (mem_namedModules s i rest (j :: memo)).1 hp
      simp only [List.mem_cons, not_or] at this
      exact this.1.1 hi

theorem lookup_iff : ∀ (d : Paths), (d.map Prod.fst).Nodup → ∀ (s : String) (i : ℕ), d.lookup s = some i ↔ (s, i) ∈ d := by
  intro d
  induction d with
  | nil => intro _ s i; simp
  | cons q rest ih =>
    intro hn s i
    obtain ⟨t, j⟩ := q
    simp only [List.map_cons, List.nodup_cons] at hn
    by_cases h : s = t
    · subst h
      simp only [List.lookup_cons_self, Option.some.injEq, List.mem_cons, Prod.mk.injEq, true_and]
      constructor
      · intro h; exact Or.inl h.symm
      · rintro (h | h)
        · exact h.symm
        · exact absurd (List.mem_map.2 ⟨(s, i), h, rfl⟩) hn.1
    · rw [List.lookup_cons]
      have hb : (s == t) = false := by simpa using h
      rw [hb]
      simp only [List.mem_cons, Prod.mk.injEq, h, false_and, false_or]
      exact ih hn.2 s i

theorem lookup_known (paths : Paths) (hn : (paths.map Prod.fst).Nodup) (s : String) (i : ℕ) :
    (namedModules [] paths).lookup s = some i ↔ Known paths s i := by
  rw [lookup_iff _ (hn.sublist ((namedModules_sublist paths []).map Prod.fst)), mem_namedModules]
  simp

theorem lookup_unknown (paths : Paths) (hn : (paths.map Prod.fst).Nodup) (s : String) :
    (namedModules [] paths).lookup s = none ↔ ¬ ∃ i, Known paths s i := by
  constructor
  · rintro h ⟨i, hi⟩
    rw [(lookup_known paths hn s i).2 hi] at h
    exact absurd h (by simp)
  · intro h
    cases hl : (namedModules [] paths).lookup s with
    | none => rfl
    | some i => exact absurd ⟨i, (lookup_known paths hn s i).1 hl⟩ h

theorem chosen_pick (paths : Paths) (hn : (paths.map Prod.fst).Nodup) : ∀ l : List String,
    Chosen paths l (pick (namedModules [] paths) l).1 := by
  intro l
  induction l with
  | nil => exact ⟨[], List.Sublist.refl _, by simp, by simp [pick]⟩
  | cons s rest ih =>
    obtain ⟨found, h1, h2, h3⟩ := ih
    cases hl : (namedModules [] paths).lookup s with
    | some i =>
      refine ⟨s :: found, h1.cons_cons s, ?_, ?_⟩
      · intro t ht
        simp [List.count_cons, h2 t ht]
      · simp only [pick, hl]
        exact List.Forall₂.cons ((lookup_known paths hn s i).1 hl) h3
    | none =>
      refine ⟨found, h1.cons s, ?_, ?_⟩
      · intro t ht
        have : s ≠ t := by
          rintro rfl
          exact ((lookup_unknown paths hn s).1 hl) ht
        simp [h2 t ht, this]
      · simp only [pick, hl]
        exact h3

open Classical in
theorem warned_pick (paths : Paths) (hn : (paths.map Prod.fst).Nodup) : ∀ l : List String,
    (pick (namedModules [] paths) l).2 = l.filter fun s => ¬ ∃ i, Known paths s i := by
  intro l
  induction l with
  | nil => rfl
  | cons s rest ih =>
    cases hl : (namedModules [] paths).lookup s with
    | some i =>
      have : ∃ i, Known paths s i := ⟨i, (lookup_known paths hn s i).1 hl⟩
      simp only [pick, hl]
      rw [List.filter_cons_of_neg (by simp [this]), ih]
    | none =>
      have := (lookup_unknown paths hn s).1 hl
      simp only [pick, hl]
      rw [List.filter_cons_of_pos (by simpa using this), ih]

theorem pick_nil_iff (paths : Paths) (hn : (paths.map Prod.fst).Nodup) : ∀ l : List String,
    (pick (namedModules [] paths) l).1 = [] ↔ ∀ s ∈ l, ¬ ∃ i, Known paths s i := by
  intro l
  induction l with
  | nil => simp [pick]
  | cons s rest ih =>
    cases hl : (namedModules [] paths).lookup s with
    | some i =>
      simp only [pick, hl, List.mem_cons, forall_eq_or_imp]
      constructor
      · intro h; simp at h
      · rintro ⟨h, _⟩
        exact absurd ⟨i, (lookup_known paths hn s i).1 hl⟩ h
    | none =>
      simp only [pick, hl, ih, List.mem_cons, forall_eq_or_imp]
      exact ⟨fun h => ⟨(lookup_unknown paths hn s).1 hl, h⟩, fun h => h.2⟩

/-! ## Choosing layers -/

open Classical in
/-- **C209.** A list of names selects the modules known by these names, in the order of the list and with its repetitions; the other
names are dropped with a warning each.  A single string is the list of that one name. -/
theorem C209_names (info : ℕ → Layer) (paths : Paths) (hn : (paths.map Prod.fst).Nodup) (l : List String) :
    Chosen paths l (targets info paths (.many l)).1 ∧
      (targets info paths (.many l)).2 = (l.filter fun s => ¬ ∃ i, Known paths s i) ∧
      ∀ s : String, targets info paths (.one s) = targets info paths (.many [s]) :=
  ⟨chosen_pick paths hn l, warned_pick paths hn l, fun _ => rfl⟩

/-- **C209.** Without names the layers are the linear modules of the model, each once however often it is registered, in the order in
which they are first met. -/
theorem C209_all (info : ℕ → Layer) (paths : Paths) :
    (∀ i, i ∈ (targets info paths .all).1 ↔ (info i).isLinear = true ∧ ∃ s, (s, i) ∈ paths) ∧
      (targets info paths .all).1.Nodup ∧ (targets info paths .all).1.Sublist (paths.map Prod.snd) ∧
      (targets info paths .all).2 = [] := by
  have key : ∀ i, i ∈ (namedModules [] paths).map Prod.snd ↔ ∃ s, (s, i) ∈ paths := by
    intro i
    constructor
    · intro h
      obtain ⟨⟨s, j⟩, hp, rfl⟩ := List.mem_map.1 h
      exact ⟨s, (namedModules_sublist paths []).subset hp⟩
    · rintro ⟨s, hs⟩
      have : ∀ paths : Paths, (s, i) ∈ paths → ∃ t, Known paths t i := by
        intro paths
        induction paths with
        | nil => intro h; simp at h
        | cons q rest ih =>
          obtain ⟨t, j⟩ := q
          intro h
          by_cases hj : j = i
          · subst hj; exact ⟨t, [], rest, rfl, by simp⟩
          · have hr : (s, i) ∈ rest := by
              rcases List.mem_cons.1 h with h | h
              · exact absurd (Prod.mk.inj h).2.symm hj
              · exact h
            obtain ⟨u, pre, post, h1, h2⟩ := ih hr
            refine ⟨u, (t, j) :: pre, post, by simp [h1], ?_⟩
            intro q hq
            rcases List.mem_cons.1 hq with rfl | hq
            · exact hj
            · exact h2 q hq
      obtain ⟨t, ht⟩ := this paths hs
      exact List.mem_map.2 ⟨(t, i), (mem_namedModules t i paths []).2 ⟨by simp, ht⟩, rfl⟩
  refine ⟨?_, ?_, ?_, rfl⟩
  · intro i
    simp only [targets, Names.normal, List.mem_filter, key]
    exact and_comm
  · exact (namedModules_nodup paths []).filter _
  · exact List.filter_sublist.trans ((namedModules_sublist paths []).map Prod.snd)

/-- **C209.** A layer that is registered at a second place (weight tying by sharing the module) cannot be chosen by its second name:
the name counts as unknown, and asking for it alone is an error. -/
theorem C209_tied (info : ℕ → Layer) (pre mid post : Paths) (s t : String) (i : ℕ)
    (hn : ((pre ++ (s, i) :: mid ++ (t, i) :: post).map Prod.fst).Nodup) (sig : List Bool) (proj : Option ℤ) (ftype : Option String)
    (hf : ftype ≠ some "none") :
    targets info (pre ++ (s, i) :: mid ++ (t, i) :: post) (.one t) = ([], [t]) ∧
      construct info (pre ++ (s, i) :: mid ++ (t, i) :: post) sig proj ftype (.one t) = .error .valueError := by
  have hu : ¬ ∃ j, Known (pre ++ (s, i) :: mid ++ (t, i) :: post) t j := by
    rintro ⟨j, hk⟩
    have hmem : (t, j) ∈ pre ++ (s, i) :: mid ++ (t, i) :: post := by
      obtain ⟨p, q, h, _⟩ := hk
      rw [h]; simp
    have hj : j = i := by
      have h1 := (lookup_iff _ hn t j).2 hmem
      have h2 := (lookup_iff _ hn t i).2 (by simp)
      rw [h1] at h2
      exact Option.some.inj h2
    subst hj
    obtain ⟨p, q, h, hp⟩ := hk
    have hsm : (s, j) ∈ p ++ (t, j) :: q := by rw [← h]; simp
    rcases List.mem_append.1 hsm with h' | h'
    · exact hp _ h' rfl
    · have hst : s ≠ t := by
        rintro rfl
        rw [List.map_append, List.nodup_append] at hn
        exact hn.2.2 s (by simp) s (by simp) rfl
      rcases List.mem_cons.1 h' with h'' | h''
      · exact hst (Prod.mk.inj h'').1
      · -- the entry `(s, j)` would come after `(t, j)`
        have hs1 : (pre ++ (s, j) :: mid ++ (t, j) :: post).map Prod.fst = p.map Prod.fst ++ t :: q.map Prod.fst := by
          rw [h]; simp
        have hs2 : (pre ++ (s, j) :: mid ++ (t, j) :: post).map Prod.fst =
            (pre.map Prod.fst ++ s :: mid.map Prod.fst) ++ t :: post.map Prod.fst := by simp
        have hnd := hn
        rw [hs1] at hnd
        have e := hs1.symm.trans hs2
        have hnd2 := hn
        rw [hs2] at hnd2
        have hpt : t ∉ p.map Prod.fst := by
          intro hh
          rw [List.nodup_append] at hnd
          exact hnd.2.2 t hh t (by simp) rfl
        have hpt2 : t ∉ pre.map Prod.fst ++ s :: mid.map Prod.fst := by
          intro hh
          rw [List.nodup_append] at hnd2
          exact hnd2.2.2 t hh t (by simp) rfl
        have hsplit : ∀ (a b c d : List String), t ∉ a → t ∉ c → a ++ t :: b = c ++ t :: d → a = c := by
          intro a
          induction a with
          | nil =>
            intro b c d _ hc he
            cases c with
            | nil => rfl
            | cons x c => simp at he; exact absurd he.1 (by rintro rfl; simp at hc)
          | cons x a ih =>
            intro b c d ha hc he
            cases c with
            | nil => simp at he; exact absurd he.1.symm (by rintro rfl; simp at ha)
            | cons y c =>
              simp only [List.cons_append, List.cons.injEq] at he
              simp only [List.mem_cons, not_or] at ha hc
              rw [he.1, ih b c d ha.2 hc.2 he.2]
        have hpe := hsplit _ _ _ _ hpt hpt2 e
        have : s ∈ p.map Prod.fst := by rw [hpe]; simp
        rw [List.nodup_append] at hnd
        exact hnd.2.2 s this s (by
          refine List.mem_cons_of_mem _ (List.mem_map.2 ⟨(s, j), h'', rfl⟩)) rfl
  have ht : targets info (pre ++ (s, i) :: mid ++ (t, i) :: post) (.one t) = ([], [t]) := by
    have hl := (lookup_unknown _ hn t).2 hu
    simp only [targets, Names.normal, pick, hl]
  refine ⟨ht, ?_⟩
  unfold construct
  rw [if_pos hf, ht]
  split <;> rfl

/-! ## Constructing -/

/-- Some layer is left to record (specification). -/
def SomeLayer (info : ℕ → Layer) (paths : Paths) : Names → Prop
  | .all => ∃ s i, (s, i) ∈ paths ∧ (info i).isLinear = true
  | .one s => ∃ i, Known paths s i
  | .many l => ∃ s ∈ l, ∃ i, Known paths s i

theorem targets_ne_nil (info : ℕ → Layer) (paths : Paths) (hn : (paths.map Prod.fst).Nodup) (names : Names) :
    (targets info paths names).1 ≠ [] ↔ SomeLayer info paths names := by
  cases names with
  | all =>
    have h := (C209_all info paths).1
    constructor
    · intro hne
      obtain ⟨i, hi⟩ := List.exists_mem_of_ne_nil _ hne
      obtain ⟨h1, s, h2⟩ := (h i).1 hi
      exact ⟨s, i, h2, h1⟩
    · rintro ⟨s, i, h1, h2⟩
      exact List.ne_nil_of_mem ((h i).2 ⟨h2, s, h1⟩)
  | one s =>
    have := pick_nil_iff paths hn [s]
    simp only [List.mem_singleton, forall_eq] at this
    exact (not_congr this).trans not_not
  | many l =>
    have := pick_nil_iff paths hn l
    refine (not_congr this).trans ?_
    simp only [SomeLayer, not_forall, not_not, exists_prop]

/-- **C209.** Construction succeeds exactly when: without factorisation the loss function has two parameters without default; with it
(also for `factorization_type=None`) it has three, at least one layer is left, and, if a projection dimension is given, the type is
"kronecker" with a nonnegative dimension or "elementwise".  Any other case is a `ValueError`. -/
theorem C209_construct (info : ℕ → Layer) (paths : Paths) (hn : (paths.map Prod.fst).Nodup) (sig : List Bool) (proj : Option ℤ)
    (ftype : Option String) (names : Names) :
    ((∃ c, construct info paths sig proj ftype names = .ok c) ↔
      (ftype = some "none" ∧ sig.count false = 2) ∨
      (ftype ≠ some "none" ∧ sig.count false = 3 ∧ SomeLayer info paths names ∧
        ∀ d, proj = some d → (ftype = some "kronecker" ∧ 0 ≤ d) ∨ ftype = some "elementwise")) ∧
      ∀ e, construct info paths sig proj ftype names = .error e → e = .valueError := by
  have hr : required sig = sig.count false := by
    unfold required
    rw [← List.countP_eq_length_filter, List.count]
    congr 1
    funext b; cases b <;> rfl
  rw [← targets_ne_nil info paths hn names, ← hr]
  unfold construct
  by_cases hf : ftype = some "none"
  · rw [if_neg (by simpa using hf)]
    by_cases h2 : required sig = 2
    · simp [hf, h2]
    · simp [hf, h2]
  · rw [if_pos hf]
    by_cases h3 : required sig = 3
    · rw [if_neg (by simpa using h3)]
      by_cases ht : (targets info paths names).1 = []
      · simp [hf, ht, h3]
      · simp only [ht, if_false]
        cases proj with
        | none => simp [hf, h3, ht]
        | some d =>
          by_cases hk : ftype = some "kronecker"
          · by_cases hd : d < 0
            · simp [hk, hd, h3, ht]
            · have : 0 ≤ d := not_lt.1 hd
              simp [hk, hd, h3, ht, this]
          · by_cases he : ftype = some "elementwise"
            · simp [he, h3, ht]
            · simp [hf, hk, he, h3, ht]
    · simp [hf, h3]

/-- **C209.** What the constructor sets up.  With "kronecker" each of the two factors is projected to the largest `r` with `r * r ≤ d`,
so that a layer gets `r * r` coordinates, fewer than requested unless `d` is a square; with "elementwise" it gets `d`; without a
projection dimension a layer gets as many coordinates as it has parameters. -/
theorem C209_dims (info : ℕ → Layer) (paths : Paths) (sig : List Bool) (proj : Option ℤ) (ftype : Option String)
    (names : Names) (c : Cfg) (hc : construct info paths sig proj ftype names = .ok c) (hf : ftype ≠ some "none") :
    c.factored = true ∧ (c.layers, c.warned) = targets info paths names ∧
      (proj = none → c.projDim = none ∧ c.paramsDim = some (((c.layers.map fun i => (info i).numels.sum).sum : ℕ) : ℤ)) ∧
      (∀ d, proj = some d → ftype = some "kronecker" → ∃ r, c.projDim = some r ∧ 0 ≤ r ∧ r * r ≤ d ∧ d < (r + 1) * (r + 1) ∧
        c.paramsDim = some (c.layers.length * (r * r))) ∧
      (∀ d, proj = some d → ftype = some "elementwise" → c.projDim = some d ∧ c.paramsDim = some (c.layers.length * d)) := by
  unfold construct at hc
  rw [if_pos hf] at hc
  split at hc
  · exact absurd hc (by simp)
  by_cases ht : (targets info paths names).1 = []
  · simp [ht] at hc
  simp only [ht, if_false] at hc
  cases proj with
  | none =>
    simp only [Except.ok.injEq] at hc
    subst hc
    refine ⟨rfl, rfl, fun _ => ⟨rfl, ?_⟩, fun d h => by simp at h, fun d h => by simp at h⟩
    simp only [List.flatMap, List.sum_flatten, List.map_map]
    rfl
  | some d =>
    by_cases hk : ftype = some "kronecker"
    · simp only [hk, if_true] at hc
      by_cases hd : d < 0
      · simp [hd] at hc
      · simp only [hd, if_false, Except.ok.injEq] at hc
        subst hc
        refine ⟨rfl, rfl, fun h => by simp at h, ?_, ?_⟩
        · intro d' h _
          obtain rfl : d = d' := by simpa using h
          have h0 : 0 ≤ d := not_lt.1 hd
          refine ⟨_, rfl, Int.natCast_nonneg _, ?_, ?_, ?_⟩
          · have := Nat.sqrt_le d.toNat
            have h' : ((Nat.sqrt d.toNat * Nat.sqrt d.toNat : ℕ) : ℤ) ≤ (d.toNat : ℤ) := by exact_mod_cast this
            rw [Int.toNat_of_nonneg h0] at h'
            push_cast at h'
            exact h'
          · have := Nat.lt_succ_sqrt d.toNat
            have h' : (d.toNat : ℤ) < (((Nat.sqrt d.toNat + 1) * (Nat.sqrt d.toNat + 1) : ℕ) : ℤ) := by exact_mod_cast this
            rw [Int.toNat_of_nonneg h0] at h'
            push_cast at h'
            exact h'
          · simp only [mul_assoc]
        · intro d' _ h
          rw [hk] at h
          exact absurd h (by simp)
    · by_cases he : ftype = some "elementwise"
      · simp only [he, if_true] at hc
        rw [if_neg (by simp)] at hc
        simp only [Except.ok.injEq] at hc
        subst hc
        refine ⟨rfl, rfl, fun h => by simp at h, fun _ _ h => absurd h hk, ?_⟩
        intro d' h _
        obtain rfl : d = d' := by simpa using h
        exact ⟨rfl, rfl⟩
      · simp [hk, he] at hc

/-- **C209.** Without a projection dimension the factorisation type is not looked at: every value other than "none", also a misspelt
one, gives the same attributor.  Without factorisation the layer names are not looked at. -/
theorem C209_type_ignored (info : ℕ → Layer) (paths : Paths) (sig : List Bool) :
    (∀ f g : Option String, f ≠ some "none" → g ≠ some "none" → ∀ names,
      construct info paths sig none f names = construct info paths sig none g names) ∧
    ∀ proj n m, construct info paths sig proj (some "none") n = construct info paths sig proj (some "none") m := by
  constructor
  · intro f g hf hg names
    unfold construct
    rw [if_pos hf, if_pos hg]
  · intro proj n m
    simp [construct]

/-! ## Rows of the chosen layers -/

section
variable {K : Type} [Ring K]

theorem layerRow_length (bias : Bool) (a b : List K) :
    (layerRow bias a b).length = b.length * a.length + if bias then b.length else 0 := by
  unfold layerRow
  rw [List.length_append, List.length_flatMap]
  congr 1
  · simp
  · cases bias <;> rfl

theorem row_ok (info : ℕ → Layer) (act : ℕ → List K × List K) : ∀ l : List ℕ, (∀ i ∈ l, (info i).bias ≠ none) →
    row info act l = .ok (l.flatMap fun i => layerRow (((info i).bias.getD none).isSome) (act i).1 (act i).2) := by
  intro l
  induction l with
  | nil => intro _; rfl
  | cons i rest ih =>
    intro h
    have hi := h i (by simp)
    cases hb : (info i).bias with
    | none => exact absurd hb hi
    | some b =>
      simp only [row, hb, ih fun j hj => h j (List.mem_cons_of_mem _ hj), List.flatMap_cons, Option.getD_some]

theorem row_error (info : ℕ → Layer) (act : ℕ → List K × List K) : ∀ l : List ℕ, (∃ i ∈ l, (info i).bias = none) →
    row info act l = .error .attributeError := by
  intro l
  induction l with
  | nil => rintro ⟨i, hi, _⟩; simp at hi
  | cons i rest ih =>
    rintro ⟨j, hj, hb⟩
    cases hi : (info i).bias with
    | none => simp only [row, hi]
    | some b =>
      rcases List.mem_cons.1 hj with rfl | hj
      · rw [hi] at hb; exact absurd hb (by simp)
      · simp only [row, hi, ih ⟨j, hj, hb⟩]

/-- **C209.** When recorded factors can be used, for arbitrary chosen modules (names may designate any module): recording fails with an
`AttributeError` if some chosen module has no attribute `bias`; otherwise the embedding computation accepts the rows exactly when
outputs times inputs, plus outputs for modules with a bias, add up to the number of parameters of the chosen modules, and raises a
`RuntimeError` if not. -/
theorem C209_usable (info : ℕ → Layer) (act : ℕ → List K × List K) (paths : Paths) (sig : List Bool) (ftype : Option String)
    (names : Names) (c : Cfg) (hf : ftype ≠ some "none") (hc : construct info paths sig none ftype names = .ok c) :
    ((∃ i ∈ c.layers, (info i).bias = none) → usableRow info act c = .error .attributeError) ∧
      ((∀ i ∈ c.layers, (info i).bias ≠ none) →
        let width := (c.layers.map fun i =>
          (act i).2.length * (act i).1.length + if (info i).bias = some none then 0 else (act i).2.length).sum
        let total := (c.layers.map fun i => (info i).numels.sum).sum
        (width = total → ∃ r, usableRow info act c = .ok r ∧ r.length = total) ∧
          (width ≠ total → usableRow info act c = .error .runtimeError)) := by
  have hd := ((C209_dims info paths sig none ftype names c hc hf).2.2.1 rfl).2
  constructor
  · intro h
    simp only [usableRow, row_error info act _ h]
  · intro h
    have hlen : (c.layers.flatMap fun i => layerRow (((info i).bias.getD none).isSome) (act i).1 (act i).2).length =
        (c.layers.map fun i => (act i).2.length * (act i).1.length +
          if (info i).bias = some none then 0 else (act i).2.length).sum := by
      rw [List.length_flatMap]
      refine congrArg List.sum (List.map_congr_left ?_)
      intro i hi
      rw [layerRow_length]
      congr 1
      have := h i hi
      cases hb : (info i).bias with
      | none => exact absurd hb this
      | some b => cases b <;> simp
    simp only [usableRow, row_ok info act _ h, hd, Option.getD_some, hlen]
    constructor
    · intro he
      exact ⟨_, by rw [if_pos (by exact_mod_cast he)], by rw [hlen, he]⟩
    · intro he
      rw [if_neg (by exact_mod_cast he)]

/-- **C209.** For linear layers (in particular when no names are given) the rows always fit, with or without biases. -/
theorem C209_linear (info : ℕ → Layer) (act : ℕ → List K × List K) (paths : Paths) (sig : List Bool) (ftype : Option String)
    (names : Names) (c : Cfg) (hf : ftype ≠ some "none") (hc : construct info paths sig none ftype names = .ok c)
    (hl : ∀ i ∈ c.layers, IsLinear (info i) (act i).2.length (act i).1.length) :
    ∃ r, usableRow info act c = .ok r ∧ r.length = (c.layers.map fun i => (info i).numels.sum).sum := by
  refine ((C209_usable info act paths sig ftype names c hf hc).2 ?_).1 ?_
  · intro i hi hb
    rcases (hl i hi).2.2 with ⟨h, _⟩ | ⟨h, _⟩ <;> rw [hb] at h <;> exact absurd h (by simp)
  · refine congrArg List.sum (List.map_congr_left ?_)
    intro i hi
    rcases (hl i hi).2.2 with ⟨h, h'⟩ | ⟨h, h'⟩ <;> simp [h, h']

theorem dotRow_append (x y x' y' : List K) (h : x.length = x'.length) :
    dotRow (x ++ y) (x' ++ y') = dotRow x x' + dotRow y y' := by
  unfold dotRow
  rw [List.zipWith_append h, List.sum_append]

end

section
variable {K : Type} [CommRing K]

theorem dotRow_smul (o o' : K) : ∀ a a' : List K,
    dotRow (a.map fun x : K => o * x) (a'.map fun x : K => o' * x) = o * o' * dotRow a a' := by
  intro a
  induction a with
  | nil => intro a'; simp [dotRow]
  | cons x a ih =>
    intro a'
    cases a' with
    | nil => simp [dotRow]
    | cons y a' =>
      have := ih a'
      simp only [dotRow, List.map_cons, List.zipWith_cons_cons, List.sum_cons] at this ⊢
      rw [this]; ring

theorem dotRow_outer (a a' : List K) (h : a.length = a'.length) : ∀ b b' : List K,
    dotRow (b.flatMap fun o : K => a.map fun x : K => o * x) (b'.flatMap fun o : K => a'.map fun x : K => o * x) =
      dotRow b b' * dotRow a a' := by
  intro b
  induction b with
  | nil => intro b'; simp [dotRow]
  | cons o b ih =>
    intro b'
    cases b' with
    | nil => simp [dotRow]
    | cons o' b' =>
      rw [List.flatMap_cons, List.flatMap_cons, dotRow_append _ _ _ _ (by simpa using h), ih, dotRow_smul]
      simp only [dotRow, List.zipWith_cons_cons, List.sum_cons]
      ring

/-- **C209.** The product of the rows of two samples is the sum over the chosen layers, with their repetitions, of the product of the
output gradients times the product of the inputs, plus the product of the output gradients for a layer with bias.  A layer whose name
is listed twice therefore counts twice. -/
theorem C209_repeated (info : ℕ → Layer) (act act' : ℕ → List K × List K) (l : List ℕ)
    (hb : ∀ i ∈ l, (info i).bias ≠ none)
    (hs : ∀ i ∈ l, (act i).1.length = (act' i).1.length ∧ (act i).2.length = (act' i).2.length) :
    ∃ r r', row info act l = .ok r ∧ row info act' l = .ok r' ∧
      dotRow r r' = (l.map fun i => dotRow (act i).2 (act' i).2 * dotRow (act i).1 (act' i).1 +
        if (info i).bias = some none then 0 else dotRow (act i).2 (act' i).2).sum := by
  refine ⟨_, _, row_ok info act l hb, row_ok info act' l hb, ?_⟩
  induction l with
  | nil => simp [dotRow]
  | cons i rest ih =>
    rw [List.flatMap_cons, List.flatMap_cons, dotRow_append,
      ih (fun j hj => hb j (List.mem_cons_of_mem _ hj)) fun j hj => hs j (List.mem_cons_of_mem _ hj)]
    · rw [List.map_cons, List.sum_cons]
      congr 1
      unfold layerRow
      have h1 := (hs i (by simp)).1
      have h2 := (hs i (by simp)).2
      rw [dotRow_append _ _ _ _ (by simp [List.length_flatMap, h1, h2]), dotRow_outer _ _ h1]
      congr 1
      have := hb i (by simp)
      cases hbi : (info i).bias with
      | none => exact absurd hbi this
      | some b => cases b <;> simp [dotRow]
    · rw [layerRow_length, layerRow_length, (hs i (by simp)).1, (hs i (by simp)).2]

end

/-! ## Projectors -/

/-- **C209.** The projectors of a chosen module are set up from the first two sizes of its `weight`.  This works exactly when every
chosen module has a `weight` with at least two sizes; for linear layers these are the numbers of outputs and inputs. -/
theorem C209_projectors (info : ℕ → Layer) (l : List ℕ) :
    ((∃ r, projectorSizes info l = .ok r) ↔ ∀ i ∈ l, ∃ o n rest, (info i).weight = some (o :: n :: rest)) ∧
      ∀ o n : ℕ → ℕ, (∀ i ∈ l, IsLinear (info i) (o i) (n i)) → projectorSizes info l = .ok (l.map fun i => (o i, n i)) := by
  constructor
  · induction l with
    | nil => simp [projectorSizes]
    | cons i rest ih =>
      simp only [List.mem_cons, forall_eq_or_imp, ← ih]
      rcases hw : (info i).weight with _ | (_ | ⟨o, _ | ⟨n, w⟩⟩)
      · simp [projectorSizes, hw]
      · simp [projectorSizes, hw]
      · simp [projectorSizes, hw]
      · cases hr : projectorSizes info rest with
        | error e => simp [projectorSizes, hw, hr]
        | ok r => simp [projectorSizes, hw, hr]
  · intro o n
    induction l with
    | nil => intro _; rfl
    | cons i rest ih =>
      intro h
      have hw := (h i (by simp)).2.1
      simp only [projectorSizes, hw, ih fun j hj => h j (List.mem_cons_of_mem _ hj), List.map_cons]

/-! ## Examples -/

section Examples

/-- Module 0 is the model, 1 a linear layer with bias, 2 a layer norm of size 3, 3 a linear layer without bias. -/
def exInfo : ℕ → Layer
  | 0 => ⟨false, none, none, [6, 2, 3, 3, 4]⟩
  | 1 => ⟨true, some [2, 3], some (some 2), [6, 2]⟩
  | 2 => ⟨false, some [3], some (some 3), [3, 3]⟩
  | _ => ⟨true, some [2, 2], some none, [4]⟩

/-- The linear layer 1 is also registered as "head". -/
def exPaths : Paths := [("", 0), ("fc1", 1), ("norm", 2), ("fc2", 3), ("head", 1)]

example : (exPaths.map Prod.fst).Nodup := by decide

/-- All linear layers, each once; three required parameters; 6 + 2 + 4 coordinates. -/
example : construct exInfo exPaths [false, false, false] none (some "kronecker") .all = .ok ⟨true, [1, 3], none, some 12, []⟩ := by
  decide +kernel

/-- A misspelt type is accepted without a projection dimension and refused with one. -/
example : construct exInfo exPaths [false, false, false] none (some "kroneker") (.many ["fc2", "fc2", "fc9"]) =
    .ok ⟨true, [3, 3], none, some 8, ["fc9"]⟩ := by decide +kernel
example : construct exInfo exPaths [false, false, false] (some 10) (some "kroneker") (.many ["fc2"]) = .error .valueError := by
  decide +kernel

/-- Ten coordinates per layer were asked for, nine are used. -/
example : construct exInfo exPaths [false, false, false, true] (some 10) (some "kronecker") (.one "fc1") =
    .ok ⟨true, [1], some 3, some 9, []⟩ := by
  have h : Nat.sqrt 10 = 3 := by symm; rw [Nat.eq_sqrt]; decide
  have ht : targets exInfo exPaths (.one "fc1") = ([1], []) := by decide +kernel
  have hr : required [false, false, false, true] = 3 := by decide
  simp [construct, ht, hr, h]

/-- The second name of the shared layer is unknown. -/
example : construct exInfo exPaths [false, false, false] none none (.one "head") = .error .valueError := by decide +kernel

/-- A layer norm can be chosen, but its rows do not fit: 3 * 3 + 3 coordinates against 6 parameters. -/
example : ∃ c, construct exInfo exPaths [false, false, false] none none (.one "norm") = .ok c ∧
    usableRow (K := ℤ) exInfo (fun _ => ([1, 2, 3], [4, 5, 6])) c = .error .runtimeError :=
  ⟨⟨true, [2], none, some 6, []⟩, by decide +kernel, by decide +kernel⟩

/-- The model itself (name "") has no attribute `bias`. -/
example : ∃ c, construct exInfo exPaths [false, false, false] none none (.one "") = .ok c ∧
    usableRow (K := ℤ) exInfo (fun _ => ([1, 2, 3], [4, 5])) c = .error .attributeError :=
  ⟨⟨true, [0], none, some 18, []⟩, by decide +kernel, by decide +kernel⟩

/-- A linear layer works. -/
example : IsLinear (exInfo 1) 2 3 := ⟨rfl, rfl, Or.inr ⟨rfl, rfl⟩⟩
example : usableRow (K := ℤ) exInfo (fun _ => ([1, 2, 3], [4, 5])) ⟨true, [1], none, some 8, []⟩ =
    .ok [4, 8, 12, 5, 10, 15, 4, 5] := by decide +kernel

end Examples

end Verif.DVEmbLayers
