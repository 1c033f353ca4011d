import Verif.Hook.Model

/-!
# Lemmas about patching linear layers
-/

namespace Verif.Hook

variable {net : Net}

/-- The linear layers a list of names selects. -/
def Covers (net : Net) (names : List String) (i : ℕ) : Prop :=
  ∃ name, net[i]? = some (name, true) ∧ name ∈ names

theorem covers_iff (names : List String) (i : ℕ) :
    Covers net names i ↔ (named net names i && isLinear net i) = true := by
  unfold Covers named isLinear
  cases h : net[i]? with
  | none => simp
  | some p =>
    obtain ⟨a, b⟩ := p
    cases b <;> simp

theorem patch_of (m : ℕ) (names : List String) (mods : ℕ → ModSt) (i : ℕ) (h : Covers net names i) :
    patch net m names mods i = ⟨.wrap m (idxAt net names i), some (mods i).fwd⟩ := by
  unfold patch; rw [if_pos ((covers_iff _ _).1 h)]

theorem patch_not (m : ℕ) (names : List String) (mods : ℕ → ModSt) (i : ℕ) (h : ¬ Covers net names i) :
    patch net m names mods i = mods i := by
  unfold patch; rw [if_neg (fun e => h ((covers_iff _ _).2 e))]

theorem unpatch_none (g : Mgr) (mods : ℕ → ModSt) (i : ℕ) (h : (mods i).orig = none) :
    unpatch net g mods i = mods i := by
  unfold unpatch; split
  · rw [h]
  · rfl

theorem unpatch_covered (g : Mgr) (mods : ℕ → ModSt) (i : ℕ) (f : Fwd) (hf : g.filled = true)
    (hc : Covers net g.names i) (h : (mods i).orig = some f) : unpatch net g mods i = ⟨f, none⟩ := by
  unfold unpatch
  rw [hf, (Bool.and_eq_true_iff.1 ((covers_iff _ _).1 hc)).1, Bool.and_self, if_pos rfl, h]

theorem unpatch_cases (g : Mgr) (mods : ℕ → ModSt) (i : ℕ) :
    unpatch net g mods i = mods i ∨
      ∃ f, (mods i).orig = some f ∧ unpatch net g mods i = ⟨f, none⟩ := by
  unfold unpatch; split
  · cases h : (mods i).orig with
    | none => exact Or.inl rfl
    | some f => exact Or.inr ⟨f, rfl, rfl⟩
  · exact Or.inl rfl

/-- The managers that are registered. -/
def Registered (st : St) (m : ℕ) (names : List String) : Prop :=
  ∃ g, st.mgrs[m]? = some g ∧ g.registered = true ∧ g.names = names

/-- No registered manager other than `m` has a layer among `names`. -/
def Apart (net : Net) (st : St) (m : ℕ) (names : List String) : Prop :=
  ∀ m' names', m' ≠ m → Registered st m' names' → ∀ i, Covers net names i → ¬ Covers net names' i

/-- The call concerns no layer of another registered manager. -/
def Fair (net : Net) (st : St) : Op → Prop
  | .new names reg => reg = true → Apart net st st.mgrs.length names
  | .register m => ∀ g : Mgr, st.mgrs[m]? = some g → Apart net st m g.names
  | .remove m => ∀ g : Mgr, st.mgrs[m]? = some g → Apart net st m g.names
  | .setEnabled _ _ => True

/-- Every call of the history is fair when it is made. -/
def FairRun (net : Net) : St → List Op → Prop
  | _, [] => True
  | st, op :: ops => Fair net st op ∧ ∀ st', step net st op = some st' → FairRun net st' ops

/-- Invariant of fair histories. -/
structure Inv (net : Net) (st : St) : Prop where
  filled : ∀ (m : ℕ) (g : Mgr), st.mgrs[m]? = some g → g.registered = true → g.filled = true
  on : ∀ (m : ℕ) (names : List String) (i : ℕ), Registered st m names → Covers net names i →
    st.mods i = ⟨.wrap m (idxAt net names i), some .native⟩
  off : ∀ i : ℕ, (∀ (m : ℕ) (names : List String), Registered st m names → ¬ Covers net names i) → st.mods i = ⟨.native, none⟩

theorem inv_init : Inv net St.init := by
  refine ⟨?_, ?_, ?_⟩
  · intro m g h; simp [St.init] at h
  · rintro m names i ⟨g, h, _⟩; simp [St.init] at h
  · intro i _; rfl

theorem getElem?_set_cases {α : Type} {l : List α} {m k : ℕ} {x y : α} (h : (l.set m x)[k]? = some y) :
    (k = m ∧ y = x ∧ m < l.length) ∨ (k ≠ m ∧ l[k]? = some y) := by
  rw [List.getElem?_set] at h
  split at h
  · rename_i e
    split at h
    · rename_i hl; cases h; exact Or.inl ⟨e.symm, rfl, hl⟩
    · cases h
  · rename_i e; exact Or.inr ⟨fun h' => e h'.symm, h⟩

theorem getElem?_set_self {α : Type} {l : List α} {m : ℕ} {x y : α} (h : l[m]? = some y) :
    (l.set m x)[m]? = some x := by
  rw [List.getElem?_set]
  have := (List.getElem?_eq_some_iff.1 h).1
  simp [this]

theorem getElem?_set_ne {α : Type} {l : List α} {m k : ℕ} {x : α} (h : k ≠ m) :
    (l.set m x)[k]? = l[k]? := by
  rw [List.getElem?_set, if_neg (fun e => h e.symm)]

theorem inv_register {st : St} {m : ℕ} {g : Mgr} (hI : Inv net st) (hm : st.mgrs[m]? = some g)
    (ha : Apart net st m g.names) : Inv net (register net st m g) := by
  unfold register
  split
  · exact hI
  · rename_i hr
    have reg : ∀ m' names, Registered
        ⟨patch net m g.names st.mods, st.mgrs.set m { g with filled := true, registered := true }⟩ m' names →
        (m' = m ∧ names = g.names) ∨ (m' ≠ m ∧ Registered st m' names) := by
      rintro m' names ⟨g', h, h1, h2⟩
      rcases getElem?_set_cases h with ⟨e, e', _⟩ | ⟨e, e'⟩
      · subst e'; exact Or.inl ⟨e, h2.symm⟩
      · exact Or.inr ⟨e, g', e', h1, h2⟩
    have self : Registered
        ⟨patch net m g.names st.mods, st.mgrs.set m { g with filled := true, registered := true }⟩ m g.names :=
      ⟨_, getElem?_set_self hm, rfl, rfl⟩
    have keep : ∀ m' names, m' ≠ m → Registered st m' names → Registered
        ⟨patch net m g.names st.mods, st.mgrs.set m { g with filled := true, registered := true }⟩ m' names := by
      rintro m' names e ⟨g', h, h1⟩
      exact ⟨g', by rw [getElem?_set_ne e]; exact h, h1⟩
    refine ⟨?_, ?_, ?_⟩
    · intro m' g' h h1
      rcases getElem?_set_cases h with ⟨e, e', _⟩ | ⟨e, e'⟩
      · subst e'; rfl
      · exact hI.filled _ _ e' h1
    · intro m' names i h hc
      rcases reg _ _ h with ⟨e, e'⟩ | ⟨e, h'⟩
      · subst e e'
        show patch net m' g.names st.mods i = _
        rw [patch_of _ _ _ _ hc]
        have : st.mods i = ⟨.native, none⟩ := by
          apply hI.off
          rintro m'' names'' hr'' hc''
          by_cases e : m'' = m'
          · subst e
            obtain ⟨g'', h1, h2, _⟩ := hr''
            rw [hm] at h1; cases h1
            exact hr h2
          · exact ha _ _ e hr'' _ hc hc''
        rw [this]
      · show patch net m g.names st.mods i = _
        rw [patch_not _ _ _ _ (fun hc' => ha _ _ e h' _ hc' hc)]
        exact hI.on _ _ _ h' hc
    · intro i hn
      show patch net m g.names st.mods i = _
      rw [patch_not _ _ _ _ (hn _ _ self)]
      apply hI.off
      intro m' names h hc
      by_cases e : m' = m
      · subst e
        obtain ⟨g'', h1, h2, _⟩ := h
        rw [hm] at h1; cases h1
        exact hr h2
      · exact hn _ _ (keep _ _ e h) hc

theorem inv_remove {st : St} {m : ℕ} {g : Mgr} (hI : Inv net st) (hm : st.mgrs[m]? = some g)
    (ha : Apart net st m g.names) : Inv net (remove net st m g) := by
  have reg : ∀ m' names, Registered (remove net st m g) m' names → m' ≠ m ∧ Registered st m' names := by
    rintro m' names ⟨g', h, h1, h2⟩
    rcases getElem?_set_cases h with ⟨e, e', _⟩ | ⟨e, e'⟩
    · subst e'; cases h1
    · exact ⟨e, g', e', h1, h2⟩
  have keep : ∀ m' names, m' ≠ m → Registered st m' names → Registered (remove net st m g) m' names := by
    rintro m' names e ⟨g', h, h1⟩
    exact ⟨g', by show (st.mgrs.set m _)[m']? = _; rw [getElem?_set_ne e]; exact h, h1⟩
  refine ⟨?_, ?_, ?_⟩
  · intro m' g' h h1
    rcases getElem?_set_cases h with ⟨e, e', _⟩ | ⟨e, e'⟩
    · subst e'; cases h1
    · exact hI.filled _ _ e' h1
  · intro m' names i h hc
    obtain ⟨e, h'⟩ := reg _ _ h
    show unpatch net g st.mods i = _
    have hnc : ¬ Covers net g.names i := fun hc' => ha _ _ e h' _ hc' hc
    rw [← hI.on _ _ _ h' hc]
    unfold unpatch
    obtain ⟨name, hn, hmem⟩ := hc
    have : named net g.names i = false := by
      by_contra hh
      rw [Bool.not_eq_false] at hh
      apply hnc
      refine ⟨name, hn, ?_⟩
      unfold named at hh; rw [hn] at hh
      simpa using hh
    rw [this, Bool.and_false, if_neg (by simp)]
  · intro i hn
    show unpatch net g st.mods i = _
    by_cases hc : g.registered = true ∧ Covers net g.names i
    · have := hI.on m g.names i ⟨g, hm, hc.1, rfl⟩ hc.2
      rw [unpatch_covered g st.mods i .native (hI.filled _ _ hm hc.1) hc.2 (by rw [this])]
    · have : st.mods i = ⟨.native, none⟩ := by
        apply hI.off
        intro m' names h hc'
        by_cases e : m' = m
        · subst e
          obtain ⟨g', h1, h2, h3⟩ := h
          rw [hm] at h1; cases h1
          exact hc ⟨h2, by rw [h3]; exact hc'⟩
        · exact hn _ _ (keep _ _ e h) hc'
      rw [unpatch_none _ _ _ (by rw [this]), this]

theorem inv_enable {st : St} {m : ℕ} {g : Mgr} (b : Bool) (hI : Inv net st) (hm : st.mgrs[m]? = some g) :
    Inv net { st with mgrs := st.mgrs.set m { g with enabled := b } } := by
  have reg : ∀ m' names, Registered { st with mgrs := st.mgrs.set m { g with enabled := b } } m' names ↔
      Registered st m' names := by
    intro m' names
    constructor
    · rintro ⟨g', h, h1, h2⟩
      rcases getElem?_set_cases h with ⟨e, e', _⟩ | ⟨e, e'⟩
      · subst e'; subst e; exact ⟨g, hm, h1, h2⟩
      · exact ⟨g', e', h1, h2⟩
    · rintro ⟨g', h, h1, h2⟩
      by_cases e : m' = m
      · subst e
        rw [hm] at h; cases h
        exact ⟨_, getElem?_set_self hm, h1, h2⟩
      · exact ⟨g', by show (st.mgrs.set m _)[m']? = _; rw [getElem?_set_ne e]; exact h, h1, h2⟩
  refine ⟨?_, ?_, ?_⟩
  · intro m' g' h h1
    rcases getElem?_set_cases h with ⟨e, e', _⟩ | ⟨e, e'⟩
    · subst e'; exact hI.filled m g hm h1
    · exact hI.filled _ _ e' h1
  · intro m' names i h hc
    exact hI.on _ _ _ ((reg _ _).1 h) hc
  · intro i hn
    exact hI.off i fun m' names h => hn _ _ ((reg _ _).2 h)

theorem registered_append {st : St} {x : Mgr} (hx : x.registered = false) (m : ℕ) (names : List String) :
    Registered { st with mgrs := st.mgrs ++ [x] } m names ↔ Registered st m names := by
  constructor
  · rintro ⟨g, h, h1, h2⟩
    rw [List.getElem?_append] at h
    split at h
    · exact ⟨g, h, h1, h2⟩
    · cases hk : m - st.mgrs.length with
      | zero => rw [hk] at h; cases h; rw [hx] at h1; cases h1
      | succ k => rw [hk] at h; cases h
  · rintro ⟨g, h, h1⟩
    refine ⟨g, ?_, h1⟩
    show (st.mgrs ++ [x])[m]? = _
    rw [List.getElem?_append, if_pos (List.getElem?_eq_some_iff.1 h).1, h]

theorem inv_append {st : St} {x : Mgr} (hx : x.registered = false) (hI : Inv net st) :
    Inv net { st with mgrs := st.mgrs ++ [x] } := by
  refine ⟨?_, ?_, ?_⟩
  · intro m g h h1
    have := (registered_append (st := st) hx m g.names).1 ⟨g, h, h1, rfl⟩
    obtain ⟨g', h', _⟩ := this
    have e : (st.mgrs ++ [x])[m]? = some g' := by
      rw [List.getElem?_append, if_pos (List.getElem?_eq_some_iff.1 h').1, h']
    have h2 : (st.mgrs ++ [x])[m]? = some g := h
    rw [h2] at e; cases e
    exact hI.filled _ _ h' h1
  · intro m names i h hc
    exact hI.on _ _ _ ((registered_append hx _ _).1 h) hc
  · intro i hn
    exact hI.off i fun m names h => hn _ _ ((registered_append hx _ _).2 h)

theorem getElem?_append_new {α : Type} (l : List α) (x : α) : (l ++ [x])[l.length]? = some x := by
  simp

theorem inv_step {st st' : St} {op : Op} (hI : Inv net st) (hf : Fair net st op)
    (h : step net st op = some st') : Inv net st' := by
  cases op with
  | new names reg =>
    simp only [step, Option.some.injEq] at h
    subst h
    unfold construct
    have h1 : Inv net { st with mgrs := st.mgrs ++ [Mgr.fresh names] } := inv_append rfl hI
    cases reg with
    | false => exact h1
    | true =>
      refine inv_register h1 (getElem?_append_new _ _) ?_
      intro m' names' e hr
      exact hf rfl m' names' e ((registered_append rfl _ _).1 hr)
  | register m =>
    simp only [step, Option.map_eq_some_iff] at h
    obtain ⟨g, hg, rfl⟩ := h
    exact inv_register hI hg (hf g hg)
  | remove m =>
    simp only [step, Option.map_eq_some_iff] at h
    obtain ⟨g, hg, rfl⟩ := h
    exact inv_remove hI hg (hf g hg)
  | setEnabled m b =>
    simp only [step, Option.map_eq_some_iff] at h
    obtain ⟨g, hg, rfl⟩ := h
    exact inv_enable b hI hg

theorem exec_cons {st st' : St} {op : Op} {ops : List Op} :
    exec net st (op :: ops) = some st' ↔ ∃ st1, step net st op = some st1 ∧ exec net st1 ops = some st' := by
  unfold exec
  rw [List.foldlM_cons]
  cases step net st op <;> simp

theorem inv_exec {ops : List Op} : ∀ {st st' : St}, Inv net st → FairRun net st ops →
    exec net st ops = some st' → Inv net st' := by
  induction ops with
  | nil =>
    intro st st' hI _ h
    cases h; exact hI
  | cons op ops ih =>
    intro st st' hI hf h
    obtain ⟨st1, h1, h2⟩ := exec_cons.1 h
    exact ih (inv_step hI hf.1 h1) (hf.2 _ h1) h2

end Verif.Hook
