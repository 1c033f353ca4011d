import Verif.Base.LastIdx
import Verif.Hook.Lemmas

/-!
# Patching linear layers: properties
-/

namespace Verif.Hook

variable {net : Net}

/-- C67, fair histories: whenever no call concerns a layer of another registered manager, a module that no
registered manager has among its linear layers is as it was before anything happened, and every other
module carries the wrapper of the one manager that has it. -/
theorem C67_restored {ops : List Op} {st : St} (hf : FairRun net St.init ops)
    (h : exec net St.init ops = some st) :
    (∀ i, (∀ m names, Registered st m names → ¬ Covers net names i) → st.mods i = ⟨.native, none⟩) ∧
    (∀ m names i, Registered st m names → Covers net names i →
      (st.mods i).fwd = .wrap m (idxAt net names i)) := by
  have hI := inv_exec inv_init hf h
  exact ⟨hI.off, fun m names i hr hc => by rw [hI.on m names i hr hc]⟩

/-- C67: in particular after sessions that have all been closed the model is unpatched and every call
runs the module's own forward. -/
theorem C67_all_closed {ops : List Op} {st : St} (hf : FairRun net St.init ops)
    (h : exec net St.init ops = some st) (hc : ∀ m names, ¬ Registered st m names) (i fuel : ℕ) :
    st.mods i = ⟨.native, none⟩ ∧ call st i (fuel + 1) (st.mods i).fwd = some .own := by
  have := (inv_exec inv_init hf h).off i fun m names hr => absurd hr (hc m names)
  rw [this]
  exact ⟨rfl, rfl⟩

/-- C67: what calling a hooked layer does in a fair history.  The gradient is captured by the manager that
has the layer if it is enabled and has never been removed; a manager that was removed and registered again
makes the call raise; a disabled manager leaves the module's own behaviour. -/
theorem C67_hooked_call {ops : List Op} {st : St} (hf : FairRun net St.init ops)
    (h : exec net St.init ops = some st) {m i : ℕ} {g : Mgr} (hm : st.mgrs[m]? = some g)
    (hr : g.registered = true) (hc : Covers net g.names i) (fuel : ℕ) :
    call st i (fuel + 2) (st.mods i).fwd =
      some (if g.enabled then (if g.live then .captured m (idxAt net g.names i) else .notFound) else .own) := by
  have hI := inv_exec inv_init hf h
  have e := hI.on m g.names i ⟨g, hm, hr, rfl⟩ hc
  rw [e]
  simp only [call, hm, e]
  split <;> rfl

/-- C67: the slot in which an active manager captures the gradient of a layer is the last position of the layer's name in the list
the manager was built with. -/
theorem C67_slot {ops : List Op} {st : St} (hf : FairRun net St.init ops) (h : exec net St.init ops = some st) {m i k : ℕ} {g : Mgr}
    (hm : st.mgrs[m]? = some g) (hr : g.registered = true) (he : g.enabled = true) (hv : g.live = true) {name : String}
    (hi : net[i]? = some (name, true)) (hk : g.names[k]? = some name) (hl : ∀ j, k < j → g.names[j]? ≠ some name) (fuel : ℕ) :
    call st i (fuel + 2) (st.mods i).fwd = some (.captured m k) := by
  have hc : Covers net g.names i := by
    simp [Covers, hi, List.mem_of_getElem? hk]
  rw [C67_hooked_call hf h hm hr hc, he, hv]
  simp only [if_true, idxAt, hi, layerIdx, last_idx hk hl]

/-! ### Any history -/

/-- The module's own forward is still reachable, as its forward or as the saved one. -/
def Avail (st : St) (i : ℕ) : Prop := (st.mods i).fwd = .native ∨ (st.mods i).orig = some .native

/-- The call patches module `i`. -/
def Patches (net : Net) (st : St) (i : ℕ) : Op → Prop
  | .new names reg => reg = true ∧ Covers net names i
  | .register m => ∃ g, st.mgrs[m]? = some g ∧ g.registered = false ∧ Covers net g.names i
  | .remove _ => False
  | .setEnabled _ _ => False

/-- A saved forward is present only while the forward is a wrapper. -/
def Wf (st : St) : Prop := ∀ i f, (st.mods i).orig = some f → (st.mods i).fwd ≠ .native

theorem wf_patch {mods : ℕ → ModSt} (m : ℕ) (names : List String)
    (hw : ∀ i f, (mods i).orig = some f → (mods i).fwd ≠ .native) :
    ∀ i f, (patch net m names mods i).orig = some f → (patch net m names mods i).fwd ≠ .native := by
  intro i f h
  by_cases hc : Covers net names i
  · rw [patch_of _ _ _ _ hc]; exact fun e => by cases e
  · rw [patch_not _ _ _ _ hc] at h ⊢; exact hw i f h

theorem wf_step {st st' : St} {op : Op} (hw : Wf st) (h : step net st op = some st') : Wf st' := by
  cases op with
  | new names reg =>
    simp only [step, Option.some.injEq] at h
    subst h
    unfold construct
    cases reg with
    | false => exact hw
    | true => exact wf_patch _ _ hw
  | register m =>
    simp only [step, Option.map_eq_some_iff] at h
    obtain ⟨g, hg, rfl⟩ := h
    unfold register
    split
    · exact hw
    · exact wf_patch _ _ hw
  | remove m =>
    simp only [step, Option.map_eq_some_iff] at h
    obtain ⟨g, hg, rfl⟩ := h
    intro i f
    show (unpatch net g st.mods i).orig = some f → _
    rcases unpatch_cases (net := net) g st.mods i with e | ⟨f', _, e⟩
    · show _ → (unpatch net g st.mods i).fwd ≠ _
      rw [e]; exact hw i f
    · rw [e]; intro h; cases h
  | setEnabled m b =>
    simp only [step, Option.map_eq_some_iff] at h
    obtain ⟨g, hg, rfl⟩ := h
    exact hw

theorem avail_patch {st : St} (m : ℕ) (names : List String) (mgrs : List Mgr) (i : ℕ) :
    Avail ⟨patch net m names st.mods, mgrs⟩ i ↔
      Avail st i ∧ ¬ (Covers net names i ∧ (st.mods i).fwd ≠ .native) := by
  unfold Avail
  by_cases hc : Covers net names i
  · show ((patch net m names st.mods i).fwd = _ ∨ (patch net m names st.mods i).orig = _) ↔ _
    rw [patch_of _ _ _ _ hc]
    simp only [Option.some.injEq, hc, true_and, ne_eq, not_not]
    constructor
    · rintro (h | h)
      · cases h
      · exact ⟨Or.inl h, h⟩
    · rintro ⟨_, h⟩; exact Or.inr h
  · show ((patch net m names st.mods i).fwd = _ ∨ (patch net m names st.mods i).orig = _) ↔ _
    rw [patch_not _ _ _ _ hc]
    simp [hc]

theorem avail_step {st st' : St} {op : Op} (hw : Wf st) (h : step net st op = some st') (i : ℕ) :
    Avail st' i ↔ Avail st i ∧ ¬ (Patches net st i op ∧ (st.mods i).fwd ≠ .native) := by
  cases op with
  | new names reg =>
    simp only [step, Option.some.injEq] at h
    subst h
    unfold construct
    cases reg with
    | false => simp [Patches, Avail]
    | true =>
      simp only [if_true, register, Mgr.fresh, Bool.false_eq_true, if_false, Patches, true_and]
      exact avail_patch (st := { st with mgrs := st.mgrs ++ [Mgr.fresh names] }) _ _ _ _
  | register m =>
    simp only [step, Option.map_eq_some_iff] at h
    obtain ⟨g, hg, rfl⟩ := h
    unfold register
    split
    · rename_i hr
      have : ¬ Patches net st i (.register m) := by
        rintro ⟨g', h1, h2, _⟩
        rw [hg] at h1; cases h1
        rw [hr] at h2; cases h2
      simp [this]
    · rename_i hr
      rw [avail_patch]
      have : Patches net st i (.register m) ↔ Covers net g.names i := by
        constructor
        · rintro ⟨g', h1, _, h3⟩
          rw [hg] at h1; cases h1; exact h3
        · intro h3
          exact ⟨g, hg, by simpa using hr, h3⟩
      rw [this]
  | remove m =>
    simp only [step, Option.map_eq_some_iff] at h
    obtain ⟨g, hg, rfl⟩ := h
    simp only [Patches, false_and, not_false_eq_true, and_true]
    unfold Avail
    show ((unpatch net g st.mods i).fwd = _ ∨ (unpatch net g st.mods i).orig = _) ↔ _
    rcases unpatch_cases (net := net) g st.mods i with e | ⟨f, hf, e⟩
    · rw [e]
    · rw [e, hf]
      have := hw i f hf
      simp [this]
  | setEnabled m b =>
    simp only [step, Option.map_eq_some_iff] at h
    obtain ⟨g, hg, rfl⟩ := h
    simp [Patches, Avail]

/-- Some call of the history patches module `i` while it is patched already. -/
def Repatched (net : Net) (i : ℕ) : St → List Op → Prop
  | _, [] => False
  | st, op :: ops => (Patches net st i op ∧ (st.mods i).fwd ≠ .native) ∨
      ∃ st', step net st op = some st' ∧ Repatched net i st' ops

theorem avail_exec {i : ℕ} {ops : List Op} : ∀ {st st' : St}, Wf st → exec net st ops = some st' →
    (Avail st' i ↔ Avail st i ∧ ¬ Repatched net i st ops) := by
  induction ops with
  | nil => intro st st' _ h; cases h; simp [Repatched]
  | cons op ops ih =>
    intro st st' hw h
    obtain ⟨st1, h1, h2⟩ := exec_cons.1 h
    rw [ih (wf_step hw h1) h2, avail_step hw h1]
    simp only [Repatched, h1, Option.some.injEq, exists_eq_left', not_or, and_assoc]

/-- C67, all histories: a module's own forward is lost exactly when it was patched at a moment when it
already was patched, whatever else the history does. -/
theorem C67_lost_iff {ops : List Op} {st : St} (h : exec net St.init ops = some st) (i : ℕ) :
    Avail st i ↔ ¬ Repatched net i St.init ops := by
  rw [avail_exec (i := i) (by intro i f h; cases h) h]
  exact and_iff_right (Or.inl rfl)

/-- C67: once it is lost no sequence of calls brings it back; the forward stays some manager's wrapper. -/
theorem C67_lost_for_ever {pre ops : List Op} {st st' : St} (h : exec net St.init pre = some st) {i : ℕ}
    (hl : ¬ Avail st i) (h' : exec net st ops = some st') : ∃ m idx, (st'.mods i).fwd = .wrap m idx := by
  have hw : Wf st := by
    clear hl h'
    have : ∀ (ops : List Op) (s s' : St), Wf s → exec net s ops = some s' → Wf s' := by
      intro ops
      induction ops with
      | nil => intro s s' hw h; cases h; exact hw
      | cons op ops ih =>
        intro s s' hw h
        obtain ⟨s1, h1, h2⟩ := exec_cons.1 h
        exact ih _ _ (wf_step hw h1) h2
    exact this _ _ _ (by intro i f h; cases h) h
  have : ¬ Avail st' i := fun ha => hl ((avail_exec hw h').1 ha).1
  cases e : (st'.mods i).fwd with
  | native => exact absurd (Or.inl e) this
  | wrap m idx => exact ⟨m, idx, rfl⟩

/-! ### Overlapping sessions -/

/-- Two managers opened one after the other. -/
def opened (a b : List String) : List Op := [.new a true, .new b true]

theorem opened_mods (a b : List String) {st : St} (h : exec net St.init (opened a b) = some st) :
    (∀ i, Covers net a i → Covers net b i →
      st.mods i = ⟨.wrap 1 (idxAt net b i), some (.wrap 0 (idxAt net a i))⟩) ∧
    st.mgrs = [⟨a, true, true, true, true⟩, ⟨b, true, true, true, true⟩] := by
  simp only [opened, exec, List.foldlM_cons, List.foldlM_nil, step, construct, register, Mgr.fresh, St.init,
    Option.bind_eq_bind, Option.bind_some, pure, Option.some.injEq, if_true, Bool.false_eq_true, if_false,
    List.nil_append, List.length_nil, List.set_cons_zero, List.length_cons, List.cons_append,
    List.set_cons_succ] at h
  subst h
  refine ⟨fun i ha hb => ?_, rfl⟩
  show patch net 1 b (patch net 0 a _) i = _
  rw [patch_of _ _ _ _ hb, patch_of _ _ _ _ ha]

/-- C67, overlapping sessions: if two managers that share a linear layer are both opened before one of them
is removed, then after removing both, in either order, that layer still carries the first manager's
wrapper, and calling it raises because this manager is no longer registered. -/
theorem C67_overlap (a b : List String) {i : ℕ} (ha : Covers net a i) (hb : Covers net b i)
    {rem : List Op} (hrem : rem = [.remove 0, .remove 1] ∨ rem = [.remove 1, .remove 0]) {st : St}
    (h : exec net St.init (opened a b ++ rem) = some st) :
    st.mods i = ⟨.wrap 0 (idxAt net a i), none⟩ ∧ (∀ m names, ¬ Registered st m names) ∧
      ∀ fuel, call st i (fuel + 1) (st.mods i).fwd = some .notFound := by
  unfold exec at h
  rw [List.foldlM_append] at h
  cases hs : exec net St.init (opened a b) with
  | none =>
    unfold exec at hs; rw [hs] at h; cases h
  | some s0 =>
    obtain ⟨hm, hg⟩ := opened_mods a b hs
    unfold exec at hs
    rw [hs] at h
    have e0 := hm i ha hb
    have f0 : ∀ g : Mgr, g.filled = true → Covers net g.names i →
        unpatch net g s0.mods i = ⟨.wrap 0 (idxAt net a i), none⟩ :=
      fun g hf hc => unpatch_covered g s0.mods i _ hf hc (by rw [e0])
    have key : st.mods i = ⟨.wrap 0 (idxAt net a i), none⟩ ∧
        st.mgrs = [⟨a, true, false, true, false⟩, ⟨b, true, false, true, false⟩] := by
      rcases hrem with rfl | rfl
      · simp only [List.foldlM_cons, List.foldlM_nil, step, remove, hg, Option.bind_eq_bind, Option.bind_some,
          pure, Option.some.injEq, List.getElem?_cons_zero, List.getElem?_cons_succ, Option.map_some,
          List.set_cons_zero, List.set_cons_succ] at h
        subst h
        refine ⟨?_, rfl⟩
        show unpatch net _ (unpatch net _ s0.mods) i = _
        have := f0 ⟨a, true, true, true, true⟩ rfl ha
        rw [unpatch_none _ _ _ (by rw [this]), this]
      · simp only [List.foldlM_cons, List.foldlM_nil, step, remove, hg, Option.bind_eq_bind, Option.bind_some,
          pure, Option.some.injEq, List.getElem?_cons_zero, List.getElem?_cons_succ, Option.map_some,
          List.set_cons_zero, List.set_cons_succ] at h
        subst h
        refine ⟨?_, rfl⟩
        show unpatch net _ (unpatch net _ s0.mods) i = _
        have := f0 ⟨b, true, true, true, true⟩ rfl hb
        rw [unpatch_none _ _ _ (by rw [this]), this]
    refine ⟨key.1, ?_, ?_⟩
    · rintro m names ⟨g, h1, h2, _⟩
      rw [key.2] at h1
      match m, h1 with
      | 0, h1 => cases h1; cases h2
      | 1, h1 => cases h1; cases h2
      | k + 2, h1 => cases h1
    · intro fuel
      rw [key.1]
      simp only [call, key.2, List.getElem?_cons_zero, if_true]
      rfl

/-- C67: with both managers disabled, calling the shared layer never returns: the wrapper calls the saved
forward, which is a wrapper that calls the saved forward. -/
theorem C67_recursion (a b : List String) {i : ℕ} (ha : Covers net a i) (hb : Covers net b i) {st : St}
    (h : exec net St.init (opened a b ++ [.setEnabled 0 false, .setEnabled 1 false]) = some st) (fuel : ℕ) :
    call st i fuel (st.mods i).fwd = none := by
  unfold exec at h
  rw [List.foldlM_append] at h
  cases hs : exec net St.init (opened a b) with
  | none => unfold exec at hs; rw [hs] at h; cases h
  | some s0 =>
    obtain ⟨hm, hg⟩ := opened_mods a b hs
    unfold exec at hs
    rw [hs] at h
    have e0 := hm i ha hb
    simp only [List.foldlM_cons, List.foldlM_nil, step, hg, Option.bind_eq_bind, Option.bind_some,
      pure, Option.some.injEq, List.getElem?_cons_zero, List.getElem?_cons_succ, Option.map_some,
      List.set_cons_zero, List.set_cons_succ] at h
    subst h
    have key : ∀ (fuel m idx : ℕ), m = 0 ∨ m = 1 →
        call ⟨s0.mods, [⟨a, true, true, false, true⟩, ⟨b, true, true, false, true⟩]⟩ i fuel (.wrap m idx) =
          none := by
      intro fuel
      induction fuel with
      | zero => intros; rfl
      | succ n ih =>
        rintro m idx (rfl | rfl)
        · simp only [call, List.getElem?_cons_zero, e0, Bool.false_eq_true, if_false]
          exact ih 0 _ (Or.inl rfl)
        · simp only [call, List.getElem?_cons_zero, List.getElem?_cons_succ, e0, Bool.false_eq_true, if_false]
          exact ih 0 _ (Or.inl rfl)
    show call _ i fuel (s0.mods i).fwd = none
    rw [e0]
    exact key fuel 1 _ (Or.inr rfl)

/-- C67: removing a manager a second time takes away the hooks of a manager registered since. -/
theorem C67_double_remove (a b : List String) {i : ℕ} (ha : Covers net a i) (hb : Covers net b i) {st : St}
    (h : exec net St.init [.new a true, .remove 0, .new b true, .remove 0] = some st) :
    Registered st 1 b ∧ st.mods i = ⟨.native, none⟩ := by
  simp only [exec, List.foldlM_cons, List.foldlM_nil, step, construct, register, remove, Mgr.fresh, St.init,
    Option.bind_eq_bind, Option.bind_some, pure, Option.some.injEq, if_true, Bool.false_eq_true, if_false,
    List.nil_append, List.length_nil, List.set_cons_zero, List.length_cons, List.cons_append,
    List.set_cons_succ, List.getElem?_cons_zero, Option.map_some] at h
  subst h
  refine ⟨⟨_, rfl, rfl, rfl⟩, ?_⟩
  show unpatch net _ (patch net 1 b (unpatch net _ (patch net 0 a _))) i = _
  have e1 : patch net 0 a (fun _ => (⟨.native, none⟩ : ModSt)) i = ⟨.wrap 0 (idxAt net a i), some .native⟩ := by
    rw [patch_of _ _ _ _ ha]
  have e2 : unpatch net ⟨a, true, true, true, true⟩ (patch net 0 a fun _ => (⟨.native, none⟩ : ModSt)) i =
      ⟨.native, none⟩ := unpatch_covered _ _ _ _ rfl ha (by rw [e1])
  refine unpatch_covered _ _ _ .native rfl ha ?_
  rw [patch_of _ _ _ _ hb, e2]

/-! ### Sessions one after the other -/

/-- Sessions that do not overlap: each manager is removed before the next one is created; `k` managers
exist already. -/
def sessions : ℕ → List (List String) → List Op
  | _, [] => []
  | k, a :: r => .new a true :: .remove k :: sessions (k + 1) r

theorem sessions_fair : ∀ (l : List (List String)) (st : St), (∀ m names, ¬ Registered st m names) →
    FairRun net st (sessions st.mgrs.length l) ∧
      ∃ st', exec net st (sessions st.mgrs.length l) = some st' ∧ ∀ m names, ¬ Registered st' m names := by
  intro l
  induction l with
  | nil => intro st h; exact ⟨trivial, st, rfl, h⟩
  | cons a r ih =>
    intro st h
    -- the state with the session open
    let g : Mgr := ⟨a, true, true, true, true⟩
    let s1 : St := ⟨patch net st.mgrs.length a st.mods, st.mgrs ++ [g]⟩
    have e1 : step net st (.new a true) = some s1 := by
      simp [step, construct, register, Mgr.fresh, s1, g]
    have hg : s1.mgrs[st.mgrs.length]? = some g := getElem?_append_new _ _
    let s2 : St := remove net s1 st.mgrs.length g
    have e2 : step net s1 (.remove st.mgrs.length) = some s2 := by
      simp [step, hg, s2]
    have l2 : s2.mgrs.length = st.mgrs.length + 1 := by simp [s2, remove, s1]
    have only : ∀ m names, Registered s1 m names → m = st.mgrs.length := by
      rintro m names ⟨g', h1, h2, h3⟩
      by_contra hne
      apply h m names
      refine ⟨g', ?_, h2, h3⟩
      have h1' : (st.mgrs ++ [g])[m]? = some g' := h1
      rw [List.getElem?_append] at h1'
      split at h1'
      · exact h1'
      · rename_i hl
        cases hk : m - st.mgrs.length with
        | zero => omega
        | succ k => rw [hk] at h1'; cases h1'
    have n2 : ∀ m names, ¬ Registered s2 m names := by
      rintro m names ⟨g', h1, h2, h3⟩
      rcases getElem?_set_cases h1 with ⟨_, e, _⟩ | ⟨hne, e⟩
      · subst e; cases h2
      · exact hne (only m names ⟨g', e, h2, h3⟩)
    obtain ⟨f3, s3, e3, n3⟩ := ih s2 n2
    rw [l2] at f3 e3
    refine ⟨⟨?_, ?_⟩, s3, exec_cons.2 ⟨s1, e1, exec_cons.2 ⟨s2, e2, e3⟩⟩, n3⟩
    · intro _ m' names' _ hr
      exact absurd hr (h m' names')
    · intro s1' hs1
      rw [e1] at hs1; cases hs1
      refine ⟨?_, ?_⟩
      · intro g' _ m' names' hne hr
        exact absurd (only _ _ hr) hne
      · intro s2' hs2
        rw [e2] at hs2; cases hs2
        exact f3

/-- C67, bracketed sessions: after any number of sessions, each closed before the next is opened, every
module is as it was and runs its own forward. -/
theorem C67_sequential (l : List (List String)) :
    ∃ st, exec net St.init (sessions 0 l) = some st ∧
      ∀ i, st.mods i = ⟨.native, none⟩ ∧ ∀ fuel, call st i (fuel + 1) (st.mods i).fwd = some .own := by
  have hn : ∀ m names, ¬ Registered St.init m names := by
    rintro m names ⟨g, h, _⟩; simp [St.init] at h
  obtain ⟨hf, st, h, hc⟩ := sessions_fair (net := net) l St.init hn
  exact ⟨st, h, fun i => ⟨(C67_all_closed hf h hc i 0).1, fun fuel => (C67_all_closed hf h hc i fuel).2⟩⟩

/-- A model with two linear layers and an activation: the hypotheses of the theorems on overlapping
sessions hold for the layer `fc1`. -/
example : let net : Net := [("", false), ("fc1", true), ("relu", false), ("fc2", true)]
    Covers net ["fc1", "fc2"] 1 ∧ Covers net ["relu", "fc1"] 1 ∧
      (∃ st, exec net St.init (opened ["fc1", "fc2"] ["relu", "fc1"] ++ [.remove 0, .remove 1]) = some st ∧
        st.mods 1 = ⟨.wrap 0 0, none⟩ ∧ st.mods 3 = ⟨.native, none⟩) := by
  refine ⟨⟨"fc1", rfl, by decide⟩, ⟨"fc1", rfl, by decide⟩, _, rfl, by decide, by decide⟩

/-- A fair history with two managers open at the same time on different layers: the second is removed
while the first stays. -/
example : let net : Net := [("fc1", true), ("fc2", true)]
    FairRun net St.init [.new ["fc1"] true, .new ["fc2"] true, .remove 1] ∧
      ∃ st, exec net St.init [.new ["fc1"] true, .new ["fc2"] true, .remove 1] = some st ∧
        Registered st 0 ["fc1"] ∧ st.mods 1 = ⟨.native, none⟩ := by
  intro net
  have c1 : ∀ i, Covers net ["fc1"] i → i = 0 := by
    rintro i ⟨name, h, hm⟩
    match i, h with
    | 0, _ => rfl
    | 1, h => simp only [net, List.getElem?_cons_succ, List.getElem?_cons_zero, Option.some.injEq,
        Prod.mk.injEq, and_true] at h; subst h; simp at hm
    | k + 2, h => simp [net] at h
  have c2 : ∀ i, Covers net ["fc2"] i → i = 1 := by
    rintro i ⟨name, h, hm⟩
    match i, h with
    | 0, h => simp only [net, List.getElem?_cons_zero, Option.some.injEq,
        Prod.mk.injEq, and_true] at h; subst h; simp at hm
    | 1, _ => rfl
    | k + 2, h => simp [net] at h
  refine ⟨⟨?_, ?_⟩, _, rfl, ⟨_, rfl, rfl, rfl⟩, by decide⟩
  · rintro _ m names _ ⟨g, h, _⟩; simp [St.init] at h
  · intro s1 h1
    cases h1
    refine ⟨?_, ?_⟩
    · rintro _ m names _ ⟨g, h, _, hn⟩ i hc hc'
      match m, h with
      | 0, h =>
        cases h
        rw [← hn] at hc'
        have := c2 i hc; have := c1 i hc'; omega
      | k + 1, h => cases h
    · intro s2 h2
      cases h2
      refine ⟨?_, fun _ _ => trivial⟩
      rintro g0 hg0 m names hne ⟨g, h, _, hn⟩ i hc hc'
      cases hg0
      match m, h with
      | 0, h =>
        cases h
        rw [← hn] at hc'
        have := c2 i hc; have := c1 i hc'; omega
      | 1, h => exact hne rfl
      | k + 2, h => cases h

end Verif.Hook
