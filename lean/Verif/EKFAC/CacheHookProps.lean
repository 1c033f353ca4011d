import Verif.EKFAC.CacheProps

/-!
# C216: hooks of the EK-FAC attributor after calls that raised
-/

namespace Verif.EkCache

open Verif.EKFAC

variable {R : Type}

/-! ## Lemmas -/

/-- Hooks sit on modules their owners asked for. -/
def Valid (S : Setup) (hooks : List Hook) : Prop := ∀ h ∈ hooks, ∃ s ∈ S.names h.owner, S.modOf s = h.module_

theorem nameOf_some (S : Setup) (a m : ℕ) (h : ∃ s ∈ S.names a, S.modOf s = m) : ∃ nm, S.nameOf a m = some nm ∧ S.modOf nm = m := by
  obtain ⟨s, hs, hm⟩ := h
  unfold Setup.nameOf
  cases hf : (S.names a).reverse.find? fun s => decide (S.modOf s = m) with
  | some nm => exact ⟨nm, rfl, by simpa using List.find?_some hf⟩
  | none =>
    rw [List.find?_eq_none] at hf
    exact absurd (by simpa using hm) (hf s (by simpa using hs))

theorem nameOf_mod (S : Setup) (a m : ℕ) (nm : String) (h : S.nameOf a m = some nm) : S.modOf nm = m ∧ nm ∈ S.names a := by
  unfold Setup.nameOf at h
  exact ⟨by simpa using List.find?_some h, by simpa using List.mem_of_find?_eq_some h⟩

theorem set_set (nm : String) (r : Rec R) (c : Cache R) : PyDict.set nm r (PyDict.set nm r c) = PyDict.set nm r c := by
  induction c with
  | nil => simp [PyDict.set]
  | cons e l ih =>
    obtain ⟨k, v⟩ := e
    by_cases h : k = nm
    · simp [PyDict.set, h]
    · simp [PyDict.set, h, ih]

/-- The effect of all hooks of one module call on the cache of one owner. -/
theorem fire_all (S : Setup) (m : ℕ) (r : Rec R) (hooks : List Hook) (hv : Valid S hooks) (caches : ℕ → Cache R) :
    ∃ c, hooks.foldlM (fireHook S true m r) caches = .ok c ∧ ∀ a, c a =
      if ∃ h ∈ hooks, h.module_ = m ∧ h.owner = a then (match S.nameOf a m with | some nm => PyDict.set nm r (caches a) | none => caches a) else caches a := by
  induction hooks generalizing caches with
  | nil => exact ⟨caches, rfl, fun a => by simp⟩
  | cons h l ih =>
    rw [List.foldlM_cons]
    by_cases hm : h.module_ = m
    · obtain ⟨nm, hnm, -⟩ := nameOf_some S h.owner m (hm ▸ hv h (by simp))
      have hf : fireHook S true m r caches h = .ok fun o => if o = h.owner then PyDict.set nm r (caches o) else caches o := by
        unfold fireHook
        rw [if_neg (not_not.2 hm), if_neg (by simp), hnm]
      obtain ⟨c, h1, h2⟩ := ih (fun x hx => hv x (by simp [hx])) (fun o => if o = h.owner then PyDict.set nm r (caches o) else caches o)
      refine ⟨c, by rw [hf]; exact h1, fun a => ?_⟩
      rw [h2 a]
      by_cases ha : h.owner = a
      · subst ha
        rw [if_pos (⟨h, by simp, hm, rfl⟩ : ∃ h' ∈ h :: l, h'.module_ = m ∧ h'.owner = h.owner), hnm]
        by_cases hl : ∃ h' ∈ l, h'.module_ = m ∧ h'.owner = h.owner
        · rw [if_pos hl]
          simp [set_set]
        · rw [if_neg hl]
          simp
      · rw [if_neg (Ne.symm ha)]
        by_cases hl : ∃ h' ∈ l, h'.module_ = m ∧ h'.owner = a
        · obtain ⟨x, hx, hxm⟩ := hl
          rw [if_pos ⟨x, hx, hxm⟩, if_pos ⟨x, by simp [hx], hxm⟩]
        · rw [if_neg hl, if_neg]
          rintro ⟨x, hx, hxm⟩
          rcases List.mem_cons.1 hx with rfl | hx
          · exact ha hxm.2
          · exact hl ⟨x, hx, hxm⟩
    · have hf : fireHook S true m r caches h = .ok caches := by
        unfold fireHook
        rw [if_pos hm]
      obtain ⟨c, h1, h2⟩ := ih (fun x hx => hv x (by simp [hx])) caches
      refine ⟨c, by rw [hf]; exact h1, fun a => ?_⟩
      rw [h2 a]
      have : (∃ h' ∈ h :: l, h'.module_ = m ∧ h'.owner = a) ↔ ∃ h' ∈ l, h'.module_ = m ∧ h'.owner = a := by
        constructor
        · rintro ⟨x, hx, hxm⟩
          rcases List.mem_cons.1 hx with rfl | hx
          · exact absurd hxm.1 hm
          · exact ⟨x, hx, hxm⟩
        · rintro ⟨x, hx, hxm⟩
          exact ⟨x, by simp [hx], hxm⟩
      simp only [this]

/-- Specification: what owner `a` records of a forward pass. -/
def seenBy (S : Setup) (a : ℕ) (run : List (ℕ × Rec R)) : List (String × Rec R) := run.filterMap fun x => (S.nameOf a x.1).map fun nm => (nm, x.2)

theorem forward_grad (S : Setup) (hooks : List Hook) (hv : Valid S hooks) (run : List (ℕ × Rec R)) (caches : ℕ → Cache R) :
    ∃ c, forward S true hooks caches run = .ok c ∧ (∀ a, (∀ s ∈ S.names a, ∃ h ∈ hooks, h.module_ = S.modOf s ∧ h.owner = a) →
      c a = fill (caches a) (seenBy S a run)) ∧
      (∀ a nm, nm ∈ PyDict.keys (c a) → nm ∈ PyDict.keys (caches a) ∨ ∃ m, S.nameOf a m = some nm) := by
  induction run generalizing caches with
  | nil => exact ⟨caches, rfl, fun a _ => rfl, fun a nm h => Or.inl h⟩
  | cons x l ih =>
    obtain ⟨c1, h1, h2⟩ := fire_all S x.1 x.2 hooks hv caches
    obtain ⟨c, h3, h4, h5⟩ := ih c1
    refine ⟨c, ?_, fun a ha => ?_, fun a nm hnm => ?_⟩
    · unfold forward at h3 ⊢
      rw [List.foldlM_cons, h1]
      exact h3
    · rw [h4 a ha, h2 a]
      unfold seenBy
      cases hn : S.nameOf a x.1 with
      | none =>
        simp [hn]
      | some nm =>
        obtain ⟨hm, hmem⟩ := nameOf_mod S a x.1 nm hn
        obtain ⟨h, hh, hhm, hho⟩ := ha nm hmem
        rw [if_pos ⟨h, hh, by rw [hhm, hm], hho⟩]
        simp [hn, fill]
    · rcases h5 a nm hnm with h | h
      · rw [h2 a] at h
        split_ifs at h with hex
        · cases hn : S.nameOf a x.1 with
          | none => rw [hn] at h; exact Or.inl h
          | some nm' =>
            rw [hn] at h
            rcases (PyDict.mem_keys_set _ _ _ _).1 h with rfl | h
            · exact Or.inr ⟨x.1, hn⟩
            · exact Or.inl h
        · exact Or.inl h
      · exact Or.inr h

theorem runs_grad (S : Setup) (hooks : List Hook) (hv : Valid S hooks) (runs : List (List (ℕ × Rec R))) (caches : ℕ → Cache R) :
    ∃ c, runs.foldlM (fun c run => forward S true hooks c run) caches = .ok c ∧
      (∀ a, (∀ s ∈ S.names a, ∃ h ∈ hooks, h.module_ = S.modOf s ∧ h.owner = a) → c a = runs.foldl (fun c run => fill c (seenBy S a run)) (caches a)) ∧
      (∀ a nm, nm ∈ PyDict.keys (c a) → nm ∈ PyDict.keys (caches a) ∨ ∃ m, S.nameOf a m = some nm) := by
  induction runs generalizing caches with
  | nil => exact ⟨caches, rfl, fun a _ => rfl, fun a nm h => Or.inl h⟩
  | cons x l ih =>
    obtain ⟨c1, h1, h2, h3⟩ := forward_grad S hooks hv x caches
    obtain ⟨c, h4, h5, h6⟩ := ih c1
    refine ⟨c, ?_, fun a ha => ?_, fun a nm hnm => ?_⟩
    · rw [List.foldlM_cons, h1]
      exact h4
    · rw [h5 a ha, h2 a ha, List.foldl_cons]
    · rcases h6 a nm hnm with h | h
      · exact h3 a nm h
      · exact Or.inr h

theorem valid_new (S : Setup) (k a : ℕ) : Valid S (newHooks S k a) := by
  intro h hh
  obtain ⟨s, hs, rfl⟩ := List.mem_map.1 hh
  exact ⟨s, hs, rfl⟩

theorem valid_append (S : Setup) (l l' : List Hook) (h : Valid S l) (h' : Valid S l') : Valid S (l ++ l') := by
  intro x hx
  rcases List.mem_append.1 hx with hx | hx
  · exact h x hx
  · exact h' x hx

/-- Specification: the hooks that failed calls leave, as pairs of module and attributor. -/
def left (S : Setup) : List (Op R) → List (ℕ × ℕ)
  | [] => []
  | .cache a _ false :: l => (S.names a).map (fun s => (S.modOf s, a)) ++ left S l
  | _ :: l => left S l

theorem left_append (S : Setup) (l l' : List (Op R)) : left S (l ++ l') = left S l ++ left S l' := by
  induction l with
  | nil => rfl
  | cons o l ih =>
    cases o with
    | cache a runs ok =>
      cases ok
      · simp [left, ih]
      · simp [left, ih]
    | outside rg run => simp [left, ih]

theorem exec_inv (S : Setup) (ops : List (Op R)) : (exec S ops).hooks.map (fun h => (h.module_, h.owner)) = left S ops ∧
    (∀ h ∈ (exec S ops).hooks, h.call < (exec S ops).calls) ∧ Valid S (exec S ops).hooks ∧
    ∀ a nm, nm ∈ PyDict.keys ((exec S ops).caches a) → ∃ m, S.nameOf a m = some nm := by
  induction ops using List.reverseRecOn with
  | nil => exact ⟨rfl, by simp [exec], by simp [exec, Valid], by simp [exec, PyDict.keys]⟩
  | append_singleton ops o ih =>
    obtain ⟨i1, i2, i3, i4⟩ := ih
    have he : exec S (ops ++ [o]) = (step S (exec S ops) o).1 := by
      unfold exec
      rw [List.foldl_append]
      rfl
    rw [he, left_append]
    cases o with
    | outside rg run =>
      simp only [step, left, List.append_nil]
      cases rg with
      | true =>
        obtain ⟨c, h1, -, h3⟩ := forward_grad S (exec S ops).hooks i3 run (exec S ops).caches
        rw [h1]
        refine ⟨i1, i2, i3, fun a nm h => ?_⟩
        rcases h3 a nm h with h | h
        · exact i4 a nm h
        · exact h
      | false =>
        cases hf : forward S false (exec S ops).hooks (exec S ops).caches run with
        | error e => exact ⟨i1, i2, i3, i4⟩
        | ok c =>
          have hc : c = (exec S ops).caches := by
            have hone : ∀ (m : ℕ) (r : Rec R) (hooks : List Hook) (c c' : ℕ → Cache R), hooks.foldlM (fireHook S false m r) c = .ok c' → c' = c := by
              intro m r hooks
              induction hooks with
              | nil => intro c c' h; simpa [pure, Except.pure] using h.symm
              | cons h l ih2 =>
                intro c c' hh
                rw [List.foldlM_cons] at hh
                by_cases hm : h.module_ ≠ m
                · have : fireHook S false m r c h = .ok c := by
                    unfold fireHook
                    rw [if_pos hm]
                  rw [this] at hh
                  exact ih2 c c' hh
                · have : fireHook S false m r c h = .error .runtimeError := by
                    unfold fireHook
                    rw [if_neg hm, if_pos rfl]
                  rw [this] at hh
                  exact Except.noConfusion rfl rfl (heq_of_eq hh)
            have hall : ∀ (run : List (ℕ × Rec R)) (c c' : ℕ → Cache R), forward S false (exec S ops).hooks c run = .ok c' → c' = c := by
              intro run
              induction run with
              | nil => intro c c' h; simpa [forward, pure, Except.pure] using h.symm
              | cons x l ih2 =>
                intro c c' hh
                unfold forward at hh ih2
                rw [List.foldlM_cons] at hh
                cases hx : (exec S ops).hooks.foldlM (fireHook S false x.1 x.2) c with
                | error e =>
                  rw [hx] at hh
                  exact Except.noConfusion rfl rfl (heq_of_eq hh)
                | ok c1 =>
                  rw [hx] at hh
                  rw [ih2 c1 c' hh, hone _ _ _ _ _ hx]
            exact hall run _ _ hf
          subst hc
          exact ⟨i1, i2, i3, i4⟩
    | cache owner runs ok =>
      have hv : Valid S ((exec S ops).hooks ++ newHooks S (exec S ops).calls owner) := valid_append S _ _ i3 (valid_new S _ _)
      obtain ⟨c, h1, -, h3⟩ := runs_grad S _ hv runs (exec S ops).caches
      simp only [step, h1]
      have h4 : ∀ a nm, nm ∈ PyDict.keys (c a) → ∃ m, S.nameOf a m = some nm := by
        intro a nm h
        rcases h3 a nm h with h | h
        · exact i4 a nm h
        · exact h
      cases ok with
      | false =>
        simp only [Bool.false_eq_true, if_false, left, List.append_nil]
        refine ⟨?_, ?_, hv, h4⟩
        · rw [List.map_append, i1]
          simp [newHooks]
        · intro h hh
          rcases List.mem_append.1 hh with hh | hh
          · exact Nat.lt_succ_of_lt (i2 h hh)
          · obtain ⟨s, -, rfl⟩ := List.mem_map.1 hh
            exact Nat.lt_succ_self _
      | true =>
        have hfil : ((exec S ops).hooks ++ newHooks S (exec S ops).calls owner).filter (fun h => h.call ≠ (exec S ops).calls) = (exec S ops).hooks := by
          rw [List.filter_append, List.filter_eq_self.2, List.filter_eq_nil_iff.2, List.append_nil]
          · intro h hh
            obtain ⟨s, -, rfl⟩ := List.mem_map.1 hh
            simp
          · intro h hh
            have := i2 h hh
            simpa using Nat.ne_of_lt this
        simp only [if_true, hfil, left, List.append_nil]
        exact ⟨i1, fun h hh => Nat.lt_succ_of_lt (i2 h hh), i3, h4⟩

/-! ## Hooks -/

/-- **C216.** After any sequence of calls of `cache()` by any attributors of a model and forward passes, the hooks on the model are exactly those of the calls that
raised, one per requested name. -/
theorem C216_hooks (S : Setup) (ops : List (Op R)) : (exec S ops).hooks.map (fun h => (h.module_, h.owner)) = left S ops := (exec_inv S ops).1

theorem mem_left (S : Setup) (ops : List (Op R)) (m a : ℕ) : (m, a) ∈ left S ops ↔ (∃ runs, Op.cache a runs false ∈ ops) ∧ ∃ s ∈ S.names a, S.modOf s = m := by
  induction ops with
  | nil => simp [left]
  | cons o l ih =>
    cases o with
    | outside rg run => simp [left, ih]
    | cache b runs ok =>
      cases ok with
      | true => simp [left, ih]
      | false =>
        simp only [left, List.mem_append, List.mem_map, Prod.mk.injEq, ih, List.mem_cons, Op.cache.injEq, and_true]
        constructor
        · rintro (⟨s, hs, rfl, rfl⟩ | ⟨⟨r, hr⟩, h⟩)
          · exact ⟨⟨runs, Or.inl ⟨rfl, rfl⟩⟩, s, hs, rfl⟩
          · exact ⟨⟨r, Or.inr hr⟩, h⟩
        · rintro ⟨⟨r, ⟨rfl, rfl⟩ | hr⟩, s, hs, hm⟩
          · exact Or.inl ⟨s, hs, hm, rfl⟩
          · exact Or.inr ⟨⟨r, hr⟩, s, hs, hm⟩

/-- **C216.** A forward pass without gradients (an evaluation under `no_grad`) raises exactly if it applies a module of an attributor one of whose calls of `cache()`
raised; a forward pass with gradients does not raise. -/
theorem C216_evaluation (S : Setup) (ops : List (Op R)) (run : List (ℕ × Rec R)) :
    ((step S (exec S ops) (.outside false run)).2 = some .runtimeError ↔
      ∃ a, (∃ runs, Op.cache a runs false ∈ ops) ∧ ∃ s ∈ S.names a, ∃ x ∈ run, x.1 = S.modOf s) ∧
    ((¬∃ a, (∃ runs, Op.cache a runs false ∈ ops) ∧ ∃ s ∈ S.names a, ∃ x ∈ run, x.1 = S.modOf s) → (step S (exec S ops) (.outside false run)).2 = none) ∧
    (step S (exec S ops) (.outside true run)).2 = none := by
  have hone : ∀ (m : ℕ) (r : Rec R) (hooks : List Hook) (c : ℕ → Cache R),
      hooks.foldlM (fireHook S false m r) c = if ∃ h ∈ hooks, h.module_ = m then .error .runtimeError else .ok c := by
    intro m r hooks
    induction hooks with
    | nil => intro c; simp [pure, Except.pure]
    | cons h l ih =>
      intro c
      rw [List.foldlM_cons]
      by_cases hm : h.module_ = m
      · have : fireHook S false m r c h = .error .runtimeError := by
          unfold fireHook
          rw [if_neg (not_not.2 hm), if_pos rfl]
        rw [this, if_pos ⟨h, by simp, hm⟩]
        rfl
      · have : fireHook S false m r c h = .ok c := by
          unfold fireHook
          rw [if_pos hm]
        rw [this]
        refine (ih c).trans ?_
        have : (∃ h' ∈ h :: l, h'.module_ = m) ↔ ∃ h' ∈ l, h'.module_ = m := by
          constructor
          · rintro ⟨x, hx, hxm⟩
            rcases List.mem_cons.1 hx with rfl | hx
            · exact absurd hxm hm
            · exact ⟨x, hx, hxm⟩
          · rintro ⟨x, hx, hxm⟩
            exact ⟨x, by simp [hx], hxm⟩
        simp only [this]
  have hall : ∀ (run : List (ℕ × Rec R)) (c : ℕ → Cache R), forward S false (exec S ops).hooks c run =
      if ∃ x ∈ run, ∃ h ∈ (exec S ops).hooks, h.module_ = x.1 then .error .runtimeError else .ok c := by
    intro run
    induction run with
    | nil => intro c; simp [forward, pure, Except.pure]
    | cons x l ih =>
      intro c
      unfold forward at ih ⊢
      rw [List.foldlM_cons, hone]
      by_cases hx : ∃ h ∈ (exec S ops).hooks, h.module_ = x.1
      · rw [if_pos hx, if_pos ⟨x, by simp, hx⟩]
        rfl
      · rw [if_neg hx]
        refine (ih c).trans ?_
        have : (∃ y ∈ x :: l, ∃ h ∈ (exec S ops).hooks, h.module_ = y.1) ↔ ∃ y ∈ l, ∃ h ∈ (exec S ops).hooks, h.module_ = y.1 := by
          constructor
          · rintro ⟨y, hy, hh⟩
            rcases List.mem_cons.1 hy with rfl | hy
            · exact absurd hh hx
            · exact ⟨y, hy, hh⟩
          · rintro ⟨y, hy, hh⟩
            exact ⟨y, by simp [hy], hh⟩
        simp only [this]
  have hiff : (∃ x ∈ run, ∃ h ∈ (exec S ops).hooks, h.module_ = x.1) ↔
      ∃ a, (∃ runs, Op.cache a runs false ∈ ops) ∧ ∃ s ∈ S.names a, ∃ x ∈ run, x.1 = S.modOf s := by
    constructor
    · rintro ⟨x, hx, h, hh, hm⟩
      have hmem : (h.module_, h.owner) ∈ left S ops := by
        rw [← C216_hooks]
        exact List.mem_map.2 ⟨h, hh, rfl⟩
      obtain ⟨hr, s, hs, hsm⟩ := (mem_left S ops _ _).1 hmem
      exact ⟨h.owner, hr, s, hs, x, hx, by rw [hsm, hm]⟩
    · rintro ⟨a, hr, s, hs, x, hx, hxm⟩
      have hmem : (S.modOf s, a) ∈ left S ops := (mem_left S ops _ _).2 ⟨hr, s, hs, rfl⟩
      rw [← C216_hooks] at hmem
      obtain ⟨h, hh, he⟩ := List.mem_map.1 hmem
      rw [Prod.mk.injEq] at he
      exact ⟨x, hx, h, hh, by rw [he.1, hxm]⟩
  refine ⟨?_, fun hno => ?_, ?_⟩
  · rw [← hiff]
    simp only [step, hall]
    by_cases h : ∃ x ∈ run, ∃ h ∈ (exec S ops).hooks, h.module_ = x.1
    · rw [if_pos h]
      simp [h]
    · rw [if_neg h]
      simp [h]
  · rw [← hiff] at hno
    simp only [step, hall]
    rw [if_neg hno]
  · obtain ⟨c, h1, -⟩ := forward_grad S (exec S ops).hooks (exec_inv S ops).2.2.1 run (exec S ops).caches
    simp only [step, h1]

/-- **C216.** Hooks left by earlier calls do not change what a later call records: the cache of its attributor holds, for every forward pass, the records of its
own modules under their names, as on a model without other hooks. -/
theorem C216_later_calls (S : Setup) (ops : List (Op R)) (a : ℕ) (runs : List (List (ℕ × Rec R))) (ok : Bool) :
    (exec S (ops ++ [.cache a runs ok])).caches a = runs.foldl (fun c run => fill c (seenBy S a run)) ((exec S ops).caches a) := by
  have he : exec S (ops ++ [.cache a runs ok]) = (step S (exec S ops) (.cache a runs ok)).1 := by
    unfold exec
    rw [List.foldl_append]
    rfl
  have hv : Valid S ((exec S ops).hooks ++ newHooks S (exec S ops).calls a) := valid_append S _ _ (exec_inv S ops).2.2.1 (valid_new S _ _)
  obtain ⟨c, h1, h2, -⟩ := runs_grad S _ hv runs (exec S ops).caches
  rw [he]
  simp only [step, h1]
  refine h2 a fun s hs => ⟨⟨(exec S ops).calls, S.modOf s, a⟩, ?_, rfl, rfl⟩
  exact List.mem_append_right _ (List.mem_map.2 ⟨s, hs, rfl⟩)

/-- **C216.** Of several requested names of one module only the last is ever recorded, so no statistics exist for the others (and `attribute` raises `KeyError`, C184). -/
theorem C216_tied (S : Setup) (ops : List (Op R)) (a : ℕ) (s : String) (h : S.nameOf a (S.modOf s) ≠ some s) : PyDict.get? ((exec S ops).caches a) s = none := by
  rw [PyDict.get?_eq_none]
  intro hs
  obtain ⟨m, hm⟩ := (exec_inv S ops).2.2.2 a s hs
  have := (nameOf_mod S a m s hm).1
  exact h (this ▸ hm)

/-- A model with modules 0 (named twice) and 1; attributor 0 asks for all names, attributor 1 for one. -/
def exSetup : Setup := ⟨fun a => if a = 0 then ["enc", "tied", "dec"] else ["dec"], fun s => if s = "dec" then 1 else 0⟩

example : (exec (R := ℚ) exSetup [.cache 1 [] true, .cache 0 [] false, .cache 0 [] true]).hooks.map (fun h => (h.module_, h.owner)) = [(0, 0), (0, 0), (1, 0)] :=
  C216_hooks exSetup _
example : exSetup.nameOf 0 (exSetup.modOf "enc") ≠ some "enc" := by decide
example : (step (R := ℚ) exSetup (exec exSetup [.cache 0 [] false, .cache 0 [] true]) (.outside false [(1, ⟨[], none⟩)])).2 = some .runtimeError :=
  (C216_evaluation exSetup _ _).1.2 ⟨0, ⟨[], by simp⟩, "dec", by simp [exSetup], _, List.mem_singleton.2 rfl, rfl⟩

end Verif.EkCache
