import Mathlib.Data.List.Induction
import Verif.Hook.SessionModel
import Verif.Hook.Props

/-!
# Hooks across calls of the attributors: properties
-/

namespace Verif.Hook

variable {net : Net} {names : ℕ → List String}

/-- How the last call of attributor `a` that came to its hooks ended. -/
def lastHow (h : List (ℕ × How)) (a : ℕ) : Option How :=
  (h.reverse.find? fun c => c.1 == a && c.2 != .before).map Prod.snd

/-- Different attributors have no linear layer in common. -/
def Separate (net : Net) (names : ℕ → List String) : Prop :=
  ∀ a b, a ≠ b → ∀ i, Covers net (names a) i → ¬ Covers net (names b) i

/-- Invariant for separate attributors. -/
structure Held (net : Net) (names : ℕ → List String) (w : World) : Prop where
  inv : Inv net w.st
  reg : ∀ m ns, Registered w.st m ns → ∃ a, w.hm a = some m ∧ ns = names a
  mgr : ∀ a m, w.hm a = some m → ∃ g : Mgr, w.st.mgrs[m]? = some g ∧ g.enabled = true ∧ g.live = true ∧
    g.registered = true ∧ g.names = names a
  inj : ∀ a b m, w.hm a = some m → w.hm b = some m → a = b

theorem held_init : Held net names World.init := by
  refine ⟨inv_init, ?_, ?_, ?_⟩
  · rintro m ns ⟨g, h, _⟩; simp [World.init, St.init] at h
  · intro a m h; cases h
  · intro a b m h; cases h

theorem construct_eq (st : St) (ns : List String) : construct net st ns true =
    ⟨patch net st.mgrs.length ns st.mods, st.mgrs ++ [⟨ns, true, true, true, true⟩]⟩ := by
  simp [construct, register, Mgr.fresh]

theorem held_ensure {w : World} (hs : Separate net names) (h : Held net names w) (a : ℕ) :
    Held net names ⟨(ensure net names w a).1, Function.update w.hm a (some (ensure net names w a).2)⟩ := by
  unfold ensure
  cases hm : w.hm a with
  | some m =>
    simp only
    have : Function.update w.hm a (some m) = w.hm := by rw [← hm]; exact Function.update_eq_self _ _
    rw [this]; exact h
  | none =>
    simp only
    have hst : step net w.st (.new (names a) true) = some (construct net w.st (names a) true) := rfl
    have fair : Fair net w.st (.new (names a) true) := by
      intro _ m' ns' _ hr i hc hc'
      obtain ⟨b, hb, rfl⟩ := h.reg _ _ hr
      have hne : a ≠ b := by rintro rfl; rw [hm] at hb; cases hb
      exact hs a b hne i hc hc'
    have lt : ∀ b m, w.hm b = some m → m < w.st.mgrs.length := by
      intro b m hb
      obtain ⟨g, hg, _⟩ := h.mgr b m hb
      exact (List.getElem?_eq_some_iff.1 hg).1
    refine ⟨inv_step h.inv fair hst, ?_, ?_, ?_⟩
    · rw [construct_eq]
      rintro m ns ⟨g, hg, hr, hn⟩
      have hg' : (w.st.mgrs ++ [(⟨names a, true, true, true, true⟩ : Mgr)])[m]? = some g := hg
      rw [List.getElem?_append] at hg'
      split at hg'
      · rename_i hl
        obtain ⟨b, hb, e⟩ := h.reg m ns ⟨g, hg', hr, hn⟩
        have hne : b ≠ a := by rintro rfl; rw [hm] at hb; cases hb
        exact ⟨b, (Function.update_of_ne hne _ _).trans hb, e⟩
      · rename_i hl
        cases hk : m - w.st.mgrs.length with
        | zero =>
          rw [hk] at hg'; cases hg'
          exact ⟨a, (Function.update_self _ _ _).trans (by congr 1; omega), hn.symm⟩
        | succ k => rw [hk] at hg'; cases hg'
    · rw [construct_eq]
      intro b m hb
      by_cases e : b = a
      · subst e
        dsimp only at hb; rw [Function.update_self] at hb; cases hb
        exact ⟨_, getElem?_append_new _ _, rfl, rfl, rfl, rfl⟩
      · dsimp only at hb; rw [Function.update_of_ne e] at hb
        obtain ⟨g, hg, r⟩ := h.mgr b m hb
        refine ⟨g, ?_, r⟩
        show (w.st.mgrs ++ [_])[m]? = _
        rw [List.getElem?_append, if_pos (lt b m hb), hg]
    · intro b c m hb hc
      by_cases eb : b = a <;> by_cases ec : c = a
      · rw [eb, ec]
      · subst eb
        dsimp only at hb; rw [Function.update_self] at hb; cases hb
        dsimp only at hc; rw [Function.update_of_ne ec] at hc
        exact absurd (lt c _ hc) (Nat.lt_irrefl _)
      · subst ec
        dsimp only at hc; rw [Function.update_self] at hc; cases hc
        dsimp only at hb; rw [Function.update_of_ne eb] at hb
        exact absurd (lt b _ hb) (Nat.lt_irrefl _)
      · dsimp only at hb; rw [Function.update_of_ne eb] at hb
        dsimp only at hc; rw [Function.update_of_ne ec] at hc
        exact h.inj b c m hb hc

theorem held_remove {w : World} {a m : ℕ} (hs : Separate net names) (h : Held net names w)
    (hm : w.hm a = some m) : Held net names ⟨removeAt net w.st m, Function.update w.hm a none⟩ := by
  obtain ⟨g, hg, r1, r2, r3, r4⟩ := h.mgr a m hm
  have e : removeAt net w.st m = remove net w.st m g := by unfold removeAt; rw [hg]
  rw [e]
  have other : ∀ m' ns', m' ≠ m → Registered w.st m' ns' → ∃ b, b ≠ a ∧ w.hm b = some m' ∧ ns' = names b := by
    intro m' ns' hne hr
    obtain ⟨b, hb, e⟩ := h.reg _ _ hr
    refine ⟨b, ?_, hb, e⟩
    rintro rfl; rw [hm] at hb; cases hb; exact hne rfl
  have fair : Apart net w.st m g.names := by
    intro m' ns' hne hr i hc hc'
    obtain ⟨b, hb, _, rfl⟩ := other m' ns' hne hr
    rw [r4] at hc
    exact hs a b (fun e => hb e.symm) i hc hc'
  refine ⟨inv_remove h.inv hg fair, ?_, ?_, ?_⟩
  · rintro m' ns ⟨g', hg', hr, hn⟩
    rcases getElem?_set_cases hg' with ⟨_, e', _⟩ | ⟨hne, e'⟩
    · subst e'; cases hr
    · obtain ⟨b, hb, hb', e⟩ := other m' ns hne ⟨g', e', hr, hn⟩
      exact ⟨b, (Function.update_of_ne hb _ _).trans hb', e⟩
  · intro b m' hb
    have hne : b ≠ a := by rintro rfl; dsimp only at hb; rw [Function.update_self] at hb; cases hb
    dsimp only at hb; rw [Function.update_of_ne hne] at hb
    obtain ⟨g', hg', r⟩ := h.mgr b m' hb
    refine ⟨g', ?_, r⟩
    have : m' ≠ m := by rintro rfl; exact hne (h.inj b a _ hb hm)
    show (w.st.mgrs.set m _)[m']? = _
    rw [getElem?_set_ne this]; exact hg'
  · intro b c m' hb hc
    have h1 : b ≠ a := by rintro rfl; dsimp only at hb; rw [Function.update_self] at hb; cases hb
    have h2 : c ≠ a := by rintro rfl; dsimp only at hc; rw [Function.update_self] at hc; cases hc
    dsimp only at hb; rw [Function.update_of_ne h1] at hb
    dsimp only at hc; rw [Function.update_of_ne h2] at hc
    exact h.inj b c m' hb hc

theorem held_call {w : World} (hs : Separate net names) (h : Held net names w) (c : ℕ × How) :
    Held net names (w.call net names c) := by
  obtain ⟨a, how⟩ := c
  cases how with
  | before => exact h
  | during => exact held_ensure hs h a
  | past =>
    have h1 := held_ensure hs h a
    have h2 := held_remove hs h1 (a := a) (m := (ensure net names w a).2) (Function.update_self _ _ _)
    simp only [Function.update_idem] at h2
    exact h2

theorem run_held (hs : Separate net names) (h : List (ℕ × How)) :
    Held net names (World.init.run net names h) := by
  induction h using List.reverseRecOn with
  | nil => exact held_init
  | append_singleton h c ih =>
    unfold World.run
    rw [List.foldl_append]
    exact held_call hs ih c

theorem hm_iff (h : List (ℕ × How)) (a : ℕ) :
    ((World.init.run net names h).hm a).isSome ↔ lastHow h a = some .during := by
  induction h using List.reverseRecOn with
  | nil => simp [World.run, World.init, lastHow]
  | append_singleton h c ih =>
    unfold World.run at ih ⊢
    rw [List.foldl_append]
    obtain ⟨b, how⟩ := c
    have skip : ∀ how, b ≠ a → lastHow (h ++ [(b, how)]) a = lastHow h a := by
      intro how hne
      have : (b == a) = false := by simpa using hne
      simp [lastHow, this]
    cases how with
    | before =>
      have : lastHow (h ++ [(b, .before)]) a = lastHow h a := by simp [lastHow]
      rw [this]; exact ih
    | during =>
      simp only [List.foldl_cons, List.foldl_nil, World.call]
      by_cases e : a = b
      · subst e
        rw [Function.update_self]
        simp [lastHow]
      · rw [Function.update_of_ne e, skip _ (fun x => e x.symm)]; exact ih
    | past =>
      simp only [List.foldl_cons, List.foldl_nil, World.call]
      by_cases e : a = b
      · subst e
        rw [Function.update_self]
        simp [lastHow]
      · rw [Function.update_of_ne e, skip _ (fun x => e x.symm)]; exact ih

/-- C101: with attributors that share no layer, after any history of calls a linear layer of attributor `a`
is patched exactly if the last call of `a` that came to its hooks raised in between.  It then captures
gradients and its weights get none, also outside the attributor; otherwise it runs its own forward. -/
theorem C101_left_patched (hs : Separate net names) (h : List (ℕ × How)) (a i fuel : ℕ)
    (hc : Covers net (names a) i) :
    call (World.init.run net names h).st i (fuel + 1) ((World.init.run net names h).st.mods i).fwd =
      if lastHow h a = some .during then
        ((World.init.run net names h).hm a).map fun m => .captured m (idxAt net (names a) i)
      else some .own := by
  have H := run_held hs h
  by_cases hl : lastHow h a = some .during
  · rw [if_pos hl]
    obtain ⟨m, hm⟩ := Option.isSome_iff_exists.1 ((hm_iff (net := net) (names := names) h a).2 hl)
    obtain ⟨g, hg, r1, r2, r3, r4⟩ := H.mgr a m hm
    have := H.inv.on m (names a) i ⟨g, hg, r3, r4⟩ hc
    rw [this, hm]
    simp only [call, hg, r1, r2, if_true, Option.map_some]
  · rw [if_neg hl]
    have hn : (World.init.run net names h).hm a = none := by
      rw [← Option.not_isSome_iff_eq_none]
      exact fun e => hl ((hm_iff h a).1 e)
    have : (World.init.run net names h).st.mods i = ⟨.native, none⟩ := by
      apply H.inv.off
      intro m ns hr hc'
      obtain ⟨b, hb, rfl⟩ := H.reg m ns hr
      have hne : a ≠ b := by rintro rfl; rw [hn] at hb; cases hb
      exact hs a b hne i hc hc'
    rw [this]
    rfl

/-- C101: the captured manager exists in the failing case, so the call above does capture. -/
theorem C101_manager (h : List (ℕ × How)) (a : ℕ) (hl : lastHow h a = some .during) :
    ∃ m, (World.init.run net names h).hm a = some m :=
  Option.isSome_iff_exists.1 ((hm_iff h a).2 hl)

theorem shared_two {i : ℕ} (h0 : Covers net (names 0) i) (h1 : Covers net (names 1) i) :
    (World.init.run net names [(0, .during), (1, .past)]).st.mods i = ⟨.wrap 0 (idxAt net (names 0) i), none⟩ ∧
    (World.init.run net names [(0, .during), (1, .past)]).st.mgrs =
      [⟨names 0, true, true, true, true⟩, ⟨names 1, true, false, true, false⟩] ∧
    (World.init.run net names [(0, .during), (1, .past)]).hm 0 = some 0 := by
  have e1 : World.init.call net names (0, .during) =
      ⟨⟨patch net 0 (names 0) fun _ => ⟨.native, none⟩, [⟨names 0, true, true, true, true⟩]⟩,
        Function.update (fun _ => none) 0 (some 0)⟩ := by
    simp [World.call, ensure, World.init, construct_eq, St.init]
  have e2 : World.init.run net names [(0, .during), (1, .past)] =
      ⟨⟨unpatch net ⟨names 1, true, true, true, true⟩ (patch net 1 (names 1)
          (patch net 0 (names 0) fun _ => ⟨.native, none⟩)),
        [⟨names 0, true, true, true, true⟩, ⟨names 1, true, false, true, false⟩]⟩,
        Function.update (Function.update (fun _ => none) 0 (some 0)) 1 none⟩ := by
    show (World.init.call net names (0, .during)).call net names (1, .past) = _
    rw [e1]
    simp [World.call, ensure, construct_eq, removeAt, remove]
  rw [e2]
  refine ⟨?_, rfl, rfl⟩
  refine unpatch_covered _ _ _ _ rfl h1 ?_
  rw [patch_of _ _ _ _ h1, patch_of _ _ _ _ h0]

/-- C101, two attributors of one task: if a call of the first raises in between and then a call of the second
succeeds, the shared layer's own forward is gone for good. -/
theorem C101_shared_lost {i : ℕ} (h0 : Covers net (names 0) i) (h1 : Covers net (names 1) i) {ops : List Op}
    {st : St} (h : exec net (World.init.run net names [(0, .during), (1, .past)]).st ops = some st) :
    ∃ m idx, (st.mods i).fwd = .wrap m idx := by
  obtain ⟨e, _, _⟩ := shared_two h0 h1
  have hp : exec net St.init [.new (names 0) true, .new (names 1) true, .remove 1] =
      some (World.init.run net names [(0, .during), (1, .past)]).st := by
    simp [exec, step, World.run, World.call, ensure, World.init, construct_eq, removeAt, remove, St.init]
  refine C67_lost_for_ever hp (i := i) ?_ h
  unfold Avail
  rw [e]
  simp

/-- C101: and when a later call of the first attributor succeeds, every call of the layer raises. -/
theorem C101_shared_broken {i : ℕ} (h0 : Covers net (names 0) i) (h1 : Covers net (names 1) i) (fuel : ℕ) :
    let w := World.init.run net names [(0, .during), (1, .past), (0, .past)]
    w.hm 0 = none ∧ call w.st i (fuel + 1) (w.st.mods i).fwd = some .notFound := by
  obtain ⟨e, eg, eh⟩ := shared_two h0 h1
  intro w
  have hw : w = (World.init.run net names [(0, .during), (1, .past)]).call net names (0, .past) := rfl
  have hens : ensure net names (World.init.run net names [(0, .during), (1, .past)]) 0 =
      ((World.init.run net names [(0, .during), (1, .past)]).st, 0) := by
    unfold ensure; rw [eh]
  have hst : w.st = remove net (World.init.run net names [(0, .during), (1, .past)]).st 0
      ⟨names 0, true, true, true, true⟩ := by
    rw [hw]
    simp only [World.call, hens]
    unfold removeAt
    rw [eg]; rfl
  refine ⟨by rw [hw]; simp [World.call], ?_⟩
  have hmods : w.st.mods i = ⟨.wrap 0 (idxAt net (names 0) i), none⟩ := by
    rw [hst]
    show unpatch net _ (World.init.run net names [(0, .during), (1, .past)]).st.mods i = _
    rw [unpatch_none _ _ _ (by rw [e]), e]
  have hg : w.st.mgrs[0]? = some ⟨names 0, true, false, true, false⟩ := by
    rw [hst]
    show (List.set _ 0 _)[0]? = _
    rw [eg]; rfl
  rw [hmods]
  simp only [call, hg, if_true, Bool.false_eq_true, if_false]

/-- Two attributors of one task, both with the default layers. -/
example : let net : Net := [("", false), ("fc1", true), ("relu", false), ("fc2", true)]
    Covers net ["fc1", "fc2"] 3 := ⟨"fc2", rfl, by decide⟩

/-- Attributors on different layers; the history of the first ends with a failing call. -/
example : let net : Net := [("fc1", true), ("fc2", true)]
    let names : ℕ → List String := fun a => if a = 0 then ["fc1"] else if a = 1 then ["fc2"] else []
    Separate net names ∧ Covers net (names 0) 0 ∧
      lastHow [(0, .past), (0, .during), (1, .past), (0, .before)] 0 = some .during ∧
      lastHow [(0, .past), (0, .during), (1, .past), (0, .before)] 1 = some .past := by
  intro net names
  refine ⟨?_, ⟨"fc1", rfl, by decide⟩, by decide, by decide⟩
  rintro a b hne i ⟨x, hx, hxm⟩ ⟨y, hy, hym⟩
  rw [hx] at hy
  obtain rfl : x = y := by simpa using hy
  have ha : (a = 0 ∧ x = "fc1") ∨ (a = 1 ∧ x = "fc2") := by
    simp only [names] at hxm
    split at hxm
    · exact Or.inl ⟨‹_›, by simpa using hxm⟩
    · split at hxm
      · exact Or.inr ⟨‹_›, by simpa using hxm⟩
      · cases hxm
  have hb : (b = 0 ∧ x = "fc1") ∨ (b = 1 ∧ x = "fc2") := by
    simp only [names] at hym
    split at hym
    · exact Or.inl ⟨‹_›, by simpa using hym⟩
    · split at hym
      · exact Or.inr ⟨‹_›, by simpa using hym⟩
      · cases hym
  rcases ha with ⟨rfl, rfl⟩ | ⟨rfl, rfl⟩ <;> rcases hb with ⟨rfl, h⟩ | ⟨rfl, h⟩
  · exact hne rfl
  · exact absurd h (by decide)
  · exact absurd h (by decide)
  · exact hne rfl

end Verif.Hook
