import Mathlib.Data.List.Induction
import Verif.Task.FreezeModel

/-! # C230: freezing and unfreezing parameters -/

namespace Verif.Freeze

open Verif

variable {R : Type}

/-! ## Specification -/

/-- The flags are as remembered, apart from parameters without entries and from a tail without entries that are trainable
now. -/
def Aligned (ps : List (Par R)) : Prop :=
  ∃ l₁ l₂, ps = l₁ ++ l₂ ∧ (∀ p ∈ l₁, p.val ≠ [] → p.was = p.now) ∧ ∀ p ∈ l₂, p.val ≠ [] → p.now = false

/-- Number of entries trainable now. -/
def need (ps : List (Par R)) : ℕ := (ps.map fun p => if p.now then p.val.length else 0).sum

/-! ## Lemmas -/

theorem flat_cons (p : Par R) (ps : List (Par R)) : flat (p :: ps) = (if p.was then p.val else []) ++ flat ps := by
  simp [flat]

theorem need_cons (p : Par R) (ps : List (Par R)) : need (p :: ps) = (if p.now then p.val.length else 0) + need ps := by
  simp [need]

theorem unflat_frozen (ps : List (Par R)) (v : List R) (h : ∀ p ∈ ps, p.val ≠ [] → p.now = false) :
    unflat ps v = .ok (ps.map Par.val) := by
  induction ps with
  | nil => rfl
  | cons p ps ih =>
    have ih := ih (fun q hq => h q (List.mem_cons_of_mem _ hq))
    unfold unflat
    by_cases hn : p.now = true
    · have hv : p.val = [] := by
        by_contra hv
        rw [h p (by simp) hv] at hn
        exact Bool.noConfusion hn
      rw [if_pos hn, if_neg (by simp [hv])]
      simp only [hv, List.length_nil, List.drop_zero, List.take_zero]
      rw [ih]
      simp [hv, bind, Except.bind, pure, Except.pure]
    · rw [if_neg hn, ih]
      simp [bind, Except.bind, pure, Except.pure]

theorem unflat_ok_iff (ps : List (Par R)) (v : List R) : (∃ r, unflat ps v = .ok r) ↔ need ps ≤ v.length := by
  induction ps generalizing v with
  | nil => simp [unflat, need]
  | cons p ps ih =>
    rw [need_cons]
    unfold unflat
    by_cases hn : p.now = true
    · rw [if_pos hn, if_pos hn]
      by_cases hl : v.length < p.val.length
      · rw [if_pos hl]
        constructor
        · rintro ⟨r, hr⟩
          exact absurd hr (by simp)
        · intro h
          omega
      · rw [if_neg hl]
        have := ih (v.drop p.val.length)
        rw [List.length_drop] at this
        constructor
        · rintro ⟨r, hr⟩
          cases hu : unflat ps (v.drop p.val.length) with
          | error e => rw [hu] at hr; simp [bind, Except.bind] at hr
          | ok x => have := this.1 ⟨x, hu⟩; omega
        · intro h
          obtain ⟨x, hx⟩ := this.2 (by omega)
          rw [hx]
          exact ⟨_, rfl⟩
    · rw [if_neg hn, if_neg hn, Nat.zero_add]
      constructor
      · rintro ⟨r, hr⟩
        cases hu : unflat ps v with
        | error e => rw [hu] at hr; simp [bind, Except.bind] at hr
        | ok x => exact (ih v).1 ⟨x, hu⟩
      · intro h
        obtain ⟨x, hx⟩ := (ih v).2 h
        rw [hx]
        exact ⟨_, rfl⟩

theorem unflat_error (ps : List (Par R)) (v : List R) (e : Err) (h : unflat ps v = .error e) : e = .runtimeError := by
  induction ps generalizing v with
  | nil => simp [unflat] at h
  | cons p ps ih =>
    unfold unflat at h
    split at h
    · split at h
      · simpa using h.symm
      · cases hu : unflat ps (v.drop p.val.length) with
        | error e' =>
          rw [hu] at h
          have : e' = e := by simpa [bind, Except.bind] using h
          exact this ▸ ih _ (by rw [hu, this])
        | ok x => rw [hu] at h; simp [bind, Except.bind, pure, Except.pure] at h
    · cases hu : unflat ps v with
      | error e' =>
        rw [hu] at h
        have : e' = e := by simpa [bind, Except.bind] using h
        exact this ▸ ih _ (by rw [hu, this])
      | ok x => rw [hu] at h; simp [bind, Except.bind, pure, Except.pure] at h

theorem unflat_take (ps : List (Par R)) (v w : List R) (hv : need ps ≤ v.length) (hw : need ps ≤ w.length)
    (h : v.take (need ps) = w.take (need ps)) : unflat ps v = unflat ps w := by
  induction ps generalizing v w with
  | nil => rfl
  | cons p ps ih =>
    rw [need_cons] at hv hw h
    unfold unflat
    by_cases hn : p.now = true
    · simp only [hn, if_true] at hv hw h ⊢
      rw [if_neg (by omega), if_neg (by omega)]
      have h1 : v.take p.val.length = w.take p.val.length := by
        have := congrArg (List.take p.val.length) h
        simpa [List.take_take] using this
      have h2 : (v.drop p.val.length).take (need ps) = (w.drop p.val.length).take (need ps) := by
        have := congrArg (List.drop p.val.length) h
        rw [List.drop_take, List.drop_take] at this
        simpa using this
      rw [ih _ _ (by rw [List.length_drop]; omega) (by rw [List.length_drop]; omega) h2, h1]
    · simp only [hn, Bool.false_eq_true, if_false, Nat.zero_add] at hv hw h ⊢
      rw [ih v w hv hw h]

theorem aligned_unflat {ps : List (Par R)} (h : Aligned ps) : unflat ps (flat ps) = .ok (ps.map Par.val) := by
  obtain ⟨l₁, l₂, rfl, h1, h2⟩ := h
  induction l₁ with
  | nil => exact unflat_frozen _ _ h2
  | cons p l₁ ih =>
    have ih := ih (fun q hq => h1 q (List.mem_cons_of_mem _ hq))
    rw [List.cons_append, flat_cons]
    unfold unflat
    by_cases hv : p.val = []
    · have e : (if p.was then p.val else []) = ([] : List R) := by split <;> simp [hv]
      rw [e, List.nil_append]
      split
      · rw [if_neg (by simp [hv])]
        simp only [hv, List.length_nil, List.drop_zero, List.take_zero]
        rw [ih]
        simp [hv, bind, Except.bind, pure, Except.pure]
      · rw [ih]
        simp [bind, Except.bind, pure, Except.pure]
    · have hw := h1 p (by simp) hv
      by_cases hn : p.now = true
      · rw [if_pos hn, hw, if_pos hn, if_neg (by simp)]
        rw [List.drop_left, List.take_left, ih]
        simp [bind, Except.bind, pure, Except.pure]
      · rw [if_neg hn, hw, if_neg hn, List.nil_append, ih]
        simp [bind, Except.bind, pure, Except.pure]

/-- If the vector starts with an entry that no parameter has, the parameters get their own values only if none is trainable. -/
theorem unflat_foreign (ps : List (Par R)) (x : R) (v : List R) (hx : ∀ p ∈ ps, x ∉ p.val)
    (h : unflat ps (x :: v) = .ok (ps.map Par.val)) : ∀ p ∈ ps, p.val ≠ [] → p.now = false := by
  induction ps with
  | nil => simp
  | cons p ps ih =>
    unfold unflat at h
    have hx' : ∀ q ∈ ps, x ∉ q.val := fun q hq => hx q (List.mem_cons_of_mem _ hq)
    by_cases hn : p.now = true
    · rw [if_pos hn] at h
      by_cases hv : p.val = []
      · rw [if_neg (by simp [hv])] at h
        simp only [hv, List.length_nil, List.drop_zero, List.take_zero] at h
        cases hu : unflat ps (x :: v) with
        | error e => rw [hu] at h; simp [bind, Except.bind] at h
        | ok r =>
          rw [hu] at h
          have hr : r = ps.map Par.val := by simpa [bind, Except.bind, pure, Except.pure, hv] using h
          have := ih hx' (by rw [hu, hr])
          intro q hq
          rcases List.mem_cons.1 hq with rfl | hq
          · exact fun h' => absurd hv h'
          · exact this q hq
      · split at h
        · simp at h
        · cases hu : unflat ps ((x :: v).drop p.val.length) with
          | error e => rw [hu] at h; simp [bind, Except.bind] at h
          | ok r =>
            rw [hu] at h
            have hr : (x :: v).take p.val.length = p.val := by
              have : (x :: v).take p.val.length :: r = p.val :: ps.map Par.val := by
                simpa only [bind, Except.bind, pure, Except.pure, Except.ok.injEq, List.map_cons] using h
              exact (List.cons.inj this).1
            obtain ⟨k, hk⟩ := Nat.exists_eq_succ_of_ne_zero (fun e => hv (List.length_eq_zero_iff.1 e))
            rw [hk] at hr
            exact absurd (by rw [← hr]; simp) (hx p (by simp))
    · rw [if_neg hn] at h
      cases hu : unflat ps (x :: v) with
      | error e => rw [hu] at h; simp [bind, Except.bind] at h
      | ok r =>
        rw [hu] at h
        have hr : r = ps.map Par.val := by simpa [bind, Except.bind, pure, Except.pure] using h
        have := ih hx' (by rw [hu, hr])
        intro q hq
        rcases List.mem_cons.1 hq with rfl | hq
        · exact fun _ => by simpa using hn
        · exact this q hq

theorem mem_flat {ps : List (Par R)} {x : R} (h : x ∈ flat ps) : ∃ p ∈ ps, x ∈ p.val := by
  induction ps with
  | nil => simp [flat] at h
  | cons p ps ih =>
    rw [flat_cons] at h
    rcases List.mem_append.1 h with h | h
    · split at h
      · exact ⟨p, by simp, h⟩
      · simp at h
    · obtain ⟨q, hq, hx⟩ := ih h
      exact ⟨q, by simp [hq], hx⟩

theorem aligned_cons {p : Par R} {ps : List (Par R)} (hp : p.val ≠ [] → p.was = p.now) (h : Aligned ps) : Aligned (p :: ps) := by
  obtain ⟨l₁, l₂, rfl, h1, h2⟩ := h
  refine ⟨p :: l₁, l₂, rfl, ?_, h2⟩
  intro q hq
  rcases List.mem_cons.1 hq with rfl | hq
  · exact hp
  · exact h1 q hq

theorem unflat_aligned {ps : List (Par R)} (hd : (ps.map Par.val).flatten.Nodup)
    (h : unflat ps (flat ps) = .ok (ps.map Par.val)) : Aligned ps := by
  induction ps with
  | nil => exact ⟨[], [], rfl, by simp, by simp⟩
  | cons p ps ih =>
    have hd' : p.val.Nodup ∧ (ps.map Par.val).flatten.Nodup ∧ ∀ a ∈ p.val, ∀ b ∈ (ps.map Par.val).flatten, a ≠ b := by
      simpa [List.nodup_append] using hd
    obtain ⟨_, hd2, hd3⟩ := hd'
    have ih := ih hd2
    have hdis : ∀ x ∈ p.val, ∀ q ∈ ps, x ∉ q.val := by
      intro x hx q hq hxq
      exact hd3 x hx x (List.mem_flatten.2 ⟨q.val, List.mem_map.2 ⟨q, hq, rfl⟩, hxq⟩) rfl
    rw [flat_cons] at h
    unfold unflat at h
    by_cases hv : p.val = []
    · have e : (if p.was then p.val else []) = ([] : List R) := by split <;> simp [hv]
      rw [e, List.nil_append] at h
      refine aligned_cons (fun h' => absurd hv h') (ih ?_)
      cases hu : unflat ps (flat ps) with
      | error e =>
        split at h
        · rw [if_neg (by simp [hv])] at h
          simp only [hv, List.length_nil, List.drop_zero] at h
          rw [hu] at h
          simp [bind, Except.bind] at h
        · rw [hu] at h
          simp [bind, Except.bind] at h
      | ok r =>
        have hr : r = ps.map Par.val := by
          split at h
          · rw [if_neg (by simp [hv])] at h
            simp only [hv, List.length_nil, List.drop_zero] at h
            rw [hu] at h
            simpa [bind, Except.bind, pure, Except.pure, hv] using h
          · rw [hu] at h
            simpa [bind, Except.bind, pure, Except.pure] using h
        rw [hr]
    · by_cases hn : p.now = true
      · rw [if_pos hn] at h
        by_cases hw : p.was = true
        · rw [if_pos hw, if_neg (by simp), List.drop_left, List.take_left] at h
          refine aligned_cons (fun _ => by rw [hw, hn]) (ih ?_)
          cases hu : unflat ps (flat ps) with
          | error e => rw [hu] at h; simp [bind, Except.bind] at h
          | ok r =>
            rw [hu] at h
            have hr : r = ps.map Par.val := by simpa [bind, Except.bind, pure, Except.pure] using h
            rw [hr]
        · exfalso
          rw [if_neg hw, List.nil_append] at h
          split at h
          · simp at h
          next hl =>
            cases hu : unflat ps ((flat ps).drop p.val.length) with
            | error e => rw [hu] at h; simp [bind, Except.bind] at h
            | ok r =>
              rw [hu] at h
              have hr : (flat ps).take p.val.length = p.val := by
                have : (flat ps).take p.val.length :: r = p.val :: ps.map Par.val := by
                  simpa only [bind, Except.bind, pure, Except.pure, Except.ok.injEq, List.map_cons] using h
                exact (List.cons.inj this).1
              obtain ⟨x, hx⟩ := List.exists_mem_of_ne_nil _ hv
              have hx' : x ∈ flat ps := List.mem_of_mem_take (by rw [hr]; exact hx)
              obtain ⟨q, hq, hxq⟩ := mem_flat hx'
              exact hdis x hx q hq hxq
      · rw [if_neg hn] at h
        by_cases hw : p.was = true
        · rw [if_pos hw] at h
          obtain ⟨x, xs, hxs⟩ := List.exists_cons_of_ne_nil hv
          rw [hxs, List.cons_append] at h
          cases hu : unflat ps (x :: (xs ++ flat ps)) with
          | error e => rw [hu] at h; simp [bind, Except.bind] at h
          | ok r =>
            rw [hu] at h
            have hr : r = ps.map Par.val := by
              have : x :: xs = p.val := hxs.symm
              simpa [bind, Except.bind, pure, Except.pure, this] using h
            refine ⟨[], p :: ps, rfl, by simp, ?_⟩
            intro q hq
            rcases List.mem_cons.1 hq with rfl | hq
            · exact fun _ => by simpa using hn
            · exact unflat_foreign ps x _ (fun q hq => hdis x (by rw [hxs]; simp) q hq) (by rw [hu, hr]) q hq
        · rw [if_neg hw, List.nil_append] at h
          refine aligned_cons (fun _ => by
            rw [Bool.not_eq_true] at hw hn
            rw [hw, hn]) (ih ?_)
          cases hu : unflat ps (flat ps) with
          | error e => rw [hu] at h; simp [bind, Except.bind] at h
          | ok r =>
            rw [hu] at h
            have hr : r = ps.map Par.val := by simpa [bind, Except.bind, pure, Except.pure] using h
            rw [hr]

/-! ## Properties -/

/-- **C230** (own values). Where the flags are as when the checkpoint was loaded, apart from a frozen tail, the loss is evaluated
at the model's own parameters; for parameters with pairwise different entries in no other case. -/
theorem C230_aligned (ps : List (Par R)) :
    (Aligned ps → ∀ {A : Type} (L : List (List R) → A), lossAt L ps (flat ps) = .ok (L (ps.map Par.val))) ∧
    ((ps.map Par.val).flatten.Nodup → lossAt id ps (flat ps) = .ok (ps.map Par.val) → Aligned ps) := by
  refine ⟨fun h A L => ?_, fun hd h => unflat_aligned hd ?_⟩
  · rw [lossAt, aligned_unflat h]
    rfl
  · unfold lossAt at h
    cases hu : unflat ps (flat ps) with
    | error e => simp [hu, bind, Except.bind] at h
    | ok r =>
      rw [hu] at h
      exact h

/-- **C230** (exceptions). The call raises `RuntimeError` exactly when more entries are trainable now than when the checkpoint
was loaded. -/
theorem C230_error {A : Type} (L : List (List R) → A) (ps : List (Par R)) :
    (lossAt L ps (flat ps) = .error .runtimeError ↔ (flat ps).length < need ps) ∧
    ((∃ a, lossAt L ps (flat ps) = .ok a) ↔ need ps ≤ (flat ps).length) := by
  have key : (∃ a, lossAt L ps (flat ps) = .ok a) ↔ need ps ≤ (flat ps).length := by
    rw [← unflat_ok_iff]
    unfold lossAt
    cases hu : unflat ps (flat ps) with
    | error e => simp [bind, Except.bind]
    | ok r => simp [bind, Except.bind, pure, Except.pure]
  refine ⟨?_, key⟩
  constructor
  · intro h
    by_contra hn
    obtain ⟨a, ha⟩ := key.2 (Nat.le_of_not_lt hn)
    rw [ha] at h
    simp at h
  · intro h
    unfold lossAt
    cases hu : unflat ps (flat ps) with
    | error e =>
      rw [unflat_error ps _ e hu]
      rfl
    | ok r =>
      have := (unflat_ok_iff ps (flat ps)).1 ⟨r, hu⟩
      omega

/-- **C230** (unused coordinates). The gradient has a coordinate for every entry that was trainable when the checkpoint was loaded;
the loss depends on the first ones only, as many as are trainable now, whatever they stand for. -/
theorem C230_coordinates {A : Type} (L : List (List R) → A) (ps : List (Par R)) (v w : List R) (hv : need ps ≤ v.length)
    (hw : need ps ≤ w.length) (h : v.take (need ps) = w.take (need ps)) : lossAt L ps v = lossAt L ps w := by
  unfold lossAt
  rw [unflat_take ps v w hv hw h]

theorem need_le_flat (ps : List (Par R)) (h : ∀ p ∈ ps, p.now = true → p.was = true) : need ps ≤ (flat ps).length := by
  induction ps with
  | nil => simp [need]
  | cons p ps ih =>
    have h1 := ih fun q hq => h q (List.mem_cons_of_mem _ hq)
    have h2 := h p (by simp)
    rw [flat_cons, List.length_append]
    have e : need (p :: ps) = (if p.now then p.val.length else 0) + need ps := by simp [need]
    rw [e]
    cases hn : p.now with
    | false => simpa using Nat.le_trans h1 (Nat.le_add_left _ _)
    | true => simpa [h2 hn] using h1

/-- **C230** (freezing). If parameters were only frozen since the checkpoint was loaded, no exception is raised; if one of them has
entries and a parameter with entries after it is trainable, and all entries are different, the loss is evaluated at other
parameters than those of the checkpoint. -/
theorem C230_freeze (ps : List (Par R)) (h : ∀ p ∈ ps, p.now = true → p.was = true) :
    (∃ r, unflat ps (flat ps) = .ok r) ∧
    ∀ a b c p q, ps = a ++ p :: (b ++ q :: c) → p.was = true → p.now = false → p.val ≠ [] → q.now = true → q.val ≠ [] →
      (ps.map Par.val).flatten.Nodup → ∃ r, unflat ps (flat ps) = .ok r ∧ r ≠ ps.map Par.val := by
  obtain ⟨r, hr⟩ := (unflat_ok_iff ps (flat ps)).2 (need_le_flat ps h)
  refine ⟨⟨r, hr⟩, ?_⟩
  intro a b c p q hps hpw hpn hpv hqn hqv hnd
  refine ⟨r, hr, ?_⟩
  rintro rfl
  obtain ⟨l₁, l₂, h0, h1, h2⟩ := unflat_aligned hnd hr
  by_cases hlen : a.length < l₁.length
  · have hp : p ∈ l₁ := by
      have e1 : ps[a.length]? = some p := by rw [hps]; simp
      rw [h0, List.getElem?_append_left hlen] at e1
      exact List.mem_of_getElem? e1
    have := h1 p hp hpv
    rw [hpw, hpn] at this
    exact absurd this (by decide)
  · have hq : q ∈ l₂ := by
      have e1 : ps[a.length + (b.length + 1)]? = some q := by
        rw [hps, List.getElem?_append_right (by omega), show a.length + (b.length + 1) - a.length = b.length + 1 by omega,
          List.getElem?_cons_succ]
        simp
      rw [h0, List.getElem?_append_right (by omega)] at e1
      exact List.mem_of_getElem? e1
    have := h2 q hq hqv
    rw [hqn] at this
    exact absurd this (by decide)

/-! ## Sessions -/

/-- The flags of the model after a session. -/
def flagsAfter (init : List Bool) : List Op → List Bool
  | [] => init
  | .setFlag i b :: ops => flagsAfter (init.set i b) ops
  | .getParam _ :: ops => flagsAfter init ops

/-- The checkpoint loaded after a session: the one asked for last. -/
def lastAsked : List Op → Option ℕ
  | [] => none
  | .setFlag _ _ :: ops => lastAsked ops
  | .getParam c :: ops => (lastAsked ops).or (some c)

/-- A request for the parameters of checkpoint `c`, or a change of a flag. -/
def Stays (c : ℕ) : Op → Prop
  | .setFlag _ _ => True
  | .getParam d => d = c

/-- A task on which nothing was asked yet. -/
def Fresh (s : St R) : Prop := s.cur = none

theorem lastAsked_append (a b : List Op) : lastAsked (a ++ b) = (lastAsked b).or (lastAsked a) := by
  induction a with
  | nil => simp [lastAsked]
  | cons o a ih =>
    cases o with
    | setFlag i f => simpa [lastAsked] using ih
    | getParam c =>
      simp only [List.cons_append, lastAsked, ih]
      cases lastAsked b <;> simp

theorem flagsAfter_append (init : List Bool) (a b : List Op) : flagsAfter init (a ++ b) = flagsAfter (flagsAfter init a) b := by
  induction a generalizing init with
  | nil => rfl
  | cons o a ih => cases o <;> simp [flagsAfter, ih]

theorem flagsAfter_length (init : List Bool) (a : List Op) : (flagsAfter init a).length = init.length := by
  induction a generalizing init with
  | nil => rfl
  | cons o a ih => cases o <;> simp [flagsAfter, ih]

theorem run_append (ckpts : ℕ → List (List R)) (s : St R) (a b : List Op) :
    run ckpts s (a ++ b) = run ckpts (run ckpts s a) b := by simp [run]

theorem load_now (ckpts : ℕ → List (List R)) (s : St R) (c : ℕ) : (load ckpts s c).now = s.now := by
  unfold load
  split <;> rfl

theorem load_cur (ckpts : ℕ → List (List R)) (s : St R) (c : ℕ) : (load ckpts s c).cur = some c := by
  unfold load
  split
  · rfl
  · next h =>
    by_contra h'
    exact h (Or.inr h')

theorem run_now (ckpts : ℕ → List (List R)) (s : St R) (ops : List Op) : (run ckpts s ops).now = flagsAfter s.now ops := by
  induction ops generalizing s with
  | nil => rfl
  | cons o ops ih =>
    show (run ckpts (step ckpts s o) ops).now = _
    rw [ih]
    cases o with
    | setFlag i b => rfl
    | getParam c => simp only [step, load_now, flagsAfter]

theorem run_cur (ckpts : ℕ → List (List R)) (s : St R) (ops : List Op) :
    (run ckpts s ops).cur = (lastAsked ops).or s.cur := by
  induction ops generalizing s with
  | nil => simp [run, lastAsked]
  | cons o ops ih =>
    show (run ckpts (step ckpts s o) ops).cur = _
    rw [ih]
    cases o with
    | setFlag i b => rfl
    | getParam c =>
      simp only [step, load_cur, lastAsked]
      cases lastAsked ops <;> simp

theorem run_stays (ckpts : ℕ → List (List R)) (c : ℕ) (s : St R) (hs : s.cur = some c) (ops : List Op) (h : ∀ o ∈ ops, Stays c o) :
    (run ckpts s ops).vals = s.vals ∧ (run ckpts s ops).was = s.was ∧ (run ckpts s ops).cur = some c := by
  induction ops generalizing s with
  | nil => exact ⟨rfl, rfl, hs⟩
  | cons o ops ih =>
    have ho := h o (by simp)
    have hr := fun q hq => h q (List.mem_cons_of_mem _ hq)
    cases o with
    | setFlag i b => exact ih { s with now := s.now.set i b } hs hr
    | getParam d =>
      obtain rfl : d = c := ho
      have e : load ckpts s d = s := by
        unfold load
        rw [if_neg (by simp [hs])]
      show (run ckpts (load ckpts s d) ops).vals = _ ∧ _
      have := ih s hs hr
      refine ⟨?_, ?_, ?_⟩
      · rw [e]; exact this.1
      · show (run ckpts (load ckpts s d) ops).was = _
        rw [e]; exact this.2.1
      · show (run ckpts (load ckpts s d) ops).cur = _
        rw [e]; exact this.2.2

/-- The parameters of checkpoint `vals` with given flags at loading and now. -/
def withFlags (vals : List (List R)) (was now : List Bool) : List (Par R) :=
  (vals.zip (was.zip now)).map fun x => ⟨x.1, x.2.1, x.2.2⟩

theorem withFlags_same (vals : List (List R)) (f : List Bool) (h : vals.length = f.length) :
    Aligned (withFlags vals f f) ∧ (withFlags vals f f).map Par.val = vals := by
  constructor
  · refine ⟨withFlags vals f f, [], by simp, ?_, by simp⟩
    intro p hp _
    unfold withFlags at hp
    obtain ⟨x, hx, rfl⟩ := List.mem_map.1 hp
    have h2 := (List.of_mem_zip (a := x.1) (b := x.2) hx).2
    have : ∀ (l : List Bool) (y : Bool × Bool), y ∈ l.zip l → y.1 = y.2 := by
      intro l
      induction l with
      | nil => simp
      | cons a l ih =>
        intro y hy
        rw [List.zip_cons_cons] at hy
        rcases List.mem_cons.1 hy with rfl | hy
        · rfl
        · exact ih y hy
    exact this f x.2 h2
  · unfold withFlags
    rw [List.map_map]
    have : (Par.val ∘ fun x : List R × Bool × Bool => (⟨x.1, x.2.1, x.2.2⟩ : Par R)) = Prod.fst := rfl
    rw [this]
    exact List.map_fst_zip (by simp [h])

theorem withFlags_any (vals : List (List R)) (f g : List Bool) (h : vals.length = f.length) (hg : g.length = f.length) :
    (withFlags vals f g).any Par.was = true ↔ true ∈ f := by
  induction f generalizing vals g with
  | nil => simp [withFlags]
  | cons a f ih =>
    cases vals with
    | nil => simp at h
    | cons v vals =>
      cases g with
      | nil => simp at hg
      | cons b g =>
        have hi := ih vals g (by simpa using h) (by simpa using hg)
        have e : withFlags (v :: vals) (a :: f) (b :: g) = ⟨v, a, b⟩ :: withFlags vals f g := rfl
        rw [e, List.any_cons, Bool.or_eq_true, hi, List.mem_cons]
        exact ⟨fun h => h.imp Eq.symm id, fun h => h.imp Eq.symm id⟩

theorem load_same (ckpts : ℕ → List (List R)) (s : St R) (c : ℕ) (h : s.cur = some c) : load ckpts s c = s := by
  unfold load
  rw [if_neg (by simp [h])]

/-- Every session has left another checkpoint (or none) loaded, or loaded `c` at some request and stayed with it. -/
theorem C230_sessions (c : ℕ) (ops : List Op) : lastAsked ops ≠ some c ∨
    ∃ pre mid, ops = pre ++ .getParam c :: mid ∧ lastAsked pre ≠ some c ∧ ∀ o ∈ mid, Stays c o := by
  induction ops using List.reverseRecOn with
  | nil => exact Or.inl (by simp [lastAsked])
  | append_singleton ops o ih =>
    cases o with
    | setFlag i b =>
      rcases ih with h | ⟨pre, mid, rfl, h1, h2⟩
      · exact Or.inl (by rw [lastAsked_append]; simpa [lastAsked] using h)
      · refine Or.inr ⟨pre, mid ++ [.setFlag i b], by simp, h1, ?_⟩
        intro q hq
        rcases List.mem_append.1 hq with hq | hq
        · exact h2 q hq
        · rw [List.mem_singleton.1 hq]; trivial
    | getParam d =>
      by_cases hd : d = c
      · subst hd
        rcases ih with h | ⟨pre, mid, rfl, h1, h2⟩
        · exact Or.inr ⟨ops, [], by simp, h, by simp⟩
        · refine Or.inr ⟨pre, mid ++ [.getParam d], by simp, h1, ?_⟩
          intro q hq
          rcases List.mem_append.1 hq with hq | hq
          · exact h2 q hq
          · rw [List.mem_singleton.1 hq]; exact rfl
      · exact Or.inl (by rw [lastAsked_append]; simpa [lastAsked] using hd)

/-- **C230** (first use of a checkpoint). If another checkpoint (or none) is loaded, the loss is evaluated at the checkpoint asked
for, with whatever flags the user has set by then, as long as one parameter is trainable; with none the call raises
`StopIteration`. -/
theorem C230_reload {A : Type} (L : List (List R) → A) (ckpts : ℕ → List (List R)) (s : St R) (hf : Fresh s)
    (hc : ∀ c, (ckpts c).length = s.now.length) (ops : List Op) (c : ℕ) (h : lastAsked ops ≠ some c) :
    (true ∈ flagsAfter s.now ops → evalCkpt L ckpts (run ckpts s ops) c = .ok (L (ckpts c))) ∧
    (true ∉ flagsAfter s.now ops → evalCkpt L ckpts (run ckpts s ops) c = .error .stopIteration) := by
  have hcur : (run ckpts s ops).cur ≠ some c := by
    rw [run_cur, show s.cur = none from hf]
    simpa using h
  have e : load ckpts (run ckpts s ops) c =
      { run ckpts s ops with vals := ckpts c, cur := some c, was := (run ckpts s ops).now } := by
    unfold load
    rw [if_pos (Or.inr hcur)]
  unfold evalCkpt
  rw [e]
  have hl : (ckpts c).length = (run ckpts s ops).now.length := by rw [run_now, flagsAfter_length, hc]
  obtain ⟨h1, h2⟩ := withFlags_same (ckpts c) (run ckpts s ops).now hl
  have ha := withFlags_any (ckpts c) (run ckpts s ops).now (run ckpts s ops).now hl rfl
  rw [← run_now ckpts, ← ha]
  constructor
  · intro ht
    show (if (withFlags (ckpts c) (run ckpts s ops).now (run ckpts s ops).now).any Par.was = true then
      lossAt L (withFlags (ckpts c) (run ckpts s ops).now (run ckpts s ops).now) (flat (withFlags _ _ _)) else _) = _
    rw [if_pos ht]
    unfold lossAt
    rw [aligned_unflat h1, h2]
    rfl
  · intro ht
    exact if_neg ht

/-- **C230** (a loaded checkpoint). Afterwards the flags at the time of loading decide which entries are in the vector, and the
present ones how it is read, until another checkpoint is asked for; with no trainable parameter at the time of loading the call
raises `StopIteration` whatever has been unfrozen since. -/
theorem C230_stale {A : Type} (L : List (List R) → A) (ckpts : ℕ → List (List R)) (s : St R) (hf : Fresh s)
    (hc : ∀ c, (ckpts c).length = s.now.length) (pre mid : List Op) (c : ℕ) (h : lastAsked pre ≠ some c)
    (hm : ∀ o ∈ mid, Stays c o) :
    (true ∈ flagsAfter s.now pre → evalCkpt L ckpts (run ckpts s (pre ++ .getParam c :: mid)) c =
      lossAt L (withFlags (ckpts c) (flagsAfter s.now pre) (flagsAfter s.now (pre ++ mid)))
        (flat (withFlags (ckpts c) (flagsAfter s.now pre) (flagsAfter s.now (pre ++ mid))))) ∧
    (true ∉ flagsAfter s.now pre → evalCkpt L ckpts (run ckpts s (pre ++ .getParam c :: mid)) c = .error .stopIteration) := by
  have hcur : (run ckpts s pre).cur ≠ some c := by
    rw [run_cur, show s.cur = none from hf]
    simpa using h
  have e : load ckpts (run ckpts s pre) c =
      { run ckpts s pre with vals := ckpts c, cur := some c, was := (run ckpts s pre).now } := by
    unfold load
    rw [if_pos (Or.inr hcur)]
  obtain ⟨h1, h2, h3⟩ := run_stays ckpts c (load ckpts (run ckpts s pre) c) (load_cur _ _ _) mid hm
  have er : run ckpts s (pre ++ .getParam c :: mid) = run ckpts (load ckpts (run ckpts s pre) c) mid := by
    rw [run_append]
    rfl
  have en : (run ckpts (load ckpts (run ckpts s pre) c) mid).now = flagsAfter s.now (pre ++ mid) := by
    rw [run_now, load_now, run_now, flagsAfter_append]
  have el : load ckpts (run ckpts (load ckpts (run ckpts s pre) c) mid) c = run ckpts (load ckpts (run ckpts s pre) c) mid :=
    load_same _ _ _ h3
  unfold evalCkpt
  rw [er]
  simp only [el]
  have ep : pars (run ckpts (load ckpts (run ckpts s pre) c) mid) =
      withFlags (ckpts c) (flagsAfter s.now pre) (flagsAfter s.now (pre ++ mid)) := by
    unfold pars withFlags
    rw [h1, h2, en, e, ← run_now ckpts s pre]
  rw [ep]
  have ha := withFlags_any (ckpts c) (flagsAfter s.now pre) (flagsAfter s.now (pre ++ mid))
    (by rw [flagsAfter_length, hc]) (by rw [flagsAfter_length, flagsAfter_length])
  rw [← ha]
  exact ⟨fun ht => if_pos ht, fun ht => if_neg ht⟩

/-- **C230** (unchanged flags). If the flags are those of the time of loading, the loss is evaluated at the checkpoint. -/
theorem C230_unchanged {A : Type} (L : List (List R) → A) (ckpts : ℕ → List (List R)) (s : St R) (hf : Fresh s)
    (hc : ∀ c, (ckpts c).length = s.now.length) (pre mid : List Op) (c : ℕ) (h : lastAsked pre ≠ some c)
    (hm : ∀ o ∈ mid, Stays c o) (hflag : flagsAfter s.now (pre ++ mid) = flagsAfter s.now pre)
    (ht : true ∈ flagsAfter s.now pre) :
    evalCkpt L ckpts (run ckpts s (pre ++ .getParam c :: mid)) c = .ok (L (ckpts c)) := by
  rw [(C230_stale L ckpts s hf hc pre mid c h hm).1 ht, hflag]
  obtain ⟨h1, h2⟩ := withFlags_same (ckpts c) (flagsAfter s.now pre) (by rw [flagsAfter_length, hc])
  unfold lossAt
  rw [aligned_unflat h1, h2]
  rfl

/-! ## Examples -/

/-- A model with two parameters of two and one entries. -/
def exampleStart : St ℕ := ⟨[[0, 0], [0]], [true, true], none, []⟩

/-- Its checkpoint. -/
def exampleCkpt : ℕ → List (List ℕ) := fun _ => [[1, 2], [3]]

example : Fresh exampleStart := rfl
example : lastAsked [.setFlag 0 false] ≠ some 0 := by simp [lastAsked]

/-- Freezing the first parameter before the first use: as expected. -/
example : evalCkpt id exampleCkpt (run exampleCkpt exampleStart [.setFlag 0 false]) 0 = .ok [[1, 2], [3]] := rfl

/-- Freezing it after the first use: the second parameter gets an entry of the first. -/
example : evalCkpt id exampleCkpt (run exampleCkpt exampleStart [.getParam 0, .setFlag 0 false]) 0 = .ok [[1, 2], [1]] := rfl

/-- Freezing the last parameter after the first use is harmless. -/
example : evalCkpt id exampleCkpt (run exampleCkpt exampleStart [.getParam 0, .setFlag 1 false]) 0 = .ok [[1, 2], [3]] := rfl

/-- Unfreezing after the first use raises. -/
example : evalCkpt id exampleCkpt (run exampleCkpt exampleStart [.setFlag 0 false, .getParam 0, .setFlag 0 true]) 0 =
    .error .runtimeError := rfl

/-- Freezing everything before the first use. -/
example : evalCkpt id exampleCkpt (run exampleCkpt exampleStart [.setFlag 0 false, .setFlag 1 false]) 0 =
    .error .stopIteration := rfl

/-- Asking for another checkpoint in between helps. -/
example : evalCkpt id exampleCkpt (run exampleCkpt exampleStart [.getParam 0, .setFlag 0 false, .getParam 1]) 0 =
    .ok [[1, 2], [3]] := rfl

example : ¬Aligned [(⟨[1, 2], true, false⟩ : Par ℕ), ⟨[3], true, true⟩] := by
  intro h
  have := aligned_unflat h
  have e : unflat [(⟨[1, 2], true, false⟩ : Par ℕ), ⟨[3], true, true⟩] (flat [⟨[1, 2], true, false⟩, ⟨[3], true, true⟩]) =
      .ok [[1, 2], [1]] := rfl
  rw [e] at this
  simp at this

end Verif.Freeze
