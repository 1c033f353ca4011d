import Verif.Disk.DropModel

/-!
# Dropping the disk manager (C206)
-/

namespace Verif.Disk.Drop

open Verif

variable {τ : Type} [DecidableEq τ]

/-- How often a chunk is on disk, in the queue, or being written. -/
def handed (s : DSt τ) (t : τ) : ℕ := s.disk.count t + s.queue.count (some t) + s.workers.count (.write t)

/-- The number of chunks waiting in the queue. -/
def waiting (s : DSt τ) : ℕ := (s.queue.filter Option.isSome).length

/-- Every write of the execution succeeds. -/
def AllOk (as : List (DAct τ)) : Prop := ∀ a ∈ as, a ≠ .del false ∧ ∀ i, a ≠ .work i false

/-! ## Helper lemmas -/

theorem count_set' {α : Type} [DecidableEq α] (l : List α) (i : ℕ) (x b a : α) (h : l[i]? = some x) :
    (l.set i b).count a + (if x = a then 1 else 0) = l.count a + (if b = a then 1 else 0) := by
  induction l generalizing i with
  | nil => simp at h
  | cons y t ih =>
      cases i with
      | zero =>
          simp only [List.getElem?_cons_zero, Option.some.injEq] at h
          subst h
          simp only [List.set_cons_zero, List.count_cons, beq_iff_eq]
          omega
      | succ i =>
          simp only [List.getElem?_cons_succ] at h
          simp only [List.set_cons_succ, List.count_cons, beq_iff_eq]
          have := ih i h
          omega

theorem mem_of_some {α : Type} {l : List α} {i : ℕ} {x : α} (h : l[i]? = some x) : x ∈ l := List.mem_of_getElem? h

/-- What is always so. -/
structure Inv' (W : ℕ) (s : DSt τ) : Prop where
  len : s.workers.length = W
  live : s.pc = .live → s.shutdown = false ∧ none ∉ s.queue ∧ WPc.exited ∉ s.workers
  down : s.pc ≠ .live → s.shutdown = true

omit [DecidableEq τ] in
theorem init_inv (W : ℕ) : Inv' W (DSt.init τ W) := by
  refine ⟨by simp [DSt.init], ?_, ?_⟩
  · intro _
    refine ⟨rfl, by simp [DSt.init], ?_⟩
    simp only [DSt.init, List.mem_replicate, not_and]
    intro _ h
    cases h
  · intro h; exact absurd rfl h

omit [DecidableEq τ] in
theorem startDel_inv (W : ℕ) (s : DSt τ) (h : Inv' W s) : Inv' W (startDel s) :=
  ⟨h.len, fun e => by simp [startDel] at e, fun _ => rfl⟩

omit [DecidableEq τ] in
theorem set_not_exited {l : List (WPc τ)} (h : WPc.exited ∉ l) (i : ℕ) (w : WPc τ) (hw : w ≠ .exited) :
    WPc.exited ∉ l.set i w := by
  intro hm
  rcases List.mem_or_eq_of_mem_set hm with h1 | h1
  · exact h h1
  · exact hw h1.symm

theorem step_inv (cap W : ℕ) (s s' : DSt τ) (a : DAct τ) (h : Inv' W s) (hs : step cap s a = some s') : Inv' W s' := by
  cases a with
  | store t =>
      simp only [step] at hs
      split_ifs at hs with hc
      injection hs with hs; subst hs
      exact ⟨h.len, h.live, h.down⟩
  | hand t =>
      simp only [step] at hs
      split_ifs at hs with hc
      injection hs with hs; subst hs
      refine ⟨h.len, ?_, h.down⟩
      intro e
      obtain ⟨h1, h2, h3⟩ := h.live e
      refine ⟨h1, ?_, h3⟩
      simp [h2]
  | drop =>
      simp only [step] at hs
      split_ifs at hs with hc
      injection hs with hs; subst hs
      exact ⟨h.len, h.live, h.down⟩
  | callDel =>
      simp only [step] at hs
      split_ifs at hs with hc
      injection hs with hs; subst hs
      exact startDel_inv W s h
  | collect =>
      simp only [step] at hs
      split_ifs at hs with hc
      injection hs with hs; subst hs
      exact startDel_inv W s h
  | del ok =>
      simp only [step, delStep] at hs
      split at hs
      · cases hs
      all_goals try
        rename_i e
        have hd := h.down (by rw [e]; simp)
      · injection hs with hs; subst hs
        exact ⟨h.len, fun e => by simp at e, fun _ => hd⟩
      · split_ifs at hs
        injection hs with hs; subst hs
        exact ⟨h.len, fun e => by simp at e, fun _ => hd⟩
      · injection hs with hs; subst hs
        exact ⟨h.len, fun e => by simp at e, fun _ => hd⟩
      · injection hs with hs; subst hs
        exact ⟨h.len, fun e => by simp at e, fun _ => hd⟩
      · split at hs
        · injection hs with hs; subst hs
          exact ⟨h.len, fun e => by simp at e, fun _ => hd⟩
        · split_ifs at hs
          · injection hs with hs; subst hs
            exact ⟨h.len, fun e' => by simp [e] at e', fun _ => hd⟩
          · injection hs with hs; subst hs
            exact ⟨h.len, fun e => by simp at e, fun _ => hd⟩
      · cases hs
  | work i ok =>
      simp only [step, workStep] at hs
      split at hs
      · cases hs
      · injection hs with hs; subst hs
        refine ⟨by simp [h.len], fun e => ?_, h.down⟩
        obtain ⟨h1, h2, h3⟩ := h.live e
        refine ⟨h1, h2, ?_⟩
        simp only [h1]
        exact set_not_exited h3 _ _ (by simp)
      · split at hs
        · injection hs with hs; subst hs
          refine ⟨by simp [h.len], fun e => ?_, h.down⟩
          obtain ⟨h1, h2, h3⟩ := h.live e
          exact ⟨h1, h2, set_not_exited h3 _ _ (by simp)⟩
        · rename_i q hq
          injection hs with hs; subst hs
          refine ⟨by simp [h.len], fun e => ?_, h.down⟩
          obtain ⟨h1, h2, h3⟩ := h.live e
          exact absurd (by rw [hq]; simp) h2
        · rename_i t q hq
          injection hs with hs; subst hs
          refine ⟨by simp [h.len], fun e => ?_, h.down⟩
          obtain ⟨h1, h2, h3⟩ := h.live e
          refine ⟨h1, fun hm => h2 (by rw [hq]; exact List.mem_cons_of_mem _ hm), set_not_exited h3 _ _ (by simp)⟩
      · injection hs with hs; subst hs
        refine ⟨by simp [h.len], fun e => ?_, h.down⟩
        obtain ⟨h1, h2, h3⟩ := h.live e
        exact ⟨h1, h2, set_not_exited h3 _ _ (by simp)⟩
      · cases hs

theorem run_inv (cap W : ℕ) (as : List (DAct τ)) : ∀ s s' : DSt τ, Inv' W s → run cap s as = some s' → Inv' W s' := by
  induction as with
  | nil => intro s s' h hr; simp only [run, Option.some.injEq] at hr; exact hr ▸ h
  | cons a as ih =>
      intro s s' h hr
      simp only [run, Option.bind_eq_some_iff] at hr
      obtain ⟨s1, h1, h2⟩ := hr
      exact ih s1 s' (step_inv cap W s s1 a h h1) h2

/-- A writer's step neither makes nor loses chunks if its write succeeds. -/
theorem work_handed (s s' : DSt τ) (i : ℕ) (ok : Bool) (hs : workStep s i ok = some s') (t : τ) :
    s'.bufs = s.bufs ∧ handed s' t ≤ handed s t ∧ (ok = true → handed s' t = handed s t) ∧ s.disk.count t ≤ s'.disk.count t := by
  simp only [workStep] at hs
  split at hs
  · cases hs
  · rename_i hw
    injection hs with hs; subst hs
    have := count_set' s.workers i .check (if s.shutdown then .exited else .get) (.write t) hw
    have e : (if s.shutdown then (WPc.exited : WPc τ) else .get) ≠ .write t := by split_ifs <;> simp
    rw [if_neg e, if_neg (by simp : (WPc.check : WPc τ) ≠ .write t)] at this
    simp only [handed]
    refine ⟨trivial, ?_, ?_, ?_⟩ <;> omega
  · rename_i hw
    split at hs
    · injection hs with hs; subst hs
      have := count_set' s.workers i .get .check (.write t) hw
      rw [if_neg (by simp), if_neg (by simp)] at this
      simp only [handed]
      refine ⟨trivial, ?_, ?_, ?_⟩ <;> omega
    · rename_i q hq
      injection hs with hs; subst hs
      have := count_set' s.workers i .get .exited (.write t) hw
      rw [if_neg (by simp), if_neg (by simp)] at this
      simp only [handed, hq, List.count_cons]
      simp only [beq_iff_eq, reduceCtorEq, if_false]
      refine ⟨trivial, ?_, ?_, ?_⟩ <;> omega
    · rename_i t' q hq
      injection hs with hs; subst hs
      have := count_set' s.workers i .get (.write t') (.write t) hw
      rw [if_neg (by simp)] at this
      simp only [WPc.write.injEq] at this
      simp only [handed, hq, List.count_cons]
      simp only [beq_iff_eq, Option.some.injEq]
      refine ⟨trivial, ?_, ?_, ?_⟩ <;> omega
  · rename_i t' hw
    injection hs with hs; subst hs
    have := count_set' s.workers i (.write t') .check (.write t) hw
    rw [if_neg (by simp : (WPc.check : WPc τ) ≠ .write t)] at this
    simp only [WPc.write.injEq] at this
    simp only [handed]
    cases ok
    · simp only [Bool.false_eq_true, if_false]
      refine ⟨trivial, ?_, ?_, ?_⟩
      · omega
      · intro h; cases h
      · omega
    · simp only [if_true, List.count_append, List.count_singleton, beq_iff_eq]
      refine ⟨trivial, ?_, ?_, ?_⟩ <;> omega
  · cases hs

/-! ## The reference is dropped -/

theorem dropped_step (cap W : ℕ) (hW : 0 < W) (s s' : DSt τ) (a : DAct τ) (h : Inv' W s) (hl : s.pc = .live)
    (hu : s.userRef = false) (hs : step cap s a = some s') :
    s'.pc = .live ∧ s'.userRef = false ∧ s'.bufs = s.bufs ∧ ∀ t, handed s' t ≤ handed s t := by
  cases a with
  | store t => simp [step, hu] at hs
  | hand t => simp [step, hu] at hs
  | drop => simp [step, hu] at hs
  | callDel => simp [step, hu] at hs
  | collect =>
      exfalso
      simp only [step] at hs
      split_ifs at hs with hc
      obtain ⟨w, hw⟩ : ∃ w, w ∈ s.workers := List.exists_mem_of_length_pos (by rw [h.len]; exact hW)
      have := hc.2.2 w hw
      exact (h.live hl).2.2 (this ▸ hw)
  | del ok => simp [step, delStep, hl] at hs
  | work i ok =>
      have hb := fun t => work_handed s s' i ok hs t
      refine ⟨?_, ?_, ?_, fun t => (hb t).2.1⟩
      · simp only [step, workStep] at hs
        split at hs
        · cases hs
        · injection hs with hs; subst hs; exact hl
        · split at hs <;> (injection hs with hs; subst hs; exact hl)
        · injection hs with hs; subst hs; exact hl
        · cases hs
      · simp only [step, workStep] at hs
        split at hs
        · cases hs
        · injection hs with hs; subst hs; exact hu
        · split at hs <;> (injection hs with hs; subst hs; exact hu)
        · injection hs with hs; subst hs; exact hu
        · cases hs
      · simp only [step, workStep] at hs
        split at hs
        · cases hs
        · injection hs with hs; subst hs; rfl
        · split at hs <;> (injection hs with hs; subst hs; rfl)
        · injection hs with hs; subst hs; rfl
        · cases hs

theorem dropped_run (cap W : ℕ) (hW : 0 < W) (as : List (DAct τ)) : ∀ s s' : DSt τ, Inv' W s → s.pc = .live →
    s.userRef = false → run cap s as = some s' →
    s'.pc = .live ∧ s'.userRef = false ∧ s'.bufs = s.bufs ∧ ∀ t, handed s' t ≤ handed s t := by
  induction as with
  | nil => intro s s' h hl hu hr; simp only [run, Option.some.injEq] at hr; subst hr; exact ⟨hl, hu, rfl, fun _ => Nat.le_refl _⟩
  | cons a as ih =>
      intro s s' h hl hu hr
      simp only [run, Option.bind_eq_some_iff] at hr
      obtain ⟨s1, h1, h2⟩ := hr
      obtain ⟨a1, a2, a3, a4⟩ := dropped_step cap W hW s s1 a h hl hu h1
      obtain ⟨b1, b2, b3, b4⟩ := ih s1 s' (step_inv cap W s s1 a h h1) a1 a2 h2
      exact ⟨b1, b2, b3.trans a3, fun t => Nat.le_trans (b4 t) (a4 t)⟩

/-- After the last reference outside is gone, a manager with at least one writer is never finalised, in no execution: what was in open
buffers stays there for ever, only chunks that had been handed over can still be written, and every writer goes on for ever. -/
theorem C206_dropped (cap W : ℕ) (hW : 0 < W) (before after : List (DAct τ)) (s s' : DSt τ)
    (hb : run cap (DSt.init τ W) before = some s) (hl : s.pc = .live) (hu : s.userRef = false)
    (ha : run cap s after = some s') :
    s'.pc = .live ∧ s'.bufs = s.bufs ∧ (∀ t, s'.disk.count t ≤ handed s t) ∧
      ∀ i < W, (step cap s' (.work i true)).isSome := by
  have hi := run_inv cap W before _ s (init_inv W) hb
  obtain ⟨h1, h2, h3, h4⟩ := dropped_run cap W hW after s s' hi hl hu ha
  have hi' := run_inv cap W after s s' hi ha
  refine ⟨h1, h3, fun t => ?_, fun i hlt => ?_⟩
  · have := h4 t
    simp only [handed] at this ⊢
    omega
  · have hlt' : i < s'.workers.length := by rw [hi'.len]; exact hlt
    have hg : s'.workers[i]? = some s'.workers[i] := List.getElem?_eq_getElem hlt'
    have hne : s'.workers[i] ≠ .exited := fun e => (hi'.live h1).2.2 (e ▸ List.getElem_mem hlt')
    simp only [step, workStep, hg]
    cases hw : s'.workers[i] with
    | check => rfl
    | get =>
        simp only
        cases s'.queue with
        | nil => rfl
        | cons x q => cases x <;> rfl
    | write t => rfl
    | exited => exact absurd hw hne

/-! ## The finaliser -/

theorem del_step (cap : ℕ) (s s' : DSt τ) (a : DAct τ) (hl : s.pc ≠ .live) (hd : s.shutdown = true)
    (hok : a ≠ .del false ∧ ∀ i, a ≠ .work i false) (hs : step cap s a = some s') :
    s'.pc ≠ .live ∧ s'.shutdown = true ∧ (∀ t, handed s' t + s'.bufs.count t = handed s t + s.bufs.count t) ∧
      (∀ t, s.disk.count t ≤ s'.disk.count t) ∧ (s'.pc = .done → s.pc = .done ∨ s'.bufs = []) ∧
      (s.pc = .done → s'.bufs = s.bufs) ∧
      (∀ t, s.disk.count t + s.bufs.count t ≤ s'.disk.count t + s'.bufs.count t) ∧
      waiting s + s'.workers.count .get ≤ waiting s' + s.workers.count .get := by
  cases a with
  | store t => simp [step, hl] at hs
  | hand t => simp [step, hl] at hs
  | drop => simp [step, hl] at hs
  | callDel => simp [step, hl] at hs
  | collect => simp [step, hl] at hs
  | del ok =>
      have hok' : ok = true := by
        cases ok
        · exact absurd rfl hok.1
        · rfl
      subst hok'
      simp only [step, delStep] at hs
      split at hs
      · cases hs
      · rename_i e
        injection hs with hs; subst hs
        simp [handed, waiting, hd, e]
      · rename_i n e
        split_ifs at hs
        injection hs with hs; subst hs
        simp [handed, waiting, hd, e, List.count_append]
      · rename_i e
        injection hs with hs; subst hs
        simp [handed, waiting, hd, e]
      · rename_i n e
        injection hs with hs; subst hs
        simp [handed, waiting, hd, e]
      · rename_i e
        split at hs
        · rename_i eb
          injection hs with hs; subst hs
          simp [handed, waiting, hd, e, eb]
        · rename_i t r eb
          simp only [if_true] at hs
          injection hs with hs; subst hs
          simp only [handed, waiting, hd, e, eb, List.count_append, List.count_cons, List.count_nil]
          refine ⟨by simp, trivial, fun t' => by omega, fun t' => by omega, fun h => by simp at h, fun h => by simp at h,
            fun t' => by omega, Nat.le_refl _⟩
      · cases hs
  | work i ok =>
      have hok' : ok = true := by
        cases ok
        · exact absurd rfl (hok.2 i)
        · rfl
      subst hok'
      have hb := fun t => work_handed s s' i true hs t
      have key : s'.pc = s.pc ∧ s'.shutdown = s.shutdown ∧ s'.bufs = s.bufs ∧
          waiting s + s'.workers.count .get ≤ waiting s' + s.workers.count .get := by
        simp only [step, workStep] at hs
        split at hs
        · cases hs
        · rename_i hw
          injection hs with hs; subst hs
          refine ⟨rfl, rfl, rfl, ?_⟩
          have := count_set' s.workers i .check (if s.shutdown then .exited else .get) .get hw
          rw [hd] at this
          simp only [waiting, hd, if_true] at this ⊢
          simp only [reduceCtorEq, if_false] at this
          omega
        · rename_i hw
          split at hs
          · injection hs with hs; subst hs
            refine ⟨rfl, rfl, rfl, ?_⟩
            have := count_set' s.workers i .get .check .get hw
            simp only [reduceCtorEq, if_false, if_true] at this
            simp only [waiting]
            omega
          · rename_i q hq
            injection hs with hs; subst hs
            refine ⟨rfl, rfl, rfl, ?_⟩
            have := count_set' s.workers i .get .exited .get hw
            simp only [reduceCtorEq, if_false, if_true] at this
            simp only [waiting, hq, List.filter_cons]
            simp only [Option.isSome_none, Bool.false_eq_true, if_false]
            omega
          · rename_i t q hq
            injection hs with hs; subst hs
            refine ⟨rfl, rfl, rfl, ?_⟩
            have := count_set' s.workers i .get (.write t) .get hw
            simp only [reduceCtorEq, if_false, if_true] at this
            simp only [waiting, hq, List.filter_cons]
            simp only [Option.isSome_some, if_true, List.length_cons]
            omega
        · rename_i t hw
          injection hs with hs; subst hs
          refine ⟨rfl, rfl, rfl, ?_⟩
          have := count_set' s.workers i (.write t) .check .get hw
          simp only [reduceCtorEq, if_false] at this
          simp only [waiting]
          omega
        · cases hs
      obtain ⟨k1, k2, k3, k4⟩ := key
      refine ⟨by rw [k1]; exact hl, by rw [k2]; exact hd, fun t => ?_, fun t => (hb t).2.2.2, fun h => Or.inl (k1 ▸ h),
        fun _ => k3, fun t => ?_, k4⟩
      · rw [(hb t).2.2.1 rfl, k3]
      · have := (hb t).2.2.2
        rw [k3]; omega

theorem del_run (cap : ℕ) (as : List (DAct τ)) : ∀ s s' : DSt τ, s.pc ≠ .live → s.shutdown = true → AllOk as →
    (s.pc = .done → s.bufs = []) → run cap s as = some s' →
    (∀ t, handed s' t + s'.bufs.count t = handed s t + s.bufs.count t) ∧ (s'.pc = .done → s'.bufs = []) ∧
      (∀ t, s.disk.count t + s.bufs.count t ≤ s'.disk.count t + s'.bufs.count t) ∧
      waiting s + s'.workers.count .get ≤ waiting s' + s.workers.count .get := by
  induction as with
  | nil =>
      intro s s' hl hd hok hdone hr
      simp only [run, Option.some.injEq] at hr
      subst hr
      exact ⟨fun _ => rfl, hdone, fun _ => Nat.le_refl _, Nat.le_refl _⟩
  | cons a as ih =>
      intro s s' hl hd hok hdone hr
      simp only [run, Option.bind_eq_some_iff] at hr
      obtain ⟨s1, h1, h2⟩ := hr
      obtain ⟨a1, a2, a3, a4, a5, a6, a7, a8⟩ := del_step cap s s1 a hl hd (hok a (by simp)) h1
      obtain ⟨b1, b2, b3, b4⟩ := ih s1 s' a1 a2 (fun x hx => hok x (by simp [hx]))
        (fun e => (a5 e).elim (fun e' => (a6 e').trans (hdone e')) id) h2
      refine ⟨fun t => (b1 t).trans (a3 t), b2, fun t => Nat.le_trans (a7 t) (b3 t), ?_⟩
      omega

/-- If the finaliser is called by hand and returns, and no write fails, then every open buffer is on disk, whatever was already on disk
is still there and every chunk is in exactly one place; but of the chunks that waited in the queue at most one per writer was taken
out, the others are never written. -/
theorem C206_finaliser (cap W : ℕ) (before after : List (DAct τ)) (s s' : DSt τ)
    (hb : run cap (DSt.init τ W) before = some s) (ha : run cap s (.callDel :: after) = some s') (hok : AllOk after)
    (hd : s'.pc = .done) :
    s'.bufs = [] ∧ (∀ t, s.disk.count t + s.bufs.count t ≤ s'.disk.count t) ∧
      (∀ t, handed s' t = handed s t + s.bufs.count t) ∧ waiting s ≤ waiting s' + W := by
  have hi := run_inv cap W before _ s (init_inv W) hb
  simp only [run, Option.bind_eq_some_iff] at ha
  obtain ⟨s1, h1, h2⟩ := ha
  simp only [step] at h1
  split_ifs at h1
  injection h1 with h1; subst h1
  obtain ⟨b1, b2, b3, b4⟩ := del_run cap after (startDel s) s' (by simp [startDel]) rfl hok (by simp [startDel]) h2
  have e := b2 hd
  refine ⟨e, fun t => ?_, fun t => ?_, ?_⟩
  · have := b3 t
    rw [e] at this
    simpa [startDel] using this
  · have := b1 t
    rw [e] at this
    simpa [startDel, handed] using this
  · have h1 := List.count_le_length (a := WPc.get) (l := s.workers)
    rw [hi.len] at h1
    simp only [startDel, waiting] at b4 ⊢
    omega

/-- With no writers at all the manager is finalised when it is dropped: exactly the open buffers are written, nothing of the queue. -/
theorem C206_no_workers (cap : ℕ) (before after : List (DAct τ)) (s s' : DSt τ)
    (hb : run cap (DSt.init τ 0) before = some s) (ha : run cap s (.collect :: after) = some s') (hok : AllOk after)
    (hd : s'.pc = .done) :
    s'.disk.Perm (s.disk ++ s.bufs) ∧ waiting s ≤ waiting s' := by
  have hi := run_inv cap 0 before _ s (init_inv 0) hb
  have hi' := run_inv cap 0 _ s s' hi ha
  simp only [run, Option.bind_eq_some_iff] at ha
  obtain ⟨s1, h1, h2⟩ := ha
  simp only [step] at h1
  split_ifs at h1
  injection h1 with h1; subst h1
  obtain ⟨b1, b2, b3, b4⟩ := del_run cap after (startDel s) s' (by simp [startDel]) rfl hok (by simp [startDel]) h2
  have e := b2 hd
  have w0 : s.workers = [] := List.eq_nil_of_length_eq_zero hi.len
  have w0' : s'.workers = [] := List.eq_nil_of_length_eq_zero hi'.len
  simp only [w0, w0', startDel, waiting, List.count_nil, Nat.add_zero] at b4
  refine ⟨?_, b4⟩
  rw [List.perm_iff_count]
  intro t
  have hq : ∀ (as : List (DAct τ)) (x y : DSt τ), x.workers = [] → x.pc ≠ .live → x.shutdown = true →
      run cap x as = some y → y.queue.count (some t) = x.queue.count (some t) := by
    intro as
    induction as with
    | nil => intro x y _ _ _ hr; simp only [run, Option.some.injEq] at hr; rw [hr]
    | cons a as ih =>
        intro x y hx hp hsd hr
        simp only [run, Option.bind_eq_some_iff] at hr
        obtain ⟨z, hz, hr⟩ := hr
        have : z.workers = [] ∧ z.pc ≠ .live ∧ z.shutdown = true ∧ z.queue.count (some t) = x.queue.count (some t) := by
          cases a with
          | store t => simp [step, hp] at hz
          | hand t => simp [step, hp] at hz
          | drop => simp [step, hp] at hz
          | callDel => simp [step, hp] at hz
          | collect => simp [step, hp] at hz
          | work i ok => simp [step, workStep, hx] at hz
          | del ok =>
              simp only [step, delStep] at hz
              split at hz
              · cases hz
              · injection hz with hz; subst hz; simp [hx, hsd]
              · split_ifs at hz
                injection hz with hz; subst hz; simp [hx, hsd, List.count_append]
              · injection hz with hz; subst hz; simp [hx, hsd]
              · injection hz with hz; subst hz; simp [hx, hsd]
              · split at hz
                · injection hz with hz; subst hz; simp [hx, hsd]
                · split_ifs at hz
                  · injection hz with hz; subst hz; simp [hx, hsd, hp]
                  · injection hz with hz; subst hz; simp [hx, hsd]
              · cases hz
        rw [ih z y this.1 this.2.1 this.2.2.1 hr, this.2.2.2]
  have h1 := b1 t
  have h2 := hq after (startDel s) s' w0 (by simp [startDel]) rfl h2
  rw [e] at h1
  simp only [handed, startDel, w0, w0', List.count_nil, List.count_append] at h1 h2 ⊢
  omega

/-- If the write queue is full and no writer is just about to take from it when the finaliser is called, it never returns: the writers
see the shutdown flag before they take anything, so the stop signal never finds room. -/
theorem C206_deadlock (cap W : ℕ) (hW : 0 < W) (hc : 0 < cap) (before after : List (DAct τ)) (s s' : DSt τ)
    (hb : run cap (DSt.init τ W) before = some s) (hfull : cap ≤ s.queue.length) (hg : WPc.get ∉ s.workers)
    (ha : run cap s (.callDel :: after) = some s') : s'.pc = .put W ∧ s'.bufs = s.bufs := by
  have hi := run_inv cap W before _ s (init_inv W) hb
  simp only [run, Option.bind_eq_some_iff] at ha
  obtain ⟨s1, h1, h2⟩ := ha
  simp only [step] at h1
  split_ifs at h1
  injection h1 with h1; subst h1
  have key : ∀ (as : List (DAct τ)) (x y : DSt τ), x.shutdown = true → WPc.get ∉ x.workers → cap ≤ x.queue.length →
      x.pc = .put W → run cap x as = some y → y.pc = .put W ∧ y.bufs = x.bufs := by
    intro as
    induction as with
    | nil => intro x y _ _ _ hp hr; simp only [run, Option.some.injEq] at hr; subst hr; exact ⟨hp, rfl⟩
    | cons a as ih =>
        intro x y hx hgx hq hp hr
        simp only [run, Option.bind_eq_some_iff] at hr
        obtain ⟨z, hz, hr⟩ := hr
        have : z.shutdown = true ∧ WPc.get ∉ z.workers ∧ cap ≤ z.queue.length ∧ z.pc = .put W ∧ z.bufs = x.bufs := by
          cases a with
          | store t => simp [step, hp] at hz
          | hand t => simp [step, hp] at hz
          | drop => simp [step, hp] at hz
          | callDel => simp [step, hp] at hz
          | collect => simp [step, hp] at hz
          | del ok =>
              exfalso
              obtain ⟨n, rfl⟩ : ∃ n, W = n + 1 := ⟨W - 1, by omega⟩
              simp only [step, delStep, hp] at hz
              have hr' : ¬(room cap x.queue = true) := by
                simp only [room, Bool.or_eq_true, decide_eq_true_eq]
                omega
              rw [if_neg hr'] at hz
              cases hz
          | work i ok =>
              have hset : ∀ w : WPc τ, w ≠ .get → WPc.get ∉ x.workers.set i w := by
                intro w hw hm
                rcases List.mem_or_eq_of_mem_set hm with h1 | h1
                · exact hgx h1
                · exact hw h1.symm
              simp only [step, workStep] at hz
              split at hz
              · cases hz
              · injection hz with hz; subst hz
                refine ⟨hx, ?_, hq, hp, rfl⟩
                rw [hx]
                exact hset _ (by simp)
              · rename_i hw
                exact absurd (mem_of_some hw) hgx
              · injection hz with hz; subst hz
                exact ⟨hx, hset _ (by simp), hq, hp, rfl⟩
              · cases hz
        obtain ⟨t1, t2, t3, t4, t5⟩ := this
        obtain ⟨u1, u2⟩ := ih z y t1 t2 t3 t4 hr
        exact ⟨u1, u2.trans t5⟩
  exact key after (startDel s) s' rfl hg hfull (by simp [startDel, hi.len]) h2

/-- A step of the finaliser. -/
def isDel : DAct τ → Bool
  | .del _ => true
  | _ => false

/-- How many steps of its own the finaliser has left, at most. -/
def left (s : DSt τ) : ℕ :=
  match s.pc with
  | .live => 0
  | .put n => n + s.workers.length + s.bufs.length + 3
  | .join n => n + s.bufs.length + 2
  | .flush => s.bufs.length + 1
  | .done => 0

/-- There is room for the stop signals still to be put. -/
def fits (cap : ℕ) (s : DSt τ) : Prop := ∀ n, s.pc = .put n → cap = 0 ∨ s.queue.length + n ≤ cap

omit [DecidableEq τ] in
theorem left_del (cap : ℕ) (s s' : DSt τ) (ok : Bool) (hf : fits cap s) (hs : delStep cap s ok = some s') :
    s'.pc ≠ .live ∧ fits cap s' ∧ left s' + 1 ≤ left s := by
  unfold delStep at hs
  split at hs
  · cases hs
  · rename_i hp
    injection hs with hs; subst hs
    exact ⟨by simp, by intro n h; simp at h, by simp only [left, hp]; omega⟩
  · rename_i n hp
    split_ifs at hs
    injection hs with hs; subst hs
    refine ⟨by simp, ?_, by simp only [left, hp]; omega⟩
    intro m h
    simp only [MPc.put.injEq] at h
    subst h
    rcases hf _ hp with h | h
    · exact Or.inl h
    · right
      simp only [List.length_append, List.length_singleton]
      omega
  · rename_i hp
    injection hs with hs; subst hs
    exact ⟨by simp, by intro n h; simp at h, by simp only [left, hp]; omega⟩
  · rename_i n hp
    injection hs with hs; subst hs
    exact ⟨by simp, by intro n h; simp at h, by simp only [left, hp]; omega⟩
  · rename_i hp
    split at hs
    · injection hs with hs; subst hs
      exact ⟨by simp, by intro n h; simp at h, by simp only [left, hp]; omega⟩
    · rename_i t r hb
      split_ifs at hs
      · injection hs with hs; subst hs
        exact ⟨by simp [hp], by intro n h; simp [hp] at h, by simp only [left, hp, hb, List.length_cons]; omega⟩
      · injection hs with hs; subst hs
        exact ⟨by simp, by intro n h; simp at h, by simp only [left, hp]; omega⟩
  · cases hs

omit [DecidableEq τ] in
theorem left_work (cap : ℕ) (s s' : DSt τ) (i : ℕ) (ok : Bool) (hf : fits cap s) (hs : workStep s i ok = some s') :
    s'.pc = s.pc ∧ fits cap s' ∧ left s' = left s := by
  unfold workStep at hs
  split at hs
  · cases hs
  · injection hs with hs; subst hs
    exact ⟨rfl, hf, by simp [left]⟩
  · split at hs
    · injection hs with hs; subst hs
      exact ⟨rfl, hf, by simp [left]⟩
    · rename_i q hq
      injection hs with hs; subst hs
      refine ⟨rfl, ?_, by simp [left]⟩
      intro n h
      have := hf n h
      rw [hq, List.length_cons] at this
      exact this.imp id (fun h => by simp only; omega)
    · rename_i t q hq
      injection hs with hs; subst hs
      refine ⟨rfl, ?_, by simp [left]⟩
      intro n h
      have := hf n h
      rw [hq, List.length_cons] at this
      exact this.imp id (fun h => by simp only; omega)
  · injection hs with hs; subst hs
    exact ⟨rfl, hf, by simp [left]⟩
  · cases hs

theorem left_run (cap : ℕ) (as : List (DAct τ)) : ∀ s s' : DSt τ, s.pc ≠ .live → fits cap s → run cap s as = some s' →
    s'.pc ≠ .live ∧ fits cap s' ∧ left s' + (as.filter isDel).length ≤ left s := by
  induction as with
  | nil => intro s s' hl hf h; simp only [run, Option.some.injEq] at h; subst h; exact ⟨hl, hf, by simp⟩
  | cons a as ih =>
      intro s s' hl hf h
      simp only [run, Option.bind_eq_some_iff] at h
      obtain ⟨z, hz, hr⟩ := h
      cases a with
      | store t => simp [step, hl] at hz
      | hand t => simp [step, hl] at hz
      | drop => simp [step, hl] at hz
      | callDel => simp [step, hl] at hz
      | collect => simp [step, hl] at hz
      | del ok =>
          obtain ⟨h1, h2, h3⟩ := left_del cap s z ok hf hz
          obtain ⟨h4, h5, h6⟩ := ih z s' h1 h2 hr
          exact ⟨h4, h5, by simp only [isDel, List.filter_cons, if_true, List.length_cons]; omega⟩
      | work i ok =>
          obtain ⟨h1, h2, h3⟩ := left_work cap s z i ok hf hz
          obtain ⟨h4, h5, h6⟩ := ih z s' (h1 ▸ hl) h2 hr
          exact ⟨h4, h5, by simpa [isDel] using h3 ▸ h6⟩

/-- If the write queue has no limit, or room for one stop signal per writer, when the finaliser is called, it returns: whatever the
writers do it can always go on, and it needs at most twice as many steps as there are writers and one for each open buffer, plus three. -/
theorem C206_returns (cap W : ℕ) (before after : List (DAct τ)) (s s' : DSt τ)
    (hb : run cap (DSt.init τ W) before = some s) (hroom : cap = 0 ∨ s.queue.length + W ≤ cap)
    (ha : run cap s (.callDel :: after) = some s') :
    (s'.pc = .done ∨ (step cap s' (.del true)).isSome) ∧ (after.filter isDel).length ≤ 2 * W + s.bufs.length + 3 := by
  have hi := run_inv cap W before _ s (init_inv W) hb
  simp only [run, Option.bind_eq_some_iff] at ha
  obtain ⟨s1, h1, h2⟩ := ha
  simp only [step] at h1
  split_ifs at h1
  injection h1 with h1; subst h1
  have hf : fits cap (startDel s) := by
    intro n h
    simp only [startDel, MPc.put.injEq, hi.len] at h
    subst h
    exact hroom
  obtain ⟨a1, a2, a3⟩ := left_run cap after (startDel s) s' (by simp [startDel]) hf h2
  refine ⟨?_, ?_⟩
  · by_cases hd : s'.pc = .done
    · exact Or.inl hd
    · right
      simp only [step, delStep]
      split
      · rename_i h; exact absurd h a1
      · rfl
      · rename_i n hp
        have : room cap s'.queue = true := by
          simp only [room, Bool.or_eq_true, decide_eq_true_eq]
          rcases a2 _ hp with h | h
          · exact Or.inl h
          · right; omega
        rw [if_pos this]; rfl
      · rfl
      · rfl
      · split <;> rfl
      · rename_i h; exact absurd h hd
  · simp only [left, startDel, hi.len] at a3
    omega

/-! ## Examples -/

/-- The hypotheses of `C206_dropped`: a chunk is left in an open buffer. -/
example : (run 2 (DSt.init ℕ 1) [.store 5, .store 6, .hand 5, .work 0 true, .drop, .work 0 true, .work 0 true]).map
    (fun s => (s.pc, s.bufs, s.disk, s.userRef)) = some (.live, [6], [5], false) := by decide

/-- The finaliser returns while two of the three queued chunks are still waiting. -/
example : (run 8 (DSt.init ℕ 1) [.store 1, .store 2, .store 3, .store 4, .hand 1, .hand 2, .hand 3, .work 0 true, .callDel,
    .del true, .work 0 true, .work 0 true, .work 0 true, .del true, .del true, .del true, .del true, .del true]).map
    (fun s => (s.pc, s.bufs, s.disk, s.queue)) = some (.done, [], [1, 4], [some 2, some 3, none]) := by decide

/-- Without writers. -/
example : (run 8 (DSt.init ℕ 0) [.store 1, .store 2, .hand 1, .drop, .collect, .del true, .del true, .del true, .del true]).map
    (fun s => (s.pc, s.disk, s.queue)) = some (.done, [2], [some 1]) := by decide

/-- A full queue and a busy writer. -/
example : (run 1 (DSt.init ℕ 1) [.store 1, .store 2, .hand 1, .work 0 true, .work 0 true, .hand 2]).map
    (fun s => (s.queue.length, decide (WPc.get ∈ s.workers))) = some (1, false) := by decide

/-- A queue without a limit, and the finaliser returns after eight steps of its own. -/
example : (run 0 (DSt.init ℕ 2) [.store 1, .store 2, .hand 1, .callDel, .del true, .del true, .del true, .del true, .del true, .del true, .del true,
    .del true]).map (fun s => (s.pc, s.bufs, s.disk, s.queue)) = some (.done, [], [2], [some 1, none, none]) := by decide

end Verif.Disk.Drop
