import Verif.Disk.Discipline

/-!
# C62, C63, C64: durability of the disk writer

All statements quantify over every schedule of the storing thread and the writers.
-/

namespace Verif.Disk

variable {R : Type} {cfg : Cfg}

/-- `finalize_batch_range` returns in this step, after having flushed and waited. -/
def Returns (cfg : Cfg) (st st' : St R) : Prop :=
  step cfg st .prod = some st' ∧ st'.ev = .finalized :: st.ev

/-- The only step that adds a return to the history. -/
theorem step_finalized {st st' : St R} {a : Act R} (h : step cfg st a = some st') :
    (∃ l, st'.ev = l ++ st.ev ∧ Ev.finalized ∉ l) ∨
    (st.pc = .wait ∧ st.pending = [] ∧ a = .prod ∧ st'.ev = .finalized :: st.ev) := by
  cases a with
  | callStart s e =>
    simp only [step] at h
    cases hp : st.pc <;> rw [hp] at h <;> simp only [Option.some.injEq, reduceCtorEq] at h
    subst h
    unfold startRange
    split_ifs
    · exact Or.inl ⟨[_], rfl, by simp⟩
    · exact Or.inl ⟨[_], rfl, by simp⟩
  | callStore dt b rows =>
    simp only [step] at h
    cases hp : st.pc <;> rw [hp] at h <;> simp only [Option.some.injEq, reduceCtorEq] at h
    subst h
    left
    have h4 : (openBuffer st (dt, chunkId cfg b)).1.ev = st.ev := by
      unfold openBuffer
      cases PyDict.get? st.buffers (dt, chunkId cfg b) <;> rfl
    unfold store storeIn
    generalize (openBuffer st (dt, chunkId cfg b)).1 = st1 at *
    generalize (openBuffer st (dt, chunkId cfg b)).2 = buf at *
    split_ifs
    · exact ⟨[_], by rw [← h4]; rfl, by simp⟩
    · rcases ev_beginFlush { st1 with ev := .overflow (dt, chunkId cfg b) :: st1.ev }
        (dt, chunkId cfg b) (.retry (dt, chunkId cfg b) b rows) with h5 | h5
      · exact ⟨[_], by rw [h5, ← h4]; rfl, by simp⟩
      · exact ⟨[_, _], by rw [h5, ← h4]; rfl, by simp⟩
    · obtain ⟨l, h5, h6⟩ := ev_append cfg st1 (dt, chunkId cfg b) b rows
      exact ⟨l, by rw [h5, h4], h6⟩
  | callFinalize =>
    simp only [step] at h
    cases hp : st.pc <;> rw [hp] at h <;> simp only [Option.some.injEq, reduceCtorEq] at h
    subst h
    unfold finalize
    cases st.range
    · exact Or.inl ⟨[_], rfl, by simp⟩
    · exact Or.inl ⟨[], rfl, by simp⟩
  | prod =>
    simp only [step] at h
    unfold prodStep at h
    cases hp : st.pc with
    | idle => rw [hp] at h; cases h
    | mark t c => rw [hp] at h; cases h; exact Or.inl ⟨[], rfl, by simp⟩
    | put t c =>
      rw [hp] at h
      simp only at h
      split_ifs at h
      cases h; exact Or.inl ⟨[], rfl, by simp⟩
    | resume c =>
      rw [hp] at h
      cases c with
      | done => cases h; exact Or.inl ⟨[], rfl, by simp⟩
      | retry k b rows =>
        cases h
        obtain ⟨l, h5, h6⟩ := ev_append cfg { st with buffers := PyDict.set k ⟨[], []⟩ st.buffers, pc := .resume (.retry k b rows) } k b rows
        exact Or.inl ⟨l, h5, h6⟩
      | flushAll ks => cases h; exact Or.inl ⟨[], rfl, by simp⟩
    | flushAll ks =>
      rw [hp] at h
      cases ks with
      | nil => cases h; exact Or.inl ⟨[], rfl, by simp⟩
      | cons k ks =>
        cases h
        rcases ev_beginFlush st k (.flushAll ks) with h5 | h5
        · exact Or.inl ⟨[], h5, by simp⟩
        · exact Or.inl ⟨[_], h5, by simp⟩
    | wait =>
      rw [hp] at h
      simp only at h
      split_ifs at h with h1
      · cases h; exact Or.inr ⟨rfl, h1, rfl, rfl⟩
      · cases h; exact Or.inl ⟨[], rfl, by simp⟩
  | take =>
    simp only [step] at h
    unfold takeStep at h
    cases hq : st.queue with
    | nil => rw [hq] at h; cases h
    | cons t q =>
      rw [hq] at h
      simp only at h
      split_ifs at h
      cases h; exact Or.inl ⟨[], rfl, by simp⟩
  | work i =>
    simp only [step] at h
    unfold workStep at h
    cases hb : st.busy[i]? with
    | none => rw [hb] at h; cases h
    | some x =>
      obtain ⟨ph, t⟩ := x
      rw [hb] at h
      cases ph with
      | got =>
        simp only at h
        cases hpth : pathOf t.key.1 t.info <;> rw [hpth] at h <;> cases h
        exact Or.inl ⟨[], rfl, by simp⟩
      | data =>
        simp only at h
        cases hpth : pathOf t.key.1 t.info <;> rw [hpth] at h <;> cases h
        exact Or.inl ⟨[], rfl, by simp⟩
      | done => cases h; exact Or.inl ⟨[], rfl, by simp⟩
  | fail i =>
    simp only [step] at h
    unfold failStep at h
    cases hb : st.busy[i]? with
    | none => rw [hb] at h; cases h
    | some x =>
      obtain ⟨ph, t⟩ := x
      rw [hb] at h
      cases ph with
      | got => cases h; exact Or.inl ⟨[_], rfl, by simp⟩
      | data => cases h; exact Or.inl ⟨[_], rfl, by simp⟩
      | done => cases h

theorem returns_iff {st st' : St R} (h : Returns cfg st st') :
    st.pc = .wait ∧ st.pending = [] ∧
      st' = { st with pc := .idle, range := none, ev := .finalized :: st.ev } := by
  obtain ⟨h1, h2⟩ := h
  rcases step_finalized h1 with ⟨l, h3, h4⟩ | ⟨h3, h4, -, -⟩
  · rw [h2] at h3
    cases l with
    | nil =>
      have := congrArg List.length h3
      simp at this
    | cons e t =>
      rw [List.cons_append] at h3
      injection h3 with h5 h6
      exact absurd (h5 ▸ List.mem_cons_self) h4
  · refine ⟨h3, h4, ?_⟩
    simp only [step] at h1
    unfold prodStep at h1
    rw [h3] at h1
    simp only at h1
    rw [if_pos h4] at h1
    cases h1
    rfl

theorem durable_of_good {st st' : St R} (hg : Good cfg st) (hpc : PcInv cfg st)
    (hr : Returns cfg st st') :
    (∀ k b rows, Ev.stored k b rows ∈ epoch st.ev → OnDisk st' k.1 b rows) ∧
      ∀ k, Ev.failed k ∉ epoch st.ev := by
  obtain ⟨h1, h2, rfl⟩ := returns_iff hr
  have hf : ∀ k, Ev.failed k ∉ epoch st.ev := by
    intro k hk
    have := (hg.failedIn k hk).1
    rw [h2] at this; cases this
  refine ⟨?_, hf⟩
  intro k b rows hs
  rcases hg.loc k b rows hs with ⟨buf, h3, _⟩ | ⟨x, h3, _⟩ | ⟨_, _, p, info, tensor, e1, e2, e3⟩ | h3
  · have : k ∈ PyDict.keys st.buffers := by
      rw [← PyDict.get?_isSome, h3]; rfl
    have := hpc (.flushAll []) (by rw [h1]; rfl) k this
    cases this
  · have hx : x.1 ≠ .fresh := by
      unfold out at h3
      rw [h1] at h3
      rcases List.mem_append.1 h3 with h4 | h4
      · obtain ⟨t, _, rfl⟩ := List.mem_map.1 (by exact h4)
        intro h; cases h
      · obtain ⟨⟨ph, t⟩, _, rfl⟩ := List.mem_map.1 h4
        cases ph <;> intro h <;> cases h
    have := hg.marked x h3 hx
    rw [h2] at this; cases this
  · exact ⟨p, info, tensor, e1, e3⟩
  · exact absurd h3 (hf k)

/-- **C62** (durability).  Take any schedule, from any initial disk, in which no chunk is flushed twice
between two returns of `finalize_batch_range`.  When `finalize_batch_range` returns, every batch stored
since the previous return is on disk, with its rows, in a chunk file of its data type; and none of the
writes raised. -/
theorem C62_durable (df : Path → Option (List R)) (mf : Path → Option (List Info))
    (acts : List (Act R)) {st st' : St R} (hex : exec cfg (St.init df mf) acts = some st)
    (hfo : FlushOnce st.ev) (hr : Returns cfg st st') :
    (∀ k b rows, Ev.stored k b rows ∈ epoch st.ev → OnDisk st' k.1 b rows) ∧
      ∀ k, Ev.failed k ∉ epoch st.ev := by
  obtain ⟨g1, g2⟩ := good_init (cfg := cfg) df mf
  obtain ⟨g3, g4⟩ := good_exec g1 g2 hex hfo
  exact durable_of_good g3 g4 hr

/-- **C62** (in terms of calls only).  The same for disciplined use: per return of
`finalize_batch_range` one `start_batch_range`, each batch inside the range and stored once per data
type, no batch without rows and no overflow. -/
theorem C62_disciplined (df : Path → Option (List R)) (mf : Path → Option (List Info))
    (acts : List (Act R)) {st st' : St R} (hex : exec cfg (St.init df mf) acts = some st)
    (hd : Disciplined st.ev) (hr : Returns cfg st st') :
    (∀ k b rows, Ev.stored k b rows ∈ epoch st.ev → OnDisk st' k.1 b rows) ∧
      ∀ k, Ev.failed k ∉ epoch st.ev := by
  obtain ⟨g1, g2⟩ := good_init (cfg := cfg) df mf
  obtain ⟨_, _, g3, g4⟩ := disciplined_exec hex hd (k_init df mf) trivial g1 g2
  exact durable_of_good g3 g4 hr

/-! ### Finalising terminates when writes succeed -/

/-- Steps of the writers that succeed. -/
def Act.works : Act R → Prop
  | .take => True
  | .work _ => True
  | _ => False

/-- Remaining work of a writer. -/
def Phase.left : Phase → ℕ
  | .got => 3
  | .data => 2
  | .done => 1

/-- Remaining work of all writers. -/
def left (st : St R) : ℕ := 4 * st.queue.length + (st.busy.map fun x => x.1.left).sum

theorem sum_front {st : St R} {i : ℕ} {x : Phase × Task R} (h : st.busy[i]? = some x) :
    (st.busy.map fun x => x.1.left).sum =
      x.1.left + ((st.busy.eraseIdx i).map fun x => x.1.left).sum := by
  have := ((perm_front h).map fun x : Phase × Task R => x.1.left).symm.sum_nat
  rw [this, List.map_cons, List.sum_cons]

theorem sum_set {st : St R} {i : ℕ} {x y : Phase × Task R} (h : st.busy[i]? = some x) :
    ((st.busy.set i y).map fun x => x.1.left).sum =
      y.1.left + ((st.busy.eraseIdx i).map fun x => x.1.left).sum := by
  have := ((perm_set (y := y) h).map fun x : Phase × Task R => x.1.left).symm.sum_nat
  rw [this, List.map_cons, List.sum_cons]

/-- A successful step of a writer leaves less to do and nothing else changes. -/
theorem works_step {st st' : St R} {a : Act R} (ha : a.works) (h : step cfg st a = some st') :
    left st' < left st ∧ st'.ev = st.ev ∧ st'.pc = st.pc := by
  cases a with
  | take =>
    simp only [step] at h
    unfold takeStep at h
    cases hq : st.queue with
    | nil => rw [hq] at h; cases h
    | cons t q =>
      rw [hq] at h
      simp only at h
      split_ifs at h
      cases h
      refine ⟨?_, rfl, rfl⟩
      unfold left
      rw [hq]
      simp only [List.length_cons, List.map_append, List.map_cons, List.map_nil, List.sum_append,
        List.sum_cons, List.sum_nil, Phase.left]
      omega
  | work i =>
    simp only [step] at h
    unfold workStep at h
    cases hb : st.busy[i]? with
    | none => rw [hb] at h; cases h
    | some x =>
      obtain ⟨ph, t⟩ := x
      rw [hb] at h
      have h1 := sum_front hb
      cases ph with
      | got =>
        simp only at h
        cases hpth : pathOf t.key.1 t.info <;> rw [hpth] at h <;> cases h
        refine ⟨?_, rfl, rfl⟩
        have h2 := sum_set (y := (.data, t)) hb
        show 4 * st.queue.length + ((st.busy.set i (Phase.data, t)).map fun x => x.1.left).sum < _
        unfold left
        rw [h1, h2]
        simp only [Phase.left]
        omega
      | data =>
        simp only at h
        cases hpth : pathOf t.key.1 t.info <;> rw [hpth] at h <;> cases h
        refine ⟨?_, rfl, rfl⟩
        have h2 := sum_set (y := (.done, t)) hb
        show 4 * st.queue.length + ((st.busy.set i (Phase.done, t)).map fun x => x.1.left).sum < _
        unfold left
        rw [h1, h2]
        simp only [Phase.left]
        omega
      | done =>
        cases h
        refine ⟨?_, rfl, rfl⟩
        show 4 * st.queue.length + ((st.busy.eraseIdx i).map fun x => x.1.left).sum < _
        unfold left
        rw [h1]
        simp only [Phase.left]
        omega
  | callStart s e => exact ha.elim
  | callStore dt b rows => exact ha.elim
  | callFinalize => exact ha.elim
  | prod => exact ha.elim
  | fail i => exact ha.elim

theorem works_exec {st st' : St R} {acts : List (Act R)} (ha : ∀ a ∈ acts, a.works)
    (h : exec cfg st acts = some st') :
    acts.length + left st' ≤ left st ∧ st'.ev = st.ev ∧ st'.pc = st.pc := by
  induction acts generalizing st with
  | nil => cases h; exact ⟨by simp, rfl, rfl⟩
  | cons a t ih =>
    rw [exec_cons] at h
    obtain ⟨s1, h1, h2⟩ := Option.bind_eq_some_iff.1 h
    obtain ⟨w1, w2, w3⟩ := works_step (ha a List.mem_cons_self) h1
    obtain ⟨v1, v2, v3⟩ := ih (fun a h => ha a (List.mem_cons_of_mem _ h)) h2
    refine ⟨?_, v2.trans w2, v3.trans w3⟩
    rw [List.length_cons]
    omega

/-- **C62** (`finalize_batch_range` does return).  In a disciplined run in which no write has raised,
let `finalize_batch_range` be waiting.  Then the writers can make at most `left st` successful steps, and
when they have made all the steps they can, in whatever order, the next look at the pending set lets
`finalize_batch_range` return. -/
theorem C62_returns (hw : 0 < cfg.workers) (df : Path → Option (List R))
    (mf : Path → Option (List Info)) (acts more : List (Act R)) {st st1 : St R}
    (hex : exec cfg (St.init df mf) acts = some st) (hd : Disciplined st.ev) (hwait : st.pc = .wait)
    (hnf : ∀ k, Ev.failed k ∉ epoch st.ev) (hm : ∀ a ∈ more, a.works)
    (hmore : exec cfg st more = some st1) :
    more.length ≤ left st ∧
      ((∀ a : Act R, a.works → step cfg st1 a = none) → ∃ st2, Returns cfg st1 st2) := by
  obtain ⟨m1, m2, m3⟩ := works_exec hm hmore
  refine ⟨by omega, ?_⟩
  intro hstuck
  obtain ⟨g1, g2⟩ := good_init (cfg := cfg) df mf
  have hex1 : exec cfg (St.init df mf) (acts ++ more) = some st1 := by
    rw [exec_append, hex]; exact hmore
  obtain ⟨k1, _, g3, g4⟩ := disciplined_exec hex1 (by rw [m2]; exact hd) (k_init df mf) trivial g1 g2
  have hbusy : st1.busy = [] := by
    cases hb : st1.busy with
    | nil => rfl
    | cons x t =>
      obtain ⟨ph, t0⟩ := x
      have h0 : st1.busy[0]? = some (ph, t0) := by rw [hb]; rfl
      have hne : t0.info ≠ [] := k1.taskNe (ph.stage, t0)
        ((out_front h0).symm.mem_iff.1 List.mem_cons_self)
      have hs := hstuck (.work 0) trivial
      simp only [step] at hs
      unfold workStep at hs
      rw [h0] at hs
      obtain ⟨p, hp⟩ : ∃ p, pathOf t0.key.1 t0.info = some p := by
        cases hi : t0.info with
        | nil => exact absurd hi hne
        | cons i is => exact ⟨_, rfl⟩
      cases ph with
      | got => simp only at hs; rw [hp] at hs; cases hs
      | data => simp only at hs; rw [hp] at hs; cases hs
      | done => cases hs
  have hqueue : st1.queue = [] := by
    cases hq : st1.queue with
    | nil => rfl
    | cons t q =>
      have hs := hstuck .take trivial
      simp only [step] at hs
      unfold takeStep at hs
      rw [hq] at hs
      simp only at hs
      rw [if_pos (by rw [hbusy]; exact hw)] at hs
      cases hs
  have hpend : st1.pending = [] := by
    rw [List.eq_nil_iff_forall_not_mem]
    intro k hk
    rcases g3.pendOut k hk with h1 | h1
    · unfold out at h1
      rw [hqueue, hbusy, m3, hwait] at h1
      cases h1
    · rw [m2] at h1
      exact hnf k h1
  refine ⟨{ st1 with pc := .idle, range := none, ev := .finalized :: st1.ev }, ?_, rfl⟩
  simp only [step]
  unfold prodStep
  rw [m3, hwait]
  simp only
  rw [if_pos hpend]

/-! ### Failed writes -/

theorem epoch_append {l r : List (Ev R)} (h : Ev.finalized ∉ l) : epoch (l ++ r) = l ++ epoch r := by
  induction l with
  | nil => rfl
  | cons e t ih =>
    rw [List.cons_append, epoch_cons _ (fun he => h (he ▸ List.mem_cons_self)), ih
      (fun h1 => h (List.mem_cons_of_mem _ h1)), List.cons_append]

/-- **C64** (a failed write blocks `finalize_batch_range` for ever).  If a write of chunk `k` has raised
since the last return, then in every continuation, of any length, in which no chunk is flushed twice,
the pending mark of `k` stays and `finalize_batch_range` does not return. -/
theorem C64_hangs (df : Path → Option (List R)) (mf : Path → Option (List Info))
    (acts more : List (Act R)) {st st1 : St R} {k : Key}
    (hex : exec cfg (St.init df mf) acts = some st) (hk : Ev.failed k ∈ epoch st.ev)
    (hmore : exec cfg st more = some st1) (hfo : FlushOnce st1.ev) :
    k ∈ st1.pending ∧ (∃ l, st1.ev = l ++ st.ev ∧ Ev.finalized ∉ l) ∧
      ∀ st2, ¬ Returns cfg st1 st2 := by
  obtain ⟨g1, g2⟩ := good_init (cfg := cfg) df mf
  obtain ⟨l0, e0⟩ := ev_exec hmore
  obtain ⟨g3, g4⟩ := good_exec g1 g2 hex (by rw [e0] at hfo; exact flushOnce_append hfo)
  clear hex g1 g2 e0 l0
  induction more generalizing st with
  | nil =>
    cases hmore
    have hp := (g3.failedIn k hk).1
    refine ⟨hp, ⟨[], rfl, by simp⟩, ?_⟩
    intro st2 hr
    have := (returns_iff hr).2.1
    rw [this] at hp
    cases hp
  | cons a t ih =>
    rw [exec_cons] at hmore
    obtain ⟨s1, h1, h2⟩ := Option.bind_eq_some_iff.1 hmore
    obtain ⟨l1, e1⟩ := ev_exec h2
    obtain ⟨g5, g6⟩ := good_step g3 g4 h1 (by rw [e1] at hfo; exact flushOnce_append hfo)
    rcases step_finalized h1 with ⟨l, h3, h4⟩ | ⟨h3, h4, -, -⟩
    · obtain ⟨c1, ⟨l2, c2, c3⟩, c4⟩ := ih (by
        rw [h3, epoch_append h4]; exact List.mem_append_right _ hk) h2 g5 g6
      refine ⟨c1, ⟨l2 ++ l, by rw [c2, h3, List.append_assoc], ?_⟩, c4⟩
      rw [List.mem_append]
      rintro (h | h)
      · exact c3 h
      · exact h4 h
    · have := (g3.failedIn k hk).1
      rw [h4] at this
      cases this

/-! ### Double flush -/

/-- Two batches of one chunk: batch 0 fills the buffer, batch 1 overflows it; a writer takes the task of
the first one. -/
def overActs (r1 r2 : List R) : List (Act R) :=
  [.callStart 0 2, .callStore .gradients 0 r1, .callStore .gradients 1 r2, .prod, .prod, .take, .prod]

/-- The state after `overActs`. -/
def overSt (r1 r2 : List R) : St R :=
  { buffers := [((.gradients, 0), ⟨r2, [⟨1, 0, r2.length⟩]⟩)], pending := [(.gradients, 0)], queue := [],
    busy := [(.got, ⟨(.gradients, 0), r1, [⟨0, 0, r1.length⟩]⟩)], dataFile := fun _ => none,
    metaFile := fun _ => none, range := some (0, 2), pc := .idle,
    ev := [.stored (.gradients, 0) 1 r2, .flushed (.gradients, 0), .overflow (.gradients, 0),
      .stored (.gradients, 0) 0 r1, .started 0 2] }

theorem over_exec (cfg : Cfg) (hc : 2 ≤ cfg.chunkSize) (hq : 0 < cfg.queueCap) (hw : 0 < cfg.workers)
    (r1 r2 : List R) (h1 : 0 < r1.length) (h1' : r1.length ≤ cfg.maxRows) (h2 : 0 < r2.length)
    (h2' : r2.length ≤ cfg.maxRows) (h12 : cfg.maxRows < r1.length + r2.length) :
    exec cfg (St.init (fun _ => none) (fun _ => none)) (overActs r1 r2) = some (overSt r1 r2) := by
  have hc0 : 0 / cfg.chunkSize = 0 := Nat.zero_div _
  have hc1 : 1 / cfg.chunkSize = 0 := Nat.div_eq_of_lt (by omega)
  have hm : min cfg.chunkSize 2 = 2 := Nat.min_eq_right hc
  have n1 : ¬ r1 = [] := by rintro rfl; cases h1
  have n2 : ¬ r2 = [] := by rintro rfl; cases h2
  have n3 : ¬ cfg.maxRows < r1.length := by omega
  have n4 : ¬ cfg.maxRows < r2.length := by omega
  simp [exec, overActs, overSt, St.init, step, startRange, store, storeIn, openBuffer, append,
    beginFlush, isComplete, prodStep, takeStep, chunkId, hc0, hc1, hm, PyDict.get?, PyDict.set,
    PyDict.erase, n1, n2, n3, n4, h12, hq, hw, List.range_succ]

/-- `finalize_batch_range` up to its waiting loop when one buffer is left. -/
theorem finalize_one (cfg : Cfg) {st : St R} {k : Key} {buf : Buffer R} (hpc : st.pc = .idle)
    {r : ℕ × ℕ} (hr : st.range = some r) (hb : st.buffers = [(k, buf)]) (hp : k ∈ st.pending)
    (hq : st.queue.length < cfg.queueCap) :
    exec cfg st [.callFinalize, .prod, .prod, .prod, .prod, .prod] =
      some { st with buffers := [], queue := st.queue ++ [⟨k, buf.tensor, buf.info⟩], pc := .wait,
                     ev := .flushed k :: st.ev } := by
  obtain ⟨b, pe, q, bu, df, mf, ra, pc, ev⟩ := st
  simp only at hpc hr hb hp hq
  subst hpc; subst hr; subst hb
  simp [exec, step, finalize, prodStep, beginFlush, PyDict.keys, PyDict.get?, PyDict.erase, hp, hq]

/-- A writer finishes its task. -/
theorem write_one (cfg : Cfg) {st : St R} {t : Task R} {p : Path} (hb : st.busy = [(.got, t)])
    (hp : pathOf t.key.1 t.info = some p) :
    exec cfg st [.work 0, .work 0, .work 0] =
      some { st with busy := [], dataFile := put st.dataFile p t.tensor,
                     metaFile := put st.metaFile p t.info,
                     pending := st.pending.filter fun k => decide (k ≠ t.key) } := by
  obtain ⟨b, pe, q, bu, df, mf, ra, pc, ev⟩ := st
  simp only at hb
  subst hb
  simp [exec, step, workStep, setBusy, hp]

/-- The schedule of `C63_race`: after `overActs`, `finalize_batch_range` flushes the second task and the
writer finishes the first. -/
def raceActs (r1 r2 : List R) : List (Act R) :=
  overActs r1 r2 ++ ([.callFinalize, .prod, .prod, .prod, .prod, .prod] ++ [.work 0, .work 0, .work 0])

theorem exec_two (cfg : Cfg) {st st1 st2 : St R} {l1 l2 : List (Act R)} (h1 : exec cfg st l1 = some st1)
    (h2 : exec cfg st1 l2 = some st2) : exec cfg st (l1 ++ l2) = some st2 := by
  rw [exec_append, h1]; exact h2

/-- **C63** (the race).  With two batches of one chunk that together exceed the buffer there is a
schedule, without any failing write, in which `finalize_batch_range` returns while the second batch is
neither on disk nor being written: its task is still in the queue. -/
theorem C63_race (cfg : Cfg) (hc : 2 ≤ cfg.chunkSize) (hq : 0 < cfg.queueCap) (hw : 0 < cfg.workers)
    (r1 r2 : List R) (h1 : 0 < r1.length) (h1' : r1.length ≤ cfg.maxRows) (h2 : 0 < r2.length)
    (h2' : r2.length ≤ cfg.maxRows) (h12 : cfg.maxRows < r1.length + r2.length) :
    ∃ st st', exec cfg (St.init (fun _ => none) (fun _ => none)) (raceActs r1 r2) = some st ∧
      Returns cfg st st' ∧ Ev.stored (.gradients, 0) 1 r2 ∈ epoch st.ev ∧
      (∀ k, Ev.failed k ∉ st.ev) ∧ ¬ OnDisk st' .gradients 1 r2 ∧
      st'.queue = [⟨(.gradients, 0), r2, [⟨1, 0, r2.length⟩]⟩] := by
  have e1 := over_exec cfg hc hq hw r1 r2 h1 h1' h2 h2' h12
  have e2 := finalize_one cfg (st := overSt r1 r2) rfl rfl rfl (by simp [overSt]) hq
  have e3 := exec_two cfg e1 (exec_two cfg e2 (write_one cfg (p := ⟨.gradients, 0, 0⟩) rfl rfl))
  refine ⟨_, _, e3, ⟨by simp [step, prodStep, overSt]; rfl, rfl⟩, by simp [epoch, overSt],
    by simp [overSt], ?_, rfl⟩
  rintro ⟨p, info, tensor, e1, e2, e3, s, e, e4, -⟩
  by_cases hne : p = ⟨.gradients, 0, 0⟩
  · subst hne
    simp [put] at e2
    subst e2
    simp at e4
  · simp [put, hne] at e2

/-- The schedule of `C64_masked`: the write of batch 0 raises, that of batch 1 succeeds. -/
def maskActs (r1 r2 : List R) : List (Act R) :=
  overActs r1 r2 ++ ([.fail 0] ++ ([.callFinalize, .prod, .prod, .prod, .prod, .prod] ++
    ([.take] ++ [.work 0, .work 0, .work 0])))

/-- **C64** (why the second flush has to be excluded).  After an overflow the failed write of the first
part is forgotten as soon as the second part is written: `finalize_batch_range` returns normally although
a write raised and batch 0 is on no file. -/
theorem C64_masked (cfg : Cfg) (hc : 2 ≤ cfg.chunkSize) (hq : 0 < cfg.queueCap) (hw : 0 < cfg.workers)
    (r1 r2 : List R) (h1 : 0 < r1.length) (h1' : r1.length ≤ cfg.maxRows) (h2 : 0 < r2.length)
    (h2' : r2.length ≤ cfg.maxRows) (h12 : cfg.maxRows < r1.length + r2.length) :
    ∃ st st', exec cfg (St.init (fun _ => none) (fun _ => none)) (maskActs r1 r2) = some st ∧
      Returns cfg st st' ∧ Ev.stored (.gradients, 0) 0 r1 ∈ epoch st.ev ∧
      Ev.failed (.gradients, 0) ∈ epoch st.ev ∧ ¬ OnDisk st' .gradients 0 r1 := by
  have e1 := over_exec cfg hc hq hw r1 r2 h1 h1' h2 h2' h12
  have e2 : exec cfg (overSt r1 r2) [.fail 0] =
      some { overSt r1 r2 with busy := [], ev := .failed (.gradients, 0) :: (overSt r1 r2).ev } := rfl
  have e3 := finalize_one cfg
    (st := { overSt r1 r2 with busy := [], ev := .failed (.gradients, 0) :: (overSt r1 r2).ev }) rfl rfl rfl
    (by simp [overSt]) hq
  have e4 : exec cfg ({ overSt r1 r2 with
        busy := [], ev := .flushed (.gradients, 0) :: .failed (.gradients, 0) :: (overSt r1 r2).ev,
        buffers := [], queue := (overSt r1 r2).queue ++ [⟨(.gradients, 0), r2, [⟨1, 0, r2.length⟩]⟩],
        pc := .wait } : St R) [.take] =
      some { overSt r1 r2 with
        busy := [(.got, ⟨(.gradients, 0), r2, [⟨1, 0, r2.length⟩]⟩)],
        ev := .flushed (.gradients, 0) :: .failed (.gradients, 0) :: (overSt r1 r2).ev,
        buffers := [], queue := [], pc := .wait } := by
    simp [exec, step, takeStep, overSt, hw]
  have e5 := exec_two cfg e1 (exec_two cfg e2 (exec_two cfg e3 (exec_two cfg e4
    (write_one cfg (p := ⟨.gradients, 1, 1⟩) rfl rfl))))
  refine ⟨_, _, e5, ⟨by simp [step, prodStep, overSt]; rfl, rfl⟩, by simp [epoch, overSt],
    by simp [epoch, overSt], ?_⟩
  rintro ⟨p, info, tensor, e1, e2, e3, s, e, e4, -⟩
  by_cases hne : p = ⟨.gradients, 1, 1⟩
  · subst hne
    simp [put] at e2
    subst e2
    simp at e4
  · simp [put, hne] at e2

/-! ### Non-vacuity -/

/-- Chunks of two batches, at most four rows per buffer. -/
def exCfg : Cfg := ⟨2, 4, 8, 4⟩

/-- Three batches in two chunks, the first chunk being written while the third batch is stored. -/
def exActs1 : List (Act ℕ) :=
  [.callStart 0 3, .callStore .gradients 0 [10, 11], .callStore .gradients 1 [12], .prod, .prod, .prod,
    .take, .callStore .gradients 2 [13]]

/-- The state after `exActs1`. -/
def exSt1 : St ℕ :=
  { buffers := [], pending := [(.gradients, 0)], queue := [],
    busy := [(.got, ⟨(.gradients, 0), [10, 11, 12], [⟨0, 0, 2⟩, ⟨1, 2, 3⟩]⟩)],
    dataFile := fun _ => none, metaFile := fun _ => none, range := some (0, 3), pc := .mark
      ⟨(.gradients, 1), [13], [⟨2, 0, 1⟩]⟩ .done,
    ev := [.flushed (.gradients, 1), .stored (.gradients, 1) 2 [13], .flushed (.gradients, 0),
      .stored (.gradients, 0) 1 [12], .stored (.gradients, 0) 0 [10, 11], .started 0 3] }

/-- The rest of the run: both writes and `finalize_batch_range` interleaved. -/
def exActs2 : List (Act ℕ) :=
  [.prod, .work 0, .prod, .take, .prod, .callFinalize, .work 1, .prod]

/-- The state after `exActs2`. -/
def exSt2 : St ℕ :=
  { buffers := [], pending := [(.gradients, 1), (.gradients, 0)], queue := [],
    busy := [(.data, ⟨(.gradients, 0), [10, 11, 12], [⟨0, 0, 2⟩, ⟨1, 2, 3⟩]⟩),
      (.data, ⟨(.gradients, 1), [13], [⟨2, 0, 1⟩]⟩)],
    dataFile := put (put (fun _ => none) ⟨.gradients, 0, 1⟩ [10, 11, 12]) ⟨.gradients, 2, 2⟩ [13],
    metaFile := fun _ => none, range := some (0, 3), pc := .wait,
    ev := exSt1.ev }

/-- The state when `finalize_batch_range` is about to return. -/
def exSt : St ℕ :=
  { buffers := [], pending := [], queue := [], busy := [],
    dataFile := put (put (fun _ => none) ⟨.gradients, 0, 1⟩ [10, 11, 12]) ⟨.gradients, 2, 2⟩ [13],
    metaFile := put (put (fun _ => none) ⟨.gradients, 0, 1⟩ [⟨0, 0, 2⟩, ⟨1, 2, 3⟩])
      ⟨.gradients, 2, 2⟩ [⟨2, 0, 1⟩],
    range := some (0, 3), pc := .wait, ev := exSt1.ev }

theorem ex_exec : exec exCfg (St.init (fun _ => none) (fun _ => none))
    (exActs1 ++ (exActs2 ++ [.work 0, .work 1, .work 0, .work 0])) = some exSt := by
  refine exec_two _ (st1 := exSt1) ?_ (exec_two _ (st1 := exSt2) ?_ ?_)
  · simp [exec, exActs1, exCfg, exSt1, St.init, step, startRange, store, storeIn, openBuffer, append,
      beginFlush, isComplete, prodStep, takeStep, chunkId, PyDict.get?, PyDict.set, PyDict.erase,
      List.range_succ]
  · simp [exec, exActs2, exCfg, exSt1, exSt2, step, prodStep, takeStep, workStep, finalize, setBusy,
      PyDict.keys, pathOf]
  · simp [exec, exSt2, exSt, step, workStep, setBusy, pathOf]

/-- The hypotheses of C62 are met by a schedule with interleaved writers, and the conclusion is about
three stored batches. -/
example : Disciplined exSt.ev ∧ FlushOnce exSt.ev ∧ (∃ st', Returns exCfg exSt st') ∧
    Ev.stored (.gradients, 0) 1 [12] ∈ epoch exSt.ev ∧
    Ev.stored (.gradients, 1) 2 [13] ∈ epoch exSt.ev := by
  refine ⟨?_, ?_, ⟨{ exSt with pc := .idle, range := none, ev := .finalized :: exSt.ev }, ?_, rfl⟩, ?_, ?_⟩
  · simp [exSt, exSt1, Disciplined, epochRange, epoch]
  · simp [exSt, exSt1, FlushOnce, epoch]
  · simp [exSt, step, prodStep]
  · simp [exSt, exSt1, epoch]
  · simp [exSt, exSt1, epoch]

/-- A run with a failed write, for C64. -/
example : ∃ st, exec exCfg (St.init (fun _ => none) (fun _ => none)) (exActs1 ++ [.fail 0]) = some st ∧
    Ev.failed (.gradients, 0) ∈ epoch st.ev ∧ FlushOnce st.ev := by
  refine ⟨{ exSt1 with busy := [], ev := .failed (.gradients, 0) :: exSt1.ev }, exec_two _ (st1 := exSt1)
    ?_ rfl, ?_, ?_⟩
  · simp [exec, exActs1, exCfg, exSt1, St.init, step, startRange, store, storeIn, openBuffer, append,
      beginFlush, isComplete, prodStep, takeStep, chunkId, PyDict.get?, PyDict.set, PyDict.erase,
      List.range_succ]
  · simp [epoch]
  · simp [FlushOnce, epoch, exSt1]

/-- The hypotheses of C63 are met by the default sizes and batches of 2000 and 100 rows. -/
example (r1 r2 : List ℕ) (h1 : r1.length = 2000) (h2 : r2.length = 100) :
    ∃ st st', exec ⟨32, 2048, 8, 4⟩ (St.init (fun _ => none) (fun _ => none)) (raceActs r1 r2) =
        some st ∧ Returns ⟨32, 2048, 8, 4⟩ st st' ∧ ¬ OnDisk st' .gradients 1 r2 := by
  obtain ⟨st, st', h3, h4, _, _, h5, _⟩ := C63_race (R := ℕ) ⟨32, 2048, 8, 4⟩ (by show 2 ≤ 32; omega)
    (by show 0 < 8; omega) (by show 0 < 4; omega) r1 r2 (by omega) (by show _ ≤ 2048; omega) (by omega)
    (by show _ ≤ 2048; omega) (by show 2048 < _; omega)
  exact ⟨st, st', h3, h4, h5⟩

end Verif.Disk
