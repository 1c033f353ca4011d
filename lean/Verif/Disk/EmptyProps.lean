import Verif.Disk.WriterProps

/-!
# Chunks without batches, and finalising without a range

C94: a chunk that was opened but never received a batch with rows cannot be written (`min([])` of the
file name raises), so `finalize_batch_range` does not return.  C95: without a started range
`finalize_batch_range` returns at once and nothing reaches the disk.
-/

namespace Verif.Disk

variable {R : Type} {cfg : Cfg}

/-- Chunk `k` was opened by a store call that stored nothing: a batch without rows, or a batch larger
than the buffer. -/
def Opened (k : Key) (l : List (Ev R)) : Prop := (∃ b, Ev.storedEmpty k b ∈ l) ∨ Ev.overflow k ∈ l

theorem Opened.of_cons {k : Key} {e : Ev R} {l : List (Ev R)} (h : Opened k (e :: l))
    (h1 : ∀ b, e ≠ .storedEmpty k b) (h2 : e ≠ .overflow k) : Opened k l := by
  rcases h with ⟨b, h⟩ | h
  · rcases List.mem_cons.1 h with h | h
    · exact absurd h.symm (h1 b)
    · exact Or.inl ⟨b, h⟩
  · rcases List.mem_cons.1 h with h | h
    · exact absurd h.symm h2
    · exact Or.inr h

/-- The chunks `finalize_batch_range` still has to flush. -/
def toFlush : Pc R → Option (List Key)
  | .mark _ (.flushAll ks) => some ks
  | .put _ (.flushAll ks) => some ks
  | .resume (.flushAll ks) => some ks
  | .flushAll ks => some ks
  | .wait => some []
  | _ => none

/-- The invariant of a chunk that never received a batch with rows. -/
structure L (k : Key) (st : St R) : Prop where
  buf : ∀ b, PyDict.get? st.buffers k = some b → b.info = []
  pcM : ∀ t c, st.pc = .mark t c → t.key = k → t.info = []
  pcP : ∀ t c, st.pc = .put t c → t.key = k → t.info = []
  que : ∀ t ∈ st.queue, t.key = k → t.info = []
  bus : ∀ x ∈ st.busy, x.2.key = k → x.1 = .got ∧ x.2.info = []
  fin : ∀ ks, toFlush st.pc = some ks → k ∈ PyDict.keys st.buffers → k ∈ ks
  kept : Opened k st.ev → k ∈ PyDict.keys st.buffers ∨ (∃ t c, st.pc = .mark t c ∧ t.key = k) ∨
    k ∈ st.pending

theorem L.init (k : Key) (df : Path → Option (List R)) (mf : Path → Option (List Info)) :
    L k (St.init df mf) where
  buf := by intro b h; cases h
  pcM := by intro t c h; cases h
  pcP := by intro t c h; cases h
  que := by intro t h; cases h
  bus := by intro x h; cases h
  fin := by intro ks h; cases h
  kept := by rintro (⟨b, h⟩ | h) <;> cases h

/-- Flushing some chunk. -/
theorem L.beginFlush {k : Key} {st : St R} (h : L k st) (k' : Key) (c : Cont R)
    (hpc : ∀ t c, st.pc ≠ .mark t c)
    (hc : ∀ ks, c = .flushAll ks → k ∈ PyDict.keys st.buffers → k = k' ∨ k ∈ ks) :
    L k (Disk.beginFlush st k' c) := by
  unfold Disk.beginFlush
  cases hb : PyDict.get? st.buffers k' with
  | none =>
    refine ⟨h.buf, by simp, by simp, h.que, h.bus, ?_, ?_⟩
    · intro ks hks hk
      cases c with
      | done => cases hks
      | retry => cases hks
      | flushAll ks' =>
        cases hks
        rcases hc _ rfl hk with h1 | h1
        · subst h1
          exact absurd hk ((PyDict.get?_eq_none _ _).1 hb)
        · exact h1
    · intro ho
      rcases h.kept ho with h1 | ⟨t, c, h1, -⟩ | h1
      · exact Or.inl h1
      · exact absurd h1 (hpc t c)
      · exact Or.inr (Or.inr h1)
  | some buf =>
    refine ⟨?_, ?_, by simp, h.que, h.bus, ?_, ?_⟩
    · intro b hb'
      simp only [PyDict.get?_erase] at hb'
      split_ifs at hb'
      exact h.buf b hb'
    · intro t c' ht hk
      cases ht
      simp only at hk
      subst hk
      exact h.buf _ hb
    · intro ks hks hk
      simp only [PyDict.mem_keys_erase] at hk
      cases c with
      | done => cases hks
      | retry => cases hks
      | flushAll ks' =>
        cases hks
        rcases hc _ rfl hk.2 with h1 | h1
        · exact absurd h1 hk.1
        · exact h1
    · intro ho
      by_cases hkk : k' = k
      · exact Or.inr (Or.inl ⟨_, _, rfl, hkk⟩)
      · rcases h.kept (ho.of_cons (by simp) (by simp)) with h1 | ⟨t, c, h1, -⟩ | h1
        · exact Or.inl ((PyDict.mem_keys_erase _ _ _).2 ⟨fun h => hkk h.symm, h1⟩)
        · exact absurd h1 (hpc t c)
        · exact Or.inr (Or.inr h1)

/-- Copying a batch of another chunk, or failing to. -/
theorem L.append {k : Key} {st : St R} (h : L k st) (k' : Key) (b : ℕ) (rows : List R)
    (hpc : ∀ t c, st.pc ≠ .mark t c)
    (hk : ∀ c r, Ev.stored k c r ∉ (Disk.append cfg st k' b rows).ev) :
    L k (Disk.append cfg st k' b rows) := by
  unfold Disk.append at hk ⊢
  have hsame : ∀ e : Ev R, (∀ b, e ≠ .storedEmpty k b) → e ≠ .overflow k →
      L k { st with pc := .idle, ev := e :: st.ev } := by
    intro e h1 h2
    refine ⟨h.buf, by simp, by simp, h.que, h.bus, (by intro ks hks; cases hks), ?_⟩
    intro ho
    rcases h.kept (ho.of_cons h1 h2) with h1 | ⟨t, c, h1, -⟩ | h1
    · exact Or.inl h1
    · exact absurd h1 (hpc t c)
    · exact Or.inr (Or.inr h1)
  cases hb : PyDict.get? st.buffers k' with
  | none => exact hsame _ (by simp) (by simp)
  | some buf =>
    rw [hb] at hk
    simp only at hk ⊢
    by_cases hlen : buf.tensor.length + rows.length > cfg.maxRows
    · rw [if_pos hlen]
      exact hsame _ (by simp) (by simp)
    · rw [if_neg hlen] at hk ⊢
      have hkk : k' ≠ k := by
        rintro rfl
        split_ifs at hk with hcmp
        · rcases ev_beginFlush { st with
            buffers := PyDict.set k' ⟨buf.tensor ++ rows,
              buf.info ++ [⟨b, buf.tensor.length, buf.tensor.length + rows.length⟩]⟩ st.buffers,
            ev := .stored k' b rows :: st.ev, pc := .idle } k' .done with h5 | h5 <;>
          · rw [h5] at hk
            exact hk b rows (by simp)
        · exact hk b rows (by simp)
      have h1 : L k { st with
            buffers := PyDict.set k' ⟨buf.tensor ++ rows,
              buf.info ++ [⟨b, buf.tensor.length, buf.tensor.length + rows.length⟩]⟩ st.buffers,
            ev := .stored k' b rows :: st.ev, pc := .idle } := by
        refine ⟨?_, by simp, by simp, h.que, h.bus, (by intro ks hks; cases hks), ?_⟩
        · intro b' hb'
          simp only [PyDict.get?_set] at hb'
          split_ifs at hb' with he
          · exact absurd he.symm hkk
          · exact h.buf b' hb'
        · intro ho
          rcases h.kept (ho.of_cons (by simp) (by simp)) with h1 | ⟨t, c, h1, -⟩ | h1
          · exact Or.inl ((PyDict.mem_keys_set _ _ _ _).2 (Or.inr h1))
          · exact absurd h1 (hpc t c)
          · exact Or.inr (Or.inr h1)
      split_ifs
      · exact h1.beginFlush _ _ (by simp) (by simp)
      · exact h1

theorem L.step {k : Key} {st st' : St R} {a : Act R} (h : L k st) (hs : Disk.step cfg st a = some st')
    (hk : ∀ b rows, Ev.stored k b rows ∉ st'.ev) : L k st' := by
  cases a with
  | callStart s e =>
    simp only [Disk.step] at hs
    cases hp : st.pc <;> rw [hp] at hs <;> simp only [Option.some.injEq, reduceCtorEq] at hs
    subst hs
    unfold startRange
    split_ifs <;>
    · refine ⟨h.buf, h.pcM, h.pcP, h.que, h.bus, h.fin, ?_⟩
      intro ho
      exact h.kept (ho.of_cons (by simp) (by simp))
  | callStore dt b rows =>
    simp only [Disk.step] at hs
    cases hp : st.pc <;> rw [hp] at hs <;> simp only [Option.some.injEq, reduceCtorEq] at hs
    subst hs
    unfold store at hk ⊢
    have h0 : ∀ k', L k (openBuffer st k').1 ∧ (openBuffer st k').1.pc = .idle ∧
        k' ∈ PyDict.keys (openBuffer st k').1.buffers := by
      intro k'
      unfold openBuffer
      cases hb : PyDict.get? st.buffers k' with
      | some buf =>
        exact ⟨h, hp, (PyDict.get?_isSome _ _).1 (by rw [hb]; rfl)⟩
      | none =>
        refine ⟨⟨?_, h.pcM, h.pcP, h.que, h.bus, ?_, ?_⟩, hp, (PyDict.mem_keys_set _ _ _ _).2 (Or.inl rfl)⟩
        · intro b' hb'
          simp only [PyDict.get?_set] at hb'
          split_ifs at hb' with he
          · cases hb'; rfl
          · exact h.buf b' hb'
        · intro ks hks
          rw [show toFlush st.pc = none by rw [hp]; rfl] at hks
          cases hks
        · intro ho
          rcases h.kept ho with h1 | h1 | h1
          · exact Or.inl ((PyDict.mem_keys_set _ _ _ _).2 (Or.inr h1))
          · exact Or.inr (Or.inl h1)
          · exact Or.inr (Or.inr h1)
    obtain ⟨h1, hp1, hk1⟩ := h0 (dt, chunkId cfg b)
    generalize (openBuffer st (dt, chunkId cfg b)).1 = st1 at *
    generalize (openBuffer st (dt, chunkId cfg b)).2 = buf at *
    generalize (dt, chunkId cfg b) = k' at *
    unfold storeIn at hk ⊢
    have hev : ∀ e : Ev R, ((∃ b, e = .storedEmpty k' b) ∨ e = .overflow k') →
        L k { st1 with ev := e :: st1.ev } := by
      intro e he
      refine ⟨h1.buf, h1.pcM, h1.pcP, h1.que, h1.bus, h1.fin, ?_⟩
      intro ho
      by_cases hkk : k' = k
      · subst hkk; exact Or.inl hk1
      · refine h1.kept (ho.of_cons ?_ ?_)
        · rintro b rfl
          rcases he with ⟨b', he⟩ | he <;> cases he
          exact hkk rfl
        · rintro rfl
          rcases he with ⟨b', he⟩ | he <;> cases he
          exact hkk rfl
    by_cases hr : rows.length = 0
    · rw [if_pos hr]; exact hev _ (Or.inl ⟨b, rfl⟩)
    · rw [if_neg hr] at hk ⊢
      by_cases hov : buf.tensor.length + rows.length > cfg.maxRows
      · rw [if_pos hov]
        exact (hev _ (Or.inr rfl)).beginFlush _ _ (by simp [hp1]) (by simp)
      · rw [if_neg hov] at hk ⊢
        exact h1.append _ _ _ (by simp [hp1]) hk
  | callFinalize =>
    simp only [Disk.step] at hs
    cases hp : st.pc <;> rw [hp] at hs <;> simp only [Option.some.injEq, reduceCtorEq] at hs
    subst hs
    unfold finalize
    cases st.range with
    | none =>
      refine ⟨h.buf, h.pcM, h.pcP, h.que, h.bus, h.fin, ?_⟩
      intro ho
      exact h.kept (ho.of_cons (by simp) (by simp))
    | some p =>
      refine ⟨h.buf, by simp, by simp, h.que, h.bus, ?_, ?_⟩
      · intro ks hks hk
        cases hks
        exact hk
      · intro ho
        rcases h.kept ho with h1 | ⟨t, c, h1, -⟩ | h1
        · exact Or.inl h1
        · rw [hp] at h1; cases h1
        · exact Or.inr (Or.inr h1)
  | prod =>
    simp only [Disk.step] at hs
    unfold prodStep at hs
    cases hp : st.pc with
    | idle => rw [hp] at hs; cases hs
    | mark t c =>
      rw [hp] at hs; cases hs
      refine ⟨h.buf, by simp, ?_, h.que, h.bus, ?_, ?_⟩
      · intro t' c' ht hk
        cases ht
        exact h.pcM _ _ hp hk
      · intro ks hks hk
        refine h.fin ks ?_ hk
        rw [hp]
        cases c <;> exact hks
      · intro ho
        rcases h.kept ho with h1 | ⟨t', c', h1, h2⟩ | h1
        · exact Or.inl h1
        · rw [hp] at h1; cases h1
          subst h2
          right; right
          show t.key ∈ if t.key ∈ st.pending then st.pending else t.key :: st.pending
          split_ifs with h3
          · exact h3
          · exact List.mem_cons_self
        · right; right
          show k ∈ if t.key ∈ st.pending then st.pending else t.key :: st.pending
          split_ifs with h3
          · exact h1
          · exact List.mem_cons_of_mem _ h1
    | put t c =>
      rw [hp] at hs
      simp only at hs
      split_ifs at hs
      cases hs
      refine ⟨h.buf, by simp, by simp, ?_, h.bus, ?_, ?_⟩
      · intro t' ht hkey
        rcases List.mem_append.1 ht with h1 | h1
        · exact h.que t' h1 hkey
        · rw [List.mem_singleton] at h1
          subst h1
          exact h.pcP _ _ hp hkey
      · intro ks hks hk
        refine h.fin ks ?_ hk
        rw [hp]
        cases c <;> exact hks
      · intro ho
        rcases h.kept ho with h1 | ⟨t', c', h1, h2⟩ | h1
        · exact Or.inl h1
        · rw [hp] at h1; cases h1
        · exact Or.inr (Or.inr h1)
    | resume c =>
      rw [hp] at hs
      cases c with
      | done =>
        cases hs
        refine ⟨h.buf, by simp, by simp, h.que, h.bus, (by intro ks hks; cases hks), ?_⟩
        intro ho
        rcases h.kept ho with h1 | ⟨t', c', h1, h2⟩ | h1
        · exact Or.inl h1
        · rw [hp] at h1; cases h1
        · exact Or.inr (Or.inr h1)
      | retry k' b rows =>
        cases hs
        have h1 : L k { st with buffers := PyDict.set k' ⟨[], []⟩ st.buffers } := by
          refine ⟨?_, h.pcM, h.pcP, h.que, h.bus, ?_, ?_⟩
          · intro b' hb'
            simp only [PyDict.get?_set] at hb'
            split_ifs at hb' with he
            · cases hb'; rfl
            · exact h.buf b' hb'
          · intro ks hks
            rw [show toFlush st.pc = none by rw [hp]; rfl] at hks
            cases hks
          · intro ho
            rcases h.kept ho with h1 | h1 | h1
            · exact Or.inl ((PyDict.mem_keys_set _ _ _ _).2 (Or.inr h1))
            · exact Or.inr (Or.inl h1)
            · exact Or.inr (Or.inr h1)
        rw [← hp] at hk ⊢
        exact h1.append _ _ _ (by simp [hp]) hk
      | flushAll ks =>
        cases hs
        refine ⟨h.buf, by simp, by simp, h.que, h.bus, ?_, ?_⟩
        · intro ks' hks hk
          exact h.fin ks' (by rw [hp]; exact hks) hk
        intro ho
        rcases h.kept ho with h1 | ⟨t', c', h1, h2⟩ | h1
        · exact Or.inl h1
        · rw [hp] at h1; cases h1
        · exact Or.inr (Or.inr h1)
    | flushAll ks =>
      rw [hp] at hs
      cases ks with
      | nil =>
        cases hs
        refine ⟨h.buf, by simp, by simp, h.que, h.bus, ?_, ?_⟩
        · intro ks' hks hk
          exact h.fin ks' (by rw [hp]; exact hks) hk
        intro ho
        rcases h.kept ho with h1 | ⟨t', c', h1, h2⟩ | h1
        · exact Or.inl h1
        · rw [hp] at h1; cases h1
        · exact Or.inr (Or.inr h1)
      | cons k' ks =>
        cases hs
        refine h.beginFlush _ _ (by simp [hp]) ?_
        intro ks' hks hk
        cases hks
        exact List.mem_cons.1 (h.fin (k' :: ks) (by rw [hp]; rfl) hk)
    | wait =>
      rw [hp] at hs
      simp only at hs
      split_ifs at hs with h1
      · cases hs
        refine ⟨h.buf, by simp, by simp, h.que, h.bus, (by intro ks hks; cases hks), ?_⟩
        intro ho
        rcases h.kept (ho.of_cons (by simp) (by simp)) with h1 | ⟨t', c', h1, h2⟩ | h1
        · exact Or.inl h1
        · rw [hp] at h1; cases h1
        · exact Or.inr (Or.inr h1)
      · cases hs; exact h
  | take =>
    simp only [Disk.step] at hs
    unfold takeStep at hs
    cases hq : st.queue with
    | nil => rw [hq] at hs; cases hs
    | cons t q =>
      rw [hq] at hs
      simp only at hs
      split_ifs at hs
      cases hs
      refine ⟨h.buf, h.pcM, h.pcP, ?_, ?_, h.fin, h.kept⟩
      · intro t' ht
        exact h.que t' (by rw [hq]; exact List.mem_cons_of_mem _ ht)
      · intro x hx hk
        rcases List.mem_append.1 hx with h1 | h1
        · exact h.bus x h1 hk
        · rw [List.mem_singleton] at h1
          subst h1
          exact ⟨rfl, h.que t (by rw [hq]; exact List.mem_cons_self) hk⟩
  | work i =>
    simp only [Disk.step] at hs
    unfold workStep at hs
    cases hb : st.busy[i]? with
    | none => rw [hb] at hs; cases hs
    | some x =>
      obtain ⟨ph, t⟩ := x
      have hmem : (ph, t) ∈ st.busy := List.mem_of_getElem? hb
      rw [hb] at hs
      have hset : ∀ ph' x, x ∈ st.busy.set i (ph', t) → t.key ≠ k → x.2.key = k → x ∈ st.busy := by
        intro ph' x hx hne hk
        rcases List.mem_or_eq_of_mem_set hx with h1 | h1
        · exact h1
        · subst h1; exact absurd hk hne
      cases ph with
      | got =>
        simp only at hs
        cases hpth : pathOf t.key.1 t.info <;> rw [hpth] at hs <;> cases hs
        have hne : t.key ≠ k := by
          intro he
          rw [(h.bus _ hmem he).2] at hpth
          cases hpth
        exact ⟨h.buf, h.pcM, h.pcP, h.que, fun x hx hk => h.bus x (hset _ x hx hne hk) hk, h.fin, h.kept⟩
      | data =>
        simp only at hs
        cases hpth : pathOf t.key.1 t.info <;> rw [hpth] at hs <;> cases hs
        have hne : t.key ≠ k := by
          intro he
          rw [(h.bus _ hmem he).2] at hpth
          cases hpth
        exact ⟨h.buf, h.pcM, h.pcP, h.que, fun x hx hk => h.bus x (hset _ x hx hne hk) hk, h.fin, h.kept⟩
      | done =>
        cases hs
        have hne : t.key ≠ k := by
          intro he
          have := (h.bus _ hmem he).1
          cases this
        refine ⟨h.buf, h.pcM, h.pcP, h.que, fun x hx hk => h.bus x (List.mem_of_mem_eraseIdx hx) hk,
          h.fin, ?_⟩
        intro ho
        rcases h.kept ho with h1 | h1 | h1
        · exact Or.inl h1
        · exact Or.inr (Or.inl h1)
        · exact Or.inr (Or.inr (List.mem_filter.2 ⟨h1, by simpa using fun h => hne h.symm⟩))
  | fail i =>
    simp only [Disk.step] at hs
    unfold failStep at hs
    cases hb : st.busy[i]? with
    | none => rw [hb] at hs; cases hs
    | some x =>
      obtain ⟨ph, t⟩ := x
      rw [hb] at hs
      cases ph with
      | got =>
        cases hs
        exact ⟨h.buf, h.pcM, h.pcP, h.que, fun x hx hk => h.bus x (List.mem_of_mem_eraseIdx hx) hk, h.fin,
          fun ho => h.kept (ho.of_cons (by simp) (by simp))⟩
      | data =>
        cases hs
        exact ⟨h.buf, h.pcM, h.pcP, h.que, fun x hx hk => h.bus x (List.mem_of_mem_eraseIdx hx) hk, h.fin,
          fun ho => h.kept (ho.of_cons (by simp) (by simp))⟩
      | done => cases hs

theorem L.exec {k : Key} {acts : List (Act R)} {st st' : St R} (h : L k st)
    (hs : Disk.exec cfg st acts = some st') (hk : ∀ b rows, Ev.stored k b rows ∉ st'.ev) : L k st' := by
  induction acts generalizing st with
  | nil => cases hs; exact h
  | cons a t ih =>
    rw [exec_cons] at hs
    obtain ⟨s1, h1, h2⟩ := Option.bind_eq_some_iff.1 hs
    obtain ⟨l, hl⟩ := ev_exec h2
    exact ih (h.step h1 fun b rows hm => hk b rows (by rw [hl]; exact List.mem_append_right _ hm)) h2

/-- **C94** (an opened chunk without rows blocks `finalize_batch_range`).  Take any schedule from any
disk in which a store call opened chunk `k` without storing anything (a batch without rows, or one larger
than the buffer) and no batch of chunk `k` is ever stored.  However the schedule continues, and however
often chunks are flushed, `finalize_batch_range` does not return from then on. -/
theorem C94_hangs (df : Path → Option (List R)) (mf : Path → Option (List Info))
    (acts more : List (Act R)) {st st1 : St R} {k : Key}
    (hex : exec cfg (St.init df mf) acts = some st) (ho : Opened k st.ev)
    (hmore : exec cfg st more = some st1) (hk : ∀ b rows, Ev.stored k b rows ∉ st1.ev) :
    (∃ l, st1.ev = l ++ st.ev ∧ Ev.finalized ∉ l) ∧ ∀ st2, ¬ Returns cfg st1 st2 := by
  have key : ∀ s : St R, L k s → Opened k s.ev → ¬ (s.pc = .wait ∧ s.pending = []) := by
    rintro s hL hop ⟨h1, h2⟩
    rcases hL.kept hop with h3 | ⟨t, c, h3, -⟩ | h3
    · have := hL.fin [] (by rw [h1]; rfl) h3
      cases this
    · rw [h1] at h3; cases h3
    · rw [h2] at h3; cases h3
  have hop : ∀ {l r : List (Ev R)}, Opened k r → Opened k (l ++ r) := by
    rintro l r (⟨b, h⟩ | h)
    · exact Or.inl ⟨b, List.mem_append_right _ h⟩
    · exact Or.inr (List.mem_append_right _ h)
  obtain ⟨l0, e0⟩ := ev_exec hmore
  have hL : L k st := (L.init k df mf).exec hex fun b rows hm => hk b rows (by
    rw [e0]; exact List.mem_append_right _ hm)
  clear hex
  have main : (∃ l, st1.ev = l ++ st.ev ∧ Ev.finalized ∉ l) ∧ L k st1 := by
    clear l0 e0
    induction more generalizing st with
    | nil => cases hmore; exact ⟨⟨[], rfl, by simp⟩, hL⟩
    | cons a t ih =>
      rw [exec_cons] at hmore
      obtain ⟨s1, h1, h2⟩ := Option.bind_eq_some_iff.1 hmore
      obtain ⟨l1, e1⟩ := ev_exec h2
      have hL1 : L k s1 := hL.step h1 fun b rows hm => hk b rows (by
        rw [e1]; exact List.mem_append_right _ hm)
      rcases step_finalized h1 with ⟨l, h3, h4⟩ | ⟨h3, h4, -, -⟩
      · obtain ⟨⟨l', h5, h6⟩, h7⟩ := ih (by rw [h3]; exact hop ho) h2 hL1
        refine ⟨⟨l' ++ l, by rw [h5, h3, List.append_assoc], ?_⟩, h7⟩
        rw [List.mem_append]
        rintro (h | h)
        · exact h6 h
        · exact h4 h
      · exact absurd ⟨h3, h4⟩ (key st hL ho)
  refine ⟨main.1, fun st2 hr => ?_⟩
  obtain ⟨h1, h2, -⟩ := returns_iff hr
  exact key st1 main.2 (by rw [e0]; exact hop ho) ⟨h1, h2⟩

/-- **C94** (it happens).  With any sizes: a range of one batch, the batch has no rows or more rows than
the buffer holds, then `finalize_batch_range`: the storing thread ends up waiting although every writer
step that was possible has been made, and no later step changes that (`C94_hangs`).  The oversized store
call raises `RuntimeError`. -/
theorem C94_reached (cfg : Cfg) (hq : 0 < cfg.queueCap) (hw : 0 < cfg.workers) :
    (∃ st, exec cfg (St.init (R := R) (fun _ => none) (fun _ => none))
        [.callStart 0 1, .callStore .gradients 0 [], .callFinalize, .prod, .prod, .prod, .prod, .prod,
          .take, .fail 0] = some st ∧
      st.pc = .wait ∧ st.queue = [] ∧ st.busy = [] ∧ st.pending = [(.gradients, 0)]) ∧
    ∀ rows : List R, cfg.maxRows < rows.length →
      ∃ st, exec cfg (St.init (fun _ => none) (fun _ => none))
        [.callStart 0 1, .callStore .gradients 0 rows, .prod, .prod, .prod] = some st ∧
      st.pc = .idle ∧ Ev.raised .runtimeError ∈ st.ev ∧ Opened (.gradients, 0) st.ev ∧
      ∀ b r, Ev.stored (.gradients, 0) b r ∉ st.ev := by
  have hq' : ¬ cfg.queueCap = 0 := by omega
  refine ⟨?_, ?_⟩
  · simp [exec, St.init, step, startRange, store, storeIn, openBuffer, finalize, prodStep, beginFlush,
      takeStep, failStep, hq, hw, chunkId, PyDict.get?, PyDict.set, PyDict.erase, PyDict.keys]
  · intro rows hr
    have h0 : rows ≠ [] := by rintro rfl; simp at hr
    simp [exec, St.init, step, startRange, store, storeIn, openBuffer, prodStep, beginFlush, append,
      hq, hr, h0, chunkId, PyDict.get?, PyDict.set, PyDict.erase, Opened]

/-! ### Finalising without a range -/

/-- **C95** Without `start_batch_range`, and as long as no chunk overflows, every call of
`finalize_batch_range` returns at once, no writer ever has anything to do and the disk is as it was: the
stored batches exist in memory only. -/
theorem C95_nothing_written (df : Path → Option (List R)) (mf : Path → Option (List Info))
    (acts : List (Act R)) {st : St R} (hex : exec cfg (St.init df mf) acts = some st)
    (hs : ∀ s e, Act.callStart s e ∉ acts) (ho : ∀ k, Ev.overflow k ∉ st.ev) :
    st.dataFile = df ∧ st.metaFile = mf ∧ st.queue = [] ∧ st.busy = [] ∧ st.pc = .idle ∧
      Ev.finalized ∉ st.ev ∧
      ∀ st', step cfg st .callFinalize = some st' → st' = { st with ev := .skipped :: st.ev } := by
  suffices H : ∀ s0 : St R, (s0.dataFile = df ∧ s0.metaFile = mf ∧ s0.queue = [] ∧ s0.busy = [] ∧
      s0.pc = .idle ∧ Ev.finalized ∉ s0.ev ∧ s0.range = none) → exec cfg s0 acts = some st →
      (st.dataFile = df ∧ st.metaFile = mf ∧ st.queue = [] ∧ st.busy = [] ∧ st.pc = .idle ∧
        Ev.finalized ∉ st.ev ∧ st.range = none) by
    obtain ⟨h1, h2, h3, h4, h5, h6, h7⟩ := H _ ⟨rfl, rfl, rfl, rfl, rfl, by simp [St.init], rfl⟩ hex
    refine ⟨h1, h2, h3, h4, h5, h6, ?_⟩
    intro st' h
    simp only [step, h5, finalize, h7, Option.some.injEq] at h
    rw [← h, h5, h7]
  clear hex
  intro s0 h0 hex
  induction acts generalizing s0 with
  | nil => cases hex; exact h0
  | cons a t ih =>
    rw [exec_cons] at hex
    obtain ⟨s1, h1, h2⟩ := Option.bind_eq_some_iff.1 hex
    obtain ⟨l, hl⟩ := ev_exec h2
    refine ih (fun s e hm => hs s e (List.mem_cons_of_mem _ hm)) s1 ?_ h2
    have ho1 : ∀ k, Ev.overflow k ∉ s1.ev := fun k hm => ho k (by
      rw [hl]; exact List.mem_append_right _ hm)
    obtain ⟨e1, e2, e3, e4, e5, e6, e7⟩ := h0
    cases a with
    | callStart s e => exact absurd List.mem_cons_self (hs s e)
    | callFinalize =>
      simp only [step, e5, finalize, e7, Option.some.injEq] at h1
      subst h1
      exact ⟨e1, e2, e3, e4, rfl, by simp [e6], rfl⟩
    | prod => simp [step, prodStep, e5] at h1
    | take => simp [step, takeStep, e3] at h1
    | work i => simp [step, workStep, e4] at h1
    | fail i => simp [step, failStep, e4] at h1
    | callStore dt b rows =>
      simp only [step, e5, Option.some.injEq] at h1
      subst h1
      unfold store at ho1 ⊢
      have g : ∀ k', (openBuffer s0 k').1.dataFile = df ∧ (openBuffer s0 k').1.metaFile = mf ∧
          (openBuffer s0 k').1.queue = [] ∧ (openBuffer s0 k').1.busy = [] ∧
          (openBuffer s0 k').1.pc = .idle ∧ Ev.finalized ∉ (openBuffer s0 k').1.ev ∧
          (openBuffer s0 k').1.range = none := by
        intro k'
        unfold openBuffer
        cases PyDict.get? s0.buffers k' <;> exact ⟨e1, e2, e3, e4, e5, e6, e7⟩
      obtain ⟨g1, g2, g3, g4, g5, g6, g7⟩ := g (dt, chunkId cfg b)
      generalize (openBuffer s0 (dt, chunkId cfg b)).1 = s2 at *
      generalize (openBuffer s0 (dt, chunkId cfg b)).2 = buf at *
      generalize (dt, chunkId cfg b) = k' at *
      unfold storeIn at ho1 ⊢
      by_cases hr : rows.length = 0
      · rw [if_pos hr]; exact ⟨g1, g2, g3, g4, g5, by simp [g6], g7⟩
      · rw [if_neg hr] at ho1 ⊢
        by_cases hov : buf.tensor.length + rows.length > cfg.maxRows
        · rw [if_pos hov] at ho1
          exfalso
          rcases ev_beginFlush { s2 with ev := .overflow k' :: s2.ev } k' (.retry k' b rows) with h5 | h5 <;>
          · rw [h5] at ho1
            exact ho1 k' (by simp)
        · rw [if_neg hov]
          unfold append
          cases hb : PyDict.get? s2.buffers k' with
          | none => exact ⟨g1, g2, g3, g4, rfl, by simp [g6], g7⟩
          | some bf =>
            simp only
            split_ifs with h8 h9
            · exact ⟨g1, g2, g3, g4, rfl, by simp [g6], g7⟩
            · simp [isComplete, g7] at h9
            · exact ⟨g1, g2, g3, g4, rfl, by simp [g6], g7⟩

/-- The hypotheses of C94 and C95 are met: an empty batch beside a full one in another chunk, and three
stores with a finalise but no range. -/
example : ∃ st : St ℕ, exec exCfg (St.init (fun _ => none) (fun _ => none))
    [.callStart 0 4, .callStore .gradients 0 [1, 2], .callStore .gradients 2 []] = some st ∧
    Opened (.gradients, 1) st.ev ∧ ∀ b r, Ev.stored (.gradients, 1) b r ∉ st.ev := by
  simp [exec, exCfg, St.init, step, startRange, store, storeIn, openBuffer, append, isComplete, chunkId,
    PyDict.get?, PyDict.set, Opened, List.range_succ]

example : ∃ st : St ℕ, exec exCfg (St.init (fun _ => none) (fun _ => none))
    [.callStore .gradients 0 [1, 2], .callStore .gradients 1 [3], .callFinalize] = some st ∧
    (∀ k, Ev.overflow k ∉ st.ev) ∧ Ev.stored (.gradients, 0) 1 [3] ∈ st.ev := by
  simp [exec, exCfg, St.init, step, store, storeIn, openBuffer, append, isComplete, chunkId, finalize,
    PyDict.get?, PyDict.set]

end Verif.Disk
