import Verif.Disk.WriterLemmas

/-!
# Disciplined use of the disk writer

Between two returns of `finalize_batch_range`: one `start_batch_range`, every stored batch inside that
range and stored once per data type, no batch without rows, and no chunk overflowing its buffer.  Such a
use never flushes a chunk twice.
-/

namespace Verif.Disk

variable {R : Type}

/-- The range started since the last return of `finalize_batch_range`. -/
def epochRange : List (Ev R) → Option (ℕ × ℕ)
  | [] => none
  | .finalized :: _ => none
  | .started s e :: _ => some (s, e)
  | _ :: r => epochRange r

/-- Disciplined use, as a condition on the history. -/
def Disciplined : List (Ev R) → Prop
  | [] => True
  | .started _ _ :: r => epochRange r = none ∧ Disciplined r
  | .stored k b _ :: r =>
    (∃ s e, epochRange r = some (s, e) ∧ s ≤ b ∧ b < e) ∧ (∀ rows, .stored k b rows ∉ epoch r) ∧
      Disciplined r
  | .storedEmpty _ _ :: _ => False
  | .overflow _ :: _ => False
  | _ :: r => Disciplined r

theorem Disciplined.tail {e : Ev R} {r : List (Ev R)} (h : Disciplined (e :: r)) : Disciplined r := by
  cases e <;> first | exact h | exact h.2 | exact h.2.2 | exact h.elim

theorem disciplined_append {l r : List (Ev R)} (h : Disciplined (l ++ r)) : Disciplined r := by
  induction l with
  | nil => exact h
  | cons e t ih => exact ih h.tail

/-- Inside `finalize_batch_range`. -/
def Finalizing (pc : Pc R) : Prop := ∃ ks, pcCont pc = some (.flushAll ks)

/-- The invariant of disciplined use. -/
structure K (cfg : Cfg) (st : St R) : Prop where
  range : st.range = epochRange st.ev
  bufSt : ∀ k buf, PyDict.get? st.buffers k = some buf → ∀ i ∈ buf.info,
    ∃ rows, Ev.stored k i.idx rows ∈ epoch st.ev
  bufNe : ∀ k buf, PyDict.get? st.buffers k = some buf → buf.info ≠ []
  flB : ∀ k, Ev.flushed k ∈ epoch st.ev → PyDict.get? st.buffers k = none
  flC : ∀ k, Ev.flushed k ∈ epoch st.ev → ¬ Finalizing st.pc → ∃ s e, st.range = some (s, e) ∧
    ∀ b, s ≤ b → b < e → b / cfg.chunkSize = k.2 → ∃ rows, Ev.stored k b rows ∈ epoch st.ev
  noRetry : ∀ k b rows, pcCont st.pc ≠ some (.retry k b rows)
  taskNe : ∀ x ∈ out st, x.2.info ≠ []

variable {cfg : Cfg}

theorem k_init (df : Path → Option (List R)) (mf : Path → Option (List Info)) :
    K cfg (St.init df mf) where
  range := rfl
  bufSt := by intro k buf h; cases h
  bufNe := by intro k buf h; cases h
  flB := by intro k h; cases h
  flC := by intro k h; cases h
  noRetry := by intro k b rows h; cases h
  taskNe := by intro x h; cases h

/-- What a complete chunk contains. -/
theorem complete_mem {st : St R} {k : Key} (h : isComplete cfg st k = true) :
    ∃ s e buf, st.range = some (s, e) ∧ PyDict.get? st.buffers k = some buf ∧
      ∀ b, s ≤ b → b < e → b / cfg.chunkSize = k.2 → ∃ i ∈ buf.info, i.idx = b := by
  unfold isComplete at h
  cases hr : st.range with
  | none => rw [hr] at h; cases h
  | some p =>
    obtain ⟨s, e⟩ := p
    rw [hr] at h
    simp only at h
    split_ifs at h with h1
    cases hb : PyDict.get? st.buffers k with
    | none => rw [hb] at h; cases h
    | some buf =>
      rw [hb] at h
      simp only [List.all_eq_true, List.mem_range, Bool.or_eq_true, decide_eq_true_iff] at h
      refine ⟨s, e, buf, rfl, rfl, ?_⟩
      intro b h2 h3 h4
      have hcs : 0 < cfg.chunkSize := by
        rcases Nat.eq_zero_or_pos cfg.chunkSize with h5 | h5
        · rw [h5] at h1; simp at h1
        · exact h5
      have h5 : k.2 * cfg.chunkSize ≤ b := by
        rw [← h4]; exact Nat.div_mul_le_self b _
      have h6 : b < (k.2 + 1) * cfg.chunkSize := by
        rw [← h4, Nat.mul_comm]
        exact Nat.lt_mul_div_succ b hcs
      rcases h b (Nat.lt_min.2 ⟨h6, h3⟩) with h7 | h7
      · exact absurd h7 (Nat.not_lt.2 (Nat.max_le.2 ⟨h5, h2⟩))
      · rw [List.contains_iff_mem] at h7
        obtain ⟨i, h8, h9⟩ := List.mem_map.1 h7
        exact ⟨i, h8, h9⟩

/-- The state after copying a batch into its buffer. -/
def stored (st : St R) (buf : Buffer R) (k : Key) (b : ℕ) (rows : List R) : St R :=
  { st with
    buffers := PyDict.set k ⟨buf.tensor ++ rows,
      buf.info ++ [⟨b, buf.tensor.length, buf.tensor.length + rows.length⟩]⟩ st.buffers,
    ev := .stored k b rows :: st.ev, pc := .idle }

theorem store_cases (st : St R) (dt : DT) (b : ℕ) (rows : List R) :
    (store cfg st dt b rows).ev = .storedEmpty (dt, chunkId cfg b) b :: st.ev ∨
    (∃ l, (store cfg st dt b rows).ev = l ++ .overflow (dt, chunkId cfg b) :: st.ev) ∨
    store cfg st dt b rows =
      (let st1 := stored (openBuffer st (dt, chunkId cfg b)).1 (openBuffer st (dt, chunkId cfg b)).2
        (dt, chunkId cfg b) b rows
      if isComplete cfg st1 (dt, chunkId cfg b) then beginFlush st1 (dt, chunkId cfg b) .done
      else st1) := by
  have h4 : (openBuffer st (dt, chunkId cfg b)).1.ev = st.ev := by
    unfold openBuffer
    cases PyDict.get? st.buffers (dt, chunkId cfg b) <;> rfl
  have h5 : PyDict.get? (openBuffer st (dt, chunkId cfg b)).1.buffers (dt, chunkId cfg b) =
      some (openBuffer st (dt, chunkId cfg b)).2 := by
    unfold openBuffer
    cases hb : PyDict.get? st.buffers (dt, chunkId cfg b) with
    | none => simp only; rw [PyDict.get?_set, if_pos rfl]
    | some buf => exact hb
  unfold store storeIn
  generalize (openBuffer st (dt, chunkId cfg b)).1 = st1 at *
  generalize (openBuffer st (dt, chunkId cfg b)).2 = buf at *
  split_ifs with h1 h2
  · exact Or.inl (by rw [← h4])
  · right; left
    rcases ev_beginFlush { st1 with ev := .overflow (dt, chunkId cfg b) :: st1.ev }
        (dt, chunkId cfg b) (.retry (dt, chunkId cfg b) b rows) with h6 | h6
    · exact ⟨[], by rw [h6, ← h4]; rfl⟩
    · exact ⟨[_], by rw [h6, ← h4]; rfl⟩
  · right; right
    unfold append
    rw [h5]
    simp only
    rw [if_neg h2]
    rfl

theorem k_beginFlush {st : St R} (h : K cfg st) (hpc : pcOut st.pc = []) (k : Key) (c : Cont R)
    (hc : ∀ k' b rows, c ≠ .retry k' b rows)
    (hcomp : (∃ ks, c = .flushAll ks) ∨
      ((¬ Finalizing st.pc) ∧ ∃ s e, st.range = some (s, e) ∧ ∀ b, s ≤ b → b < e →
        b / cfg.chunkSize = k.2 → ∃ rows, Ev.stored k b rows ∈ epoch st.ev)) :
    K cfg (beginFlush st k c) ∧ (FlushOnce st.ev → FlushOnce (beginFlush st k c).ev) := by
  unfold beginFlush
  cases hb : PyDict.get? st.buffers k with
  | none =>
    refine ⟨{ h with flC := ?_, noRetry := ?_, taskNe := ?_ }, fun h => h⟩
    · intro k' h1 h2
      rcases hcomp with ⟨ks, rfl⟩ | ⟨h3, _⟩
      · exact absurd ⟨ks, rfl⟩ h2
      · exact h.flC k' h1 h3
    · intro k' b rows h1
      cases h1
      exact hc _ _ _ rfl
    · intro x hx
      refine h.taskNe x ?_
      unfold out
      rw [hpc]
      exact hx
  | some buf =>
    have hnf : Ev.flushed k ∉ epoch st.ev := by
      intro h1
      rw [h.flB k h1] at hb; cases hb
    have hmem : ∀ k' b rows, Ev.stored k' b rows ∈ epoch (Ev.flushed k :: st.ev) ↔
        Ev.stored k' b rows ∈ epoch st.ev := by
      intro k' b rows
      rw [epoch_cons _ (by intro h; cases h)]
      simp
    have hmemf : ∀ k', Ev.flushed k' ∈ epoch (Ev.flushed k :: st.ev) ↔
        k' = k ∨ Ev.flushed k' ∈ epoch st.ev := by
      intro k'
      rw [epoch_cons _ (by intro h; cases h)]
      simp
    refine ⟨⟨h.range, ?_, ?_, ?_, ?_, ?_, ?_⟩, fun h => ⟨hnf, h⟩⟩
    · intro k' buf' hb' i hi
      rw [PyDict.get?_erase] at hb'
      split_ifs at hb'
      obtain ⟨rows, h1⟩ := h.bufSt k' buf' hb' i hi
      exact ⟨rows, (hmem _ _ _).2 h1⟩
    · intro k' buf' hb'
      rw [PyDict.get?_erase] at hb'
      split_ifs at hb'
      exact h.bufNe k' buf' hb'
    · intro k' hk'
      simp only
      rw [PyDict.get?_erase]
      split_ifs with h1
      · rfl
      · rcases (hmemf k').1 hk' with h2 | h2
        · exact absurd h2 h1
        · exact h.flB k' h2
    · intro k' hk' hfin
      simp only [hmem]
      rcases hcomp with ⟨ks, rfl⟩ | ⟨h4, h5⟩
      · exact absurd ⟨ks, rfl⟩ hfin
      · rcases (hmemf k').1 hk' with rfl | h6
        · exact h5
        · exact h.flC k' h6 h4
    · intro k' b rows h1
      cases h1
      exact hc _ _ _ rfl
    · intro x hx
      rcases List.mem_cons.1 (show x ∈ (Stage.fresh, _) :: (List.map _ _ ++ List.map _ _) from hx) with
        rfl | h1
      · exact h.bufNe k buf hb
      · refine h.taskNe x ?_
        unfold out
        rw [hpc]
        exact h1

/-- The outstanding tasks after a change that keeps the chunk contents. -/
theorem K.congr {st st' : St R} (h : K cfg st) (h1 : st'.ev = st.ev) (h2 : st'.range = st.range)
    (h3 : st'.buffers = st.buffers) (h4 : Finalizing st.pc → Finalizing st'.pc)
    (h5 : ∀ k b rows, pcCont st'.pc ≠ some (.retry k b rows))
    (h6 : ∀ x ∈ out st', ∃ y ∈ out st, y.2 = x.2) : K cfg st' where
  range := by rw [h1, h2]; exact h.range
  bufSt := by rw [h1, h3]; exact h.bufSt
  bufNe := by rw [h3]; exact h.bufNe
  flB := by rw [h1, h3]; exact h.flB
  flC := by
    intro k hk hf
    rw [h1] at hk ⊢
    rw [h2]
    exact h.flC k hk (fun h7 => hf (h4 h7))
  noRetry := h5
  taskNe := by
    intro x hx
    obtain ⟨y, h7, h8⟩ := h6 x hx
    rw [← h8]
    exact h.taskNe y h7

/-- An event that is neither a store nor a flush nor a return, with nothing else changed but the
outstanding tasks. -/
theorem K.event {st st' : St R} (h : K cfg st) {e : Ev R} (he : e ≠ .finalized)
    (hs : ∀ k b rows, e ≠ .stored k b rows) (hfl : ∀ k, e ≠ .flushed k)
    (hst : ∀ s t, e ≠ .started s t)
    (h1 : st'.ev = e :: st.ev) (h2 : st'.range = st.range)
    (h3 : st'.buffers = st.buffers) (h4 : st'.pc = st.pc) (h6 : ∀ x ∈ out st', ∃ y ∈ out st, y.2 = x.2) :
    K cfg st' := by
  have hm1 : ∀ k b rows, Ev.stored k b rows ∈ epoch st'.ev ↔ Ev.stored k b rows ∈ epoch st.ev := by
    intro k b rows
    rw [h1, epoch_cons _ he, List.mem_cons]
    exact ⟨fun h => h.elim (fun h => absurd h.symm (hs _ _ _)) id, Or.inr⟩
  have hm2 : ∀ k, Ev.flushed k ∈ epoch st'.ev ↔ Ev.flushed k ∈ epoch st.ev := by
    intro k
    rw [h1, epoch_cons _ he, List.mem_cons]
    exact ⟨fun h => h.elim (fun h => absurd h.symm (hfl _)) id, Or.inr⟩
  constructor
  · rw [h2, h.range, h1]
    cases e <;> first | rfl | exact absurd rfl he | exact absurd rfl (hst _ _)
  · rw [h3]; simp only [hm1]; exact h.bufSt
  · rw [h3]; exact h.bufNe
  · rw [h3]; simp only [hm2]; exact h.flB
  · rw [h2, h4]; simp only [hm1, hm2]; exact h.flC
  · rw [h4]; exact h.noRetry
  · intro x hx
    obtain ⟨y, h7, h8⟩ := h6 x hx
    rw [← h8]
    exact h.taskNe y h7

theorem flushOnce_cons {e : Ev R} {r : List (Ev R)} (hfl : ∀ k, e ≠ .flushed k) (h : FlushOnce r) :
    FlushOnce (e :: r) := by
  cases e <;> first | exact h | exact absurd rfl (hfl _)

theorem k_store {st : St R} (h : K cfg st) (hpc : st.pc = .idle) (dt : DT) (b : ℕ) (rows : List R)
    (hd : Disciplined (store cfg st dt b rows).ev) :
    K cfg (store cfg st dt b rows) ∧ (FlushOnce st.ev → FlushOnce (store cfg st dt b rows).ev) := by
  have hnfin : ¬ Finalizing (Pc.idle : Pc R) := by rintro ⟨ks, h⟩; cases h
  rcases store_cases (cfg := cfg) st dt b rows with h1 | ⟨l, h1⟩ | h1
  · rw [h1] at hd; exact hd.elim
  · rw [h1] at hd
    exact (disciplined_append hd).elim
  · rw [h1] at hd ⊢
    have hk : chunkId cfg b = b / cfg.chunkSize := rfl
    generalize hkk : (dt, chunkId cfg b) = k at *
    have hk2 : b / cfg.chunkSize = k.2 := by rw [← hkk]; rfl
    -- the state with the batch in its buffer
    have hob : (openBuffer st k).1.ev = st.ev ∧ (openBuffer st k).1.range = st.range ∧
        (∀ k', k' ≠ k → PyDict.get? (openBuffer st k).1.buffers k' = PyDict.get? st.buffers k') ∧
        (openBuffer st k).1.queue = st.queue ∧ (openBuffer st k).1.busy = st.busy ∧
        (∀ i ∈ (openBuffer st k).2.info, ∃ buf, PyDict.get? st.buffers k = some buf ∧ i ∈ buf.info) := by
      unfold openBuffer
      cases hb : PyDict.get? st.buffers k with
      | none =>
        refine ⟨rfl, rfl, ?_, rfl, rfl, by simp⟩
        intro k' h; simp only; rw [PyDict.get?_set, if_neg h]
      | some buf => exact ⟨rfl, rfl, fun _ _ => rfl, rfl, rfl, fun i hi => ⟨buf, rfl, hi⟩⟩
    obtain ⟨o1, o2, o3, o4, o5, o6⟩ := hob
    generalize (openBuffer st k).1 = st1 at *
    generalize (openBuffer st k).2 = buf at *
    simp only at hd ⊢
    have hd1 : Disciplined (Ev.stored k b rows :: st.ev) := by
      split_ifs at hd
      · have := ev_beginFlush (stored st1 buf k b rows) k .done
        rcases this with h2 | h2
        · rw [h2] at hd
          have : (stored st1 buf k b rows).ev = .stored k b rows :: st.ev := by
            show _ :: st1.ev = _; rw [o1]
          rw [this] at hd; exact hd
        · rw [h2] at hd
          have : (stored st1 buf k b rows).ev = .stored k b rows :: st.ev := by
            show _ :: st1.ev = _; rw [o1]
          rw [this] at hd; exact hd
      · have : (stored st1 buf k b rows).ev = .stored k b rows :: st.ev := by
          show _ :: st1.ev = _; rw [o1]
        rw [this] at hd; exact hd
    obtain ⟨⟨s, e, hr1, hr2, hr3⟩, hnew, _⟩ := hd1
    have hnfl : Ev.flushed k ∉ epoch st.ev := by
      intro h2
      obtain ⟨s', e', h4, h5⟩ := h.flC k h2 (by rw [hpc]; exact hnfin)
      rw [h.range, hr1] at h4
      cases h4
      obtain ⟨rows', h3⟩ := h5 b hr2 hr3 hk2
      exact hnew rows' h3
    have hev : (stored st1 buf k b rows).ev = .stored k b rows :: st.ev := by
      show _ :: st1.ev = _; rw [o1]
    have hm : ∀ k' b' rows', Ev.stored k' b' rows' ∈ epoch st.ev →
        Ev.stored k' b' rows' ∈ epoch (stored st1 buf k b rows).ev := by
      intro k' b' rows' h2
      rw [hev, epoch_cons _ (by intro h; cases h)]
      exact List.mem_cons_of_mem _ h2
    have hmf : ∀ k', Ev.flushed k' ∈ epoch (stored st1 buf k b rows).ev ↔
        Ev.flushed k' ∈ epoch st.ev := by
      intro k'
      rw [hev, epoch_cons _ (by intro h; cases h)]
      simp
    have hK : K cfg (stored st1 buf k b rows) := by
      constructor
      · show st1.range = _
        rw [o2, h.range, hev]; rfl
      · intro k' buf' hb' i hi
        have hb' : PyDict.get? (PyDict.set k _ st1.buffers) k' = some buf' := hb'
        rw [PyDict.get?_set] at hb'
        split_ifs at hb' with h2
        · cases hb'
          subst h2
          rcases List.mem_append.1 hi with h3 | h3
          · obtain ⟨buf0, h4, h5⟩ := o6 i h3
            obtain ⟨rows', h6⟩ := h.bufSt k' buf0 h4 i h5
            exact ⟨rows', hm _ _ _ h6⟩
          · rw [List.mem_singleton] at h3
            subst h3
            refine ⟨rows, ?_⟩
            rw [hev, epoch_cons _ (by intro h; cases h)]
            exact List.mem_cons_self
        · rw [o3 k' h2] at hb'
          obtain ⟨rows', h6⟩ := h.bufSt k' buf' hb' i hi
          exact ⟨rows', hm _ _ _ h6⟩
      · intro k' buf' hb'
        have hb' : PyDict.get? (PyDict.set k _ st1.buffers) k' = some buf' := hb'
        rw [PyDict.get?_set] at hb'
        split_ifs at hb' with h2
        · cases hb'; simp
        · rw [o3 k' h2] at hb'
          exact h.bufNe k' buf' hb'
      · intro k' hk'
        rw [hmf] at hk'
        show PyDict.get? (PyDict.set k _ st1.buffers) k' = none
        rw [PyDict.get?_set]
        split_ifs with h2
        · subst h2; exact absurd hk' hnfl
        · rw [o3 k' h2]; exact h.flB k' hk'
      · intro k' hk' _
        rw [hmf] at hk'
        obtain ⟨s', e', hse, h6⟩ := h.flC k' hk' (by rw [hpc]; exact hnfin)
        refine ⟨s', e', o2.trans hse, ?_⟩
        intro b' h2 h3 h4
        obtain ⟨rows', h5⟩ := h6 b' h2 h3 h4
        exact ⟨rows', hm _ _ _ h5⟩
      · intro k' b' rows' h2; cases h2
      · intro x hx
        refine h.taskNe x ?_
        unfold out at hx ⊢
        rw [hpc]
        have : (stored st1 buf k b rows).queue = st.queue := o4
        rw [this] at hx
        have : (stored st1 buf k b rows).busy = st.busy := o5
        rw [this] at hx
        exact hx
    have hfo : FlushOnce st.ev → FlushOnce (stored st1 buf k b rows).ev := by
      intro h2
      rw [hev]
      exact h2
    split_ifs with hc
    · have := k_beginFlush hK rfl k .done (by intro _ _ _ h; cases h) (Or.inr ⟨hnfin, ?_⟩)
      · exact ⟨this.1, fun h2 => this.2 (hfo h2)⟩
      · obtain ⟨s2, e2, buf2, c1, c2, c3⟩ := complete_mem hc
        refine ⟨s2, e2, c1, ?_⟩
        intro b' h2 h3 h4
        obtain ⟨i, c4, rfl⟩ := c3 b' h2 h3 h4
        exact hK.bufSt k buf2 c2 i c4
    · exact ⟨hK, hfo⟩

theorem k_step {st st' : St R} {a : Act R} (h : K cfg st) (hs : step cfg st a = some st')
    (hd : Disciplined st'.ev) (hpcinv : PcInv cfg st) (hg : FlushOnce st.ev → Good cfg st)
    (hfo : FlushOnce st.ev) :
    K cfg st' ∧ FlushOnce st'.ev := by
  cases a with
  | callStart s e =>
    simp only [step] at hs
    cases hp : st.pc <;> rw [hp] at hs <;> simp only [Option.some.injEq, reduceCtorEq] at hs
    subst hs
    unfold startRange at hd ⊢
    split_ifs at hd ⊢
    · exact ⟨h.event (e := .raised .valueError) (by simp) (by simp) (by simp) (by simp) rfl rfl rfl rfl
        (fun x hx => ⟨x, hx, rfl⟩), hfo⟩
    · refine ⟨?_, hfo⟩
      have hn : epochRange st.ev = none := hd.1
      have hm1 : ∀ k b rows, Ev.stored k b rows ∈ epoch (Ev.started s e :: st.ev) ↔
          Ev.stored k b rows ∈ epoch st.ev := by
        intro k b rows
        rw [epoch_cons _ (by simp), List.mem_cons]
        simp
      have hm2 : ∀ k, Ev.flushed k ∈ epoch (Ev.started s e :: st.ev) ↔
          Ev.flushed k ∈ epoch st.ev := by
        intro k
        rw [epoch_cons _ (by simp), List.mem_cons]
        simp
      refine ⟨rfl, ?_, h.bufNe, ?_, ?_, h.noRetry, h.taskNe⟩
      · simp only [hm1]; exact h.bufSt
      · simp only [hm2]; exact h.flB
      · intro k hk
        rw [hm2] at hk
        intro h1
        obtain ⟨s', e', h2, _⟩ := h.flC k hk (by rw [hp]; rintro ⟨ks, h3⟩; cases h3)
        rw [h.range, hn] at h2
        cases h2
  | callStore dt b rows =>
    simp only [step] at hs
    cases hp : st.pc <;> rw [hp] at hs <;> simp only [Option.some.injEq, reduceCtorEq] at hs
    subst hs
    obtain ⟨h1, h2⟩ := k_store h hp dt b rows hd
    exact ⟨h1, h2 hfo⟩
  | callFinalize =>
    simp only [step] at hs
    cases hp : st.pc <;> rw [hp] at hs <;> simp only [Option.some.injEq, reduceCtorEq] at hs
    subst hs
    unfold finalize
    cases hr : st.range with
    | none =>
      exact ⟨h.event (e := .skipped) (by simp) (by simp) (by simp) (by simp) rfl hr.symm rfl rfl
        (fun x hx => ⟨x, hx, rfl⟩), hfo⟩
    | some r =>
      refine ⟨h.congr rfl hr.symm rfl ?_ (by intro _ _ _ h; cases h) ?_, hfo⟩
      · rw [hp]; rintro ⟨ks, h3⟩; cases h3
      · intro x hx
        refine ⟨x, ?_, rfl⟩
        unfold out; rw [hp]; exact hx
  | prod =>
    simp only [step] at hs
    unfold prodStep at hs
    cases hp : st.pc with
    | idle => rw [hp] at hs; cases hs
    | mark t c =>
      rw [hp] at hs
      cases hs
      refine ⟨h.congr rfl rfl rfl (by rw [hp]; exact id) (by have := h.noRetry; rw [hp] at this; exact this)
        ?_, hfo⟩
      intro x hx
      rcases List.mem_cons.1 (show x ∈ (Stage.marked, t) :: (List.map _ _ ++ List.map _ _) from hx) with
        rfl | h1
      · exact ⟨(.fresh, t), by unfold out; rw [hp]; exact List.mem_cons_self, rfl⟩
      · exact ⟨x, by unfold out; rw [hp]; exact List.mem_cons_of_mem _ h1, rfl⟩
    | put t c =>
      rw [hp] at hs
      simp only at hs
      split_ifs at hs
      cases hs
      refine ⟨h.congr rfl rfl rfl (by rw [hp]; exact id) (by have := h.noRetry; rw [hp] at this; exact this)
        ?_, hfo⟩
      intro x hx
      refine ⟨x, ?_, rfl⟩
      unfold out at hx ⊢
      rw [hp]
      simp only [pcOut, List.map_append, List.mem_append, List.map_cons, List.map_nil,
        List.mem_singleton, List.not_mem_nil, false_or] at hx ⊢
      tauto
    | resume c =>
      rw [hp] at hs
      cases c with
      | done =>
        cases hs
        refine ⟨h.congr rfl rfl rfl ?_ (by intro _ _ _ h; cases h) ?_, hfo⟩
        · rw [hp]; rintro ⟨ks, h3⟩; cases h3
        · intro x hx
          refine ⟨x, ?_, rfl⟩
          unfold out; rw [hp]; exact hx
      | retry k b rows => exact absurd (by rw [hp]; rfl) (h.noRetry k b rows)
      | flushAll ks =>
        cases hs
        refine ⟨h.congr rfl rfl rfl (by rw [hp]; exact id) (by intro _ _ _ h; cases h) ?_, hfo⟩
        intro x hx
        refine ⟨x, ?_, rfl⟩
        unfold out; rw [hp]; exact hx
    | flushAll ks =>
      rw [hp] at hs
      cases ks with
      | nil =>
        cases hs
        refine ⟨h.congr rfl rfl rfl (by rw [hp]; exact fun _ => ⟨[], rfl⟩)
          (by intro _ _ _ h; cases h) ?_, hfo⟩
        intro x hx
        refine ⟨x, ?_, rfl⟩
        unfold out; rw [hp]; exact hx
      | cons k ks =>
        cases hs
        obtain ⟨h1, h2⟩ := k_beginFlush h (by rw [hp]; rfl) k (.flushAll ks)
          (by intro _ _ _ h; cases h) (Or.inl ⟨ks, rfl⟩)
        exact ⟨h1, h2 hfo⟩
    | wait =>
      rw [hp] at hs
      simp only at hs
      split_ifs at hs with h1
      · cases hs
        have hstep : step cfg st .prod =
            some { st with pc := .idle, range := none, ev := .finalized :: st.ev } := by
          simp only [step]
          unfold prodStep
          rw [hp]
          simp only
          rw [if_pos h1]
        have hg' := (good_step (hg hfo) hpcinv hstep hfo).1
        have hbuf : ∀ k, PyDict.get? st.buffers k = none := by
          intro k
          rw [PyDict.get?_eq_none]
          intro hk
          have := hpcinv (.flushAll []) (by rw [hp]; rfl) k hk
          cases this
        refine ⟨⟨rfl, ?_, ?_, ?_, ?_, fun _ _ _ h => (by cases h), ?_⟩, hfo⟩
        · intro k buf hb
          have hb : PyDict.get? st.buffers k = some buf := hb
          rw [hbuf] at hb; cases hb
        · intro k buf hb
          have hb : PyDict.get? st.buffers k = some buf := hb
          rw [hbuf] at hb; cases hb
        · intro k hk; cases hk
        · intro k hk; cases hk
        · intro x hx
          have := hg'.fl x.2.key (List.mem_map.2 ⟨x, hx, rfl⟩)
          cases this
      · cases hs
        exact ⟨h, hfo⟩
  | take =>
    simp only [step] at hs
    unfold takeStep at hs
    cases hq : st.queue with
    | nil => rw [hq] at hs; cases hs
    | cons t q =>
      rw [hq] at hs
      simp only at hs
      split_ifs at hs
      cases hs
      refine ⟨h.congr rfl rfl rfl id h.noRetry ?_, hfo⟩
      intro x hx
      unfold out at hx ⊢
      rw [hq]
      simp only [List.map_append, List.mem_append, List.map_cons, List.map_nil,
        List.mem_cons] at hx ⊢
      refine ⟨x, ?_, rfl⟩
      rcases hx with (h1 | h1) | h1 | h1
      · exact Or.inl (Or.inl h1)
      · exact Or.inl (Or.inr (Or.inr h1))
      · exact Or.inr h1
      · rcases h1 with h1 | h1
        · exact Or.inl (Or.inr (Or.inl h1))
        · cases h1
  | work i =>
    simp only [step] at hs
    unfold workStep at hs
    cases hb : st.busy[i]? with
    | none => rw [hb] at hs; cases hs
    | some x =>
      obtain ⟨ph, t⟩ := x
      rw [hb] at hs
      have key : ∀ y : Phase, ∀ x ∈ out { st with busy := st.busy.set i (y, t) },
          ∃ z ∈ out st, z.2 = x.2 := by
        intro y x hx
        have := (out_set (y := (y, t)) hb).symm.mem_iff.1 hx
        rcases List.mem_cons.1 this with rfl | h1
        · exact ⟨(ph.stage, t), (out_front hb).symm.mem_iff.1 List.mem_cons_self, rfl⟩
        · exact ⟨x, (out_front hb).symm.mem_iff.1 (List.mem_cons_of_mem _ h1), rfl⟩
      cases ph with
      | got =>
        simp only at hs
        cases hpth : pathOf t.key.1 t.info with
        | none => rw [hpth] at hs; cases hs
        | some p =>
          rw [hpth] at hs
          cases hs
          exact ⟨h.congr rfl rfl rfl id h.noRetry (key .data), hfo⟩
      | data =>
        simp only at hs
        cases hpth : pathOf t.key.1 t.info with
        | none => rw [hpth] at hs; cases hs
        | some p =>
          rw [hpth] at hs
          cases hs
          exact ⟨h.congr rfl rfl rfl id h.noRetry (key .done), hfo⟩
      | done =>
        cases hs
        refine ⟨h.congr rfl rfl rfl id h.noRetry ?_, hfo⟩
        intro x hx
        exact ⟨x, (out_front hb).symm.mem_iff.1 (List.mem_cons_of_mem _ hx), rfl⟩
  | fail i =>
    simp only [step] at hs
    unfold failStep at hs
    cases hb : st.busy[i]? with
    | none => rw [hb] at hs; cases hs
    | some x =>
      obtain ⟨ph, t⟩ := x
      rw [hb] at hs
      have key : ∀ x ∈ out { st with busy := st.busy.eraseIdx i }, ∃ z ∈ out st, z.2 = x.2 :=
        fun x hx => ⟨x, (out_front hb).symm.mem_iff.1 (List.mem_cons_of_mem _ hx), rfl⟩
      cases ph with
      | got =>
        cases hs
        exact ⟨h.event (e := .failed t.key) (by simp) (by simp) (by simp) (by simp) rfl rfl rfl rfl key,
          hfo⟩
      | data =>
        cases hs
        exact ⟨h.event (e := .failed t.key) (by simp) (by simp) (by simp) (by simp) rfl rfl rfl rfl key,
          hfo⟩
      | done => cases hs

/-- Disciplined use never flushes a chunk twice. -/
theorem disciplined_exec {st st' : St R} {acts : List (Act R)} (hs : exec cfg st acts = some st')
    (hd : Disciplined st'.ev) (h : K cfg st) (hfo : FlushOnce st.ev) (hg : Good cfg st)
    (hpc : PcInv cfg st) : K cfg st' ∧ FlushOnce st'.ev ∧ Good cfg st' ∧ PcInv cfg st' := by
  induction acts generalizing st with
  | nil => cases hs; exact ⟨h, hfo, hg, hpc⟩
  | cons a t ih =>
    rw [exec_cons] at hs
    obtain ⟨s1, h1, h2⟩ := Option.bind_eq_some_iff.1 hs
    obtain ⟨l, e⟩ := ev_exec h2
    have hd1 : Disciplined s1.ev := by rw [e] at hd; exact disciplined_append hd
    obtain ⟨k1, f1⟩ := k_step h h1 hd1 hpc (fun _ => hg) hfo
    obtain ⟨g1, p1⟩ := good_step hg hpc h1 f1
    exact ih h2 k1 f1 g1 p1

end Verif.Disk
