import Verif.Disk.ExactLemmas
import Verif.Disk.LoaderLemmas

/-!
# C96: what was stored is what is read

From an empty directory, through every schedule of the storing thread and the writers, to a pass of the
loader after `finalize_batch_range` has returned.
-/

namespace Verif.Disk

variable {R : Type} {cfg : Cfg}

/-- Specification: the stored batches of a data type with their rows. -/
def storedOf (dt : DT) : List (Ev R) → List (ℕ × List R)
  | [] => []
  | .stored k b rows :: r => if k.1 = dt then (b, rows) :: storedOf dt r else storedOf dt r
  | _ :: r => storedOf dt r

theorem mem_storedOf {dt : DT} {l : List (Ev R)} {b : ℕ} {rows : List R} :
    (b, rows) ∈ storedOf dt l ↔ ∃ c, Ev.stored (dt, c) b rows ∈ l := by
  induction l with
  | nil => simp [storedOf]
  | cons e t ih =>
    cases e with
    | stored k b' rows' =>
      obtain ⟨d, c'⟩ := k
      unfold storedOf
      simp only [List.mem_cons, Ev.stored.injEq, Prod.mk.injEq]
      split_ifs with h
      · rw [List.mem_cons, ih, Prod.mk.injEq]
        constructor
        · rintro (⟨rfl, rfl⟩ | ⟨c, h1⟩)
          · exact ⟨c', Or.inl ⟨⟨h.symm, rfl⟩, rfl, rfl⟩⟩
          · exact ⟨c, Or.inr h1⟩
        · rintro ⟨c, ⟨_, h2, h3⟩ | h1⟩
          · exact Or.inl ⟨h2, h3⟩
          · exact Or.inr ⟨c, h1⟩
      · rw [ih]
        constructor
        · rintro ⟨c, h1⟩; exact ⟨c, Or.inr h1⟩
        · rintro ⟨c, ⟨⟨h2, _⟩, _⟩ | h1⟩
          · exact absurd h2.symm h
          · exact ⟨c, h1⟩
    | _ => simp [storedOf, ih]

theorem nodup_storedOf {dt : DT} {l : List (Ev R)} (h : Once l)
    (hk : ∀ k b rows, Ev.stored k b rows ∈ l → b / cfg.chunkSize = k.2) :
    ((storedOf dt l).map Prod.fst).Nodup := by
  induction l with
  | nil => simp [storedOf]
  | cons e t ih =>
    have ih := ih h.tail fun k b rows hm => hk k b rows (List.mem_cons_of_mem _ hm)
    cases e with
    | stored k b rows =>
      unfold storedOf
      split_ifs with h1
      · rw [List.map_cons, List.nodup_cons]
        refine ⟨?_, ih⟩
        intro hm
        obtain ⟨⟨b', rows'⟩, h2, h3⟩ := List.mem_map.1 hm
        simp only at h3
        subst h3
        obtain ⟨c, h4⟩ := mem_storedOf.1 h2
        have e1 := hk _ _ _ (List.mem_cons_of_mem _ h4)
        have e2 := hk _ _ _ (List.mem_cons_self (a := Ev.stored k b' rows) (l := t))
        have : k = (dt, c) := Prod.ext h1 (e2.symm.trans e1)
        subst this
        exact h.1 rows' h4
      · exact ih
    | _ => exact ih

/-- The state of the files when `finalize_batch_range` returns. -/
theorem exact_of_return (acts : List (Act R)) {st st' : St R}
    (hex : exec cfg (St.init (fun _ => none) (fun _ => none)) acts = some st) (ho : Once st.ev)
    (hr : Returns cfg st st') :
    Ex cfg st.ev [] [] st'.dataFile st'.metaFile ∧
      ∀ k b rows, Ev.stored k b rows ∈ st.ev → Written cfg st'.dataFile st'.metaFile k b rows := by
  obtain ⟨g1, g2⟩ := good_init (cfg := cfg) (fun _ => (none : Option (List R))) (fun _ => none)
  have x0 : GoodX cfg (St.init (fun _ => (none : Option (List R))) fun _ => none) := Ex.init
  obtain ⟨x, g, pc, hfail⟩ := goodX_exec x0 g1 g2 (by intro k b rows h; cases h) hex ho
    (by intro k h; cases h)
  obtain ⟨h1, h2, rfl⟩ := returns_iff hr
  have hbuf : ∀ k, PyDict.get? st.buffers k = none := by
    intro k
    cases hb : PyDict.get? st.buffers k with
    | none => rfl
    | some buf =>
      have : k ∈ PyDict.keys st.buffers := by rw [← PyDict.get?_isSome, hb]; rfl
      have := pc (.flushAll []) (by rw [h1]; rfl) k this
      cases this
  have hout : out st = [] := by
    rw [List.eq_nil_iff_forall_not_mem]
    intro x h3
    have hx : x.1 ≠ .fresh := by
      unfold out at h3
      rw [h1] at h3
      rcases List.mem_append.1 h3 with h4 | h4
      · obtain ⟨t, _, rfl⟩ := List.mem_map.1 (by exact h4)
        intro h; cases h
      · obtain ⟨⟨ph, t⟩, _, rfl⟩ := List.mem_map.1 h4
        cases ph <;> intro h <;> cases h
    have := g.marked x h3 hx
    rw [h2] at this; cases this
  have hnf : ∀ k, Ev.failed k ∉ st.ev := by
    intro k hk
    have := (g.failedIn k (hfail k hk)).1
    rw [h2] at this; cases this
  unfold GoodX at x
  rw [hout] at x
  have hw : ∀ k b rows, Ev.stored k b rows ∈ st.ev → Written cfg st.dataFile st.metaFile k b rows := by
    intro k b rows hs
    rcases x.keep k b rows hs with ⟨buf, h3, _⟩ | ⟨y, h3, _⟩ | h3 | h3
    · rw [hbuf k] at h3; cases h3
    · cases h3
    · exact absurd h3 (hnf k)
    · exact h3
  exact ⟨⟨(by intro k buf h; cases h), x.outX, x.outF, x.file, x.uniq,
    fun k b rows hs => Or.inr (Or.inr (Or.inr (hw k b rows hs))), x.keyed⟩, hw⟩

/-- **C96** (what the files contain).  Take any schedule from an empty directory in which no chunk is
flushed twice and no batch is stored twice.  When `finalize_batch_range` returns, every chunk file is
readable, its entries are distinct batches with at least one row inside its tensor, and for each data
type the entries of all its files together are the stored batches with their rows, each exactly once. -/
theorem C96_files (acts : List (Act R)) {st st' : St R}
    (hex : exec cfg (St.init (fun _ => none) (fun _ => none)) acts = some st) (ho : Once st.ev)
    (hr : Returns cfg st st') (ls : List Path) (hls : ls.Nodup)
    (hall : ∀ p, p ∈ ls ↔ (st'.metaFile p).isSome) (dt : DT) :
    Sound ⟨st'.dataFile, st'.metaFile, ls⟩ dt ∧
      (contents ⟨st'.dataFile, st'.metaFile, ls⟩ dt).Perm (storedOf dt st.ev) ∧
      ((storedOf dt st.ev).map Prod.fst).Nodup := by
  obtain ⟨x, hw⟩ := exact_of_return acts hex ho hr
  have hnd := nodup_storedOf (dt := dt) ho x.keyed
  have hsound : Sound ⟨st'.dataFile, st'.metaFile, ls⟩ dt := by
    intro p hp _
    obtain ⟨info, hi⟩ := Option.isSome_iff_exists.1 ((hall p).1 hp)
    obtain ⟨t, k, h1, -, h2, -, -⟩ := x.file p info hi
    exact ⟨info, t, hi, h1, h2.fits, h2.nd⟩
  -- what a file contains
  have hfile : ∀ p b rows, (b, rows) ∈ fileEntries ⟨st'.dataFile, st'.metaFile, ls⟩ p →
      ∃ info, st'.metaFile p = some info ∧ Ev.stored (p.dt, p.lo / cfg.chunkSize) b rows ∈ st.ev := by
    intro p b rows hm
    unfold fileEntries at hm
    cases hi : st'.metaFile p with
    | none => simp only [hi] at hm; cases hm
    | some info =>
      obtain ⟨t, k, h1, h2, h3, -, -⟩ := x.file p info hi
      simp only [hi, h1] at hm
      obtain ⟨i, hi1, hi2⟩ := List.mem_map.1 hm
      rw [Prod.mk.injEq] at hi2
      obtain ⟨rfl, rfl⟩ := hi2
      have hk := pathOf_key h2 h3.key
      have : k = (p.dt, p.lo / cfg.chunkSize) := Prod.ext hk.1.symm hk.2.symm
      exact ⟨info, rfl, this ▸ h3.st i hi1⟩
  have hcn : ((contents ⟨st'.dataFile, st'.metaFile, ls⟩ dt).map Prod.fst).Nodup := by
    unfold contents
    have key : ∀ l : List Path, l.Nodup → (∀ p ∈ l, p.dt = dt) →
        ((l.flatMap (fileEntries ⟨st'.dataFile, st'.metaFile, ls⟩)).map Prod.fst).Nodup := by
      intro l
      induction l with
      | nil => intro _ _; simp
      | cons p q ih =>
        intro h1 h2
        rw [List.nodup_cons] at h1
        rw [List.flatMap_cons, List.map_append, List.nodup_append]
        refine ⟨?_, ih h1.2 fun r hr => h2 r (List.mem_cons_of_mem _ hr), ?_⟩
        · unfold fileEntries
          cases hi : st'.metaFile p with
          | none => simp [hi]
          | some info =>
            obtain ⟨t, k, e1, -, e2, -, -⟩ := x.file p info hi
            simp only [hi, e1, entries, List.map_map]
            exact e2.nd
        · intro a ha a' ha' heq
          obtain ⟨⟨b, rows⟩, m1, rfl⟩ := List.mem_map.1 ha
          obtain ⟨⟨b', rows'⟩, m2, rfl⟩ := List.mem_map.1 ha'
          simp only at heq
          subst heq
          obtain ⟨p', hp', m2⟩ := List.mem_flatMap.1 m2
          obtain ⟨i1, f1, s1⟩ := hfile p b rows m1
          obtain ⟨i2, f2, s2⟩ := hfile p' b rows' m2
          have d1 := x.keyed _ _ _ s1
          have d2 := x.keyed _ _ _ s2
          have hpp : p = p' := x.uniq p p' i1 i2 f1 f2
            ((h2 p List.mem_cons_self).trans (h2 p' (List.mem_cons_of_mem _ hp')).symm)
            (d1.symm.trans d2)
          subst hpp
          exact h1.1 hp'
    exact key _ (hls.filter _) (fun p hp => by simpa using (List.mem_filter.1 hp).2)
  refine ⟨hsound, ?_, hnd⟩
  refine (List.perm_ext_iff_of_nodup (List.Nodup.of_map _ hcn) (List.Nodup.of_map _ hnd)).2 ?_
  rintro ⟨b, rows⟩
  rw [mem_storedOf]
  constructor
  · intro hm
    obtain ⟨p, hp, hm⟩ := List.mem_flatMap.1 hm
    have hdt : p.dt = dt := by simpa using (List.mem_filter.1 hp).2
    obtain ⟨info, -, hs⟩ := hfile p b rows hm
    rw [hdt] at hs
    exact ⟨_, hs⟩
  · rintro ⟨c, hs⟩
    obtain ⟨p, info, t, e1, e2, e3, e4, s, e, e5, e6⟩ := hw _ _ _ hs
    have hp : p ∈ ls := (hall p).2 (by rw [e3]; rfl)
    refine List.mem_flatMap.2 ⟨p, List.mem_filter.2 ⟨hp, by simpa using e1⟩, ?_⟩
    unfold fileEntries
    simp only [e3, e4]
    exact List.mem_map.2 ⟨_, e5, by rw [← e6.2.2]; rfl⟩

/-- **C96** (what the loader yields).  In the same situation, for every data type, every range of batches
(or none) and every number of chunks per item, no load raises and a pass of the loader yields exactly
the stored batches of the range, each once and with its rows. -/
theorem C96_round_trip (acts : List (Act R)) {st st' : St R}
    (hex : exec cfg (St.init (fun _ => none) (fun _ => none)) acts = some st) (ho : Once st.ev)
    (hr : Returns cfg st st') (ls : List Path) (hls : ls.Nodup)
    (hall : ∀ p, p ∈ ls ↔ (st'.metaFile p).isSome) (dt : DT) (rng : Option (ℕ × ℕ)) {g : ℕ}
    (hg : 0 < g) :
    ∃ items, (chunkInfo ⟨st'.dataFile, st'.metaFile, ls⟩ dt rng).mapM
        (loadFile ⟨st'.dataFile, st'.metaFile, ls⟩ rng) = .ok items ∧
      ((loaderPass g items).flatMap readPairs).Perm
        ((storedOf dt st.ev).filter fun e => inRng rng e.1) := by
  obtain ⟨h1, h2, h3⟩ := C96_files acts hex ho hr ls hls hall dt
  obtain ⟨items, e1, e2, e3⟩ := dataset_read h1 (((h2.map Prod.fst).nodup_iff).2 h3) rng
  refine ⟨items, e1, ?_⟩
  rw [e2 g hg]
  exact e3.trans (h2.filter _)

/-! ### In terms of calls only -/

/-- The events before the last return of `finalize_batch_range`. -/
def past : List (Ev R) → List (Ev R)
  | [] => []
  | .finalized :: r => r
  | _ :: r => past r

/-- All batches of a chunk are stored within one round of `start_batch_range` and
`finalize_batch_range`. -/
def OneRound : List (Ev R) → Prop
  | [] => True
  | .stored k _ _ :: r => (∀ b rows, .stored k b rows ∉ past r) ∧ OneRound r
  | _ :: r => OneRound r

/-- A flushed chunk has a batch stored in the same round. -/
def FlushHas : List (Ev R) → Prop
  | [] => True
  | .flushed k :: r => (∃ b rows, .stored k b rows ∈ epoch r) ∧ FlushHas r
  | _ :: r => FlushHas r

theorem mem_past {l : List (Ev R)} {e : Ev R} (h : e ∈ l) : e = .finalized ∨ e ∈ epoch l ∨ e ∈ past l := by
  induction l with
  | nil => cases h
  | cons a t ih =>
    by_cases ha : a = .finalized
    · subst ha
      rcases List.mem_cons.1 h with rfl | h
      · exact Or.inl rfl
      · exact Or.inr (Or.inr h)
    · have hp : past (a :: t) = past t := by cases a <;> first | rfl | exact absurd rfl ha
      rw [epoch_cons _ ha, hp]
      rcases List.mem_cons.1 h with rfl | h
      · exact Or.inr (Or.inl List.mem_cons_self)
      · rcases ih h with h | h | h
        · exact Or.inl h
        · exact Or.inr (Or.inl (List.mem_cons_of_mem _ h))
        · exact Or.inr (Or.inr h)

theorem past_subset (l : List (Ev R)) : ∀ e ∈ past l, e ∈ l := by
  induction l with
  | nil => intro e h; cases h
  | cons a t ih =>
    intro e h
    by_cases ha : a = .finalized
    · subst ha; exact List.mem_cons_of_mem _ h
    · have hp : past (a :: t) = past t := by cases a <;> first | rfl | exact absurd rfl ha
      rw [hp] at h
      exact List.mem_cons_of_mem _ (ih e h)

theorem flushHas_mem {l : List (Ev R)} (h : FlushHas l) {k : Key} (hk : Ev.flushed k ∈ l) :
    ∃ b rows, Ev.stored k b rows ∈ l := by
  induction l with
  | nil => cases hk
  | cons a t ih =>
    rcases List.mem_cons.1 hk with rfl | hk
    · obtain ⟨⟨b, rows, h1⟩, -⟩ := h
      exact ⟨b, rows, List.mem_cons_of_mem _ (epoch_subset _ _ h1)⟩
    · have : FlushHas t := by cases a <;> first | exact h | exact h.2
      obtain ⟨b, rows, h1⟩ := ih this hk
      exact ⟨b, rows, List.mem_cons_of_mem _ h1⟩

theorem flushHas_past {l : List (Ev R)} (h : FlushHas l) : FlushHas (past l) := by
  induction l with
  | nil => trivial
  | cons a t ih =>
    cases a <;> first | exact h | exact ih h | exact ih h.2

/-- A batch stored in this round shows that none of its chunk was stored before. -/
theorem oneRound_epoch {l : List (Ev R)} (h : OneRound l) {k : Key} {b : ℕ} {rows : List R}
    (hs : Ev.stored k b rows ∈ epoch l) : ∀ b rows, Ev.stored k b rows ∉ past l := by
  induction l with
  | nil => cases hs
  | cons a t ih =>
    by_cases ha : a = .finalized
    · subst ha; cases hs
    · have hp : past (a :: t) = past t := by cases a <;> first | rfl | exact absurd rfl ha
      rw [hp]
      rw [epoch_cons _ ha] at hs
      rcases List.mem_cons.1 hs with rfl | hs
      · exact h.1
      · exact ih (by cases a <;> first | exact h | exact h.2) hs

theorem once_of {l : List (Ev R)} (hd : Disciplined l) (hf : FlushOnce l) (hh : FlushHas l)
    (ho : OneRound l) : Once l := by
  induction l with
  | nil => trivial
  | cons a t ih =>
    cases a with
    | flushed k =>
      refine ⟨?_, ih hd.tail hf.2 hh.2 ho⟩
      intro hk
      obtain ⟨⟨b, rows, h1⟩, h2⟩ := hh
      rcases mem_past hk with h3 | h3 | h3
      · cases h3
      · exact hf.1 h3
      · obtain ⟨b', rows', h4⟩ := flushHas_mem (flushHas_past h2) h3
        exact oneRound_epoch (l := t) ho h1 b' rows' h4
    | stored k b rows =>
      refine ⟨?_, ih hd.2.2 hf hh ho.2⟩
      intro rows' h1
      rcases mem_past h1 with h3 | h3 | h3
      · cases h3
      · exact hd.2.1 rows' h3
      · exact ho.1 b rows' h3
    | storedEmpty k b => exact hd.elim
    | overflow k => exact hd.elim
    | started s e => exact ih hd.tail hf hh ho
    | finalized => exact ih hd.tail hf hh ho
    | skipped => exact ih hd.tail hf hh ho
    | failed k => exact ih hd.tail hf hh ho
    | raised e => exact ih hd.tail hf hh ho

/-- Which steps flush. -/
theorem step_flushed {st st' : St R} {a : Act R} (h : step cfg st a = some st')
    (hno : ∀ k b rows, pcCont st.pc ≠ some (.retry k b rows)) (hd : Disciplined st'.ev) :
    (∃ l, st'.ev = l ++ st.ev ∧ ∀ k, Ev.flushed k ∉ l) ∨
    (∃ k buf, PyDict.get? st.buffers k = some buf ∧ st'.ev = .flushed k :: st.ev) ∨
    (∃ k b rows, st'.ev = .flushed k :: .stored k b rows :: st.ev) := by
  cases a with
  | callStart s e =>
    simp only [step] at h
    cases hp : st.pc <;> rw [hp] at h <;> simp only [Option.some.injEq, reduceCtorEq] at h
    subst h
    unfold startRange
    split_ifs
    · exact Or.inl ⟨[_], rfl, by simp⟩
    · exact Or.inl ⟨[_], rfl, by simp⟩
  | callStore dt b rows =>
    simp only [step] at h
    cases hp : st.pc <;> rw [hp] at h <;> simp only [Option.some.injEq, reduceCtorEq] at h
    subst h
    rcases store_cases (cfg := cfg) st dt b rows with h1 | ⟨l, h1⟩ | h1
    · rw [h1] at hd; exact hd.elim
    · rw [h1] at hd; exact (disciplined_append hd).elim
    · have h4 : (openBuffer st (dt, chunkId cfg b)).1.ev = st.ev := by
        unfold openBuffer
        cases PyDict.get? st.buffers (dt, chunkId cfg b) <;> rfl
      rw [h1]
      simp only
      split_ifs
      · rcases ev_beginFlush (stored (openBuffer st (dt, chunkId cfg b)).1
          (openBuffer st (dt, chunkId cfg b)).2 (dt, chunkId cfg b) b rows) (dt, chunkId cfg b) .done
          with h5 | h5
        · refine Or.inl ⟨[.stored (dt, chunkId cfg b) b rows], ?_, by simp⟩
          rw [h5, ← h4]; rfl
        · refine Or.inr (Or.inr ⟨(dt, chunkId cfg b), b, rows, ?_⟩)
          rw [h5, ← h4]; rfl
      · refine Or.inl ⟨[.stored (dt, chunkId cfg b) b rows], ?_, by simp⟩
        rw [← h4]; rfl
  | callFinalize =>
    simp only [step] at h
    cases hp : st.pc <;> rw [hp] at h <;> simp only [Option.some.injEq, reduceCtorEq] at h
    subst h
    unfold finalize
    cases st.range
    · exact Or.inl ⟨[_], rfl, by simp⟩
    · exact Or.inl ⟨[], rfl, by simp⟩
  | prod =>
    simp only [step] at h
    unfold prodStep at h
    cases hp : st.pc with
    | idle => rw [hp] at h; cases h
    | mark t c => rw [hp] at h; cases h; exact Or.inl ⟨[], rfl, by simp⟩
    | put t c =>
      rw [hp] at h
      simp only at h
      split_ifs at h
      cases h; exact Or.inl ⟨[], rfl, by simp⟩
    | resume c =>
      rw [hp] at h
      cases c with
      | done => cases h; exact Or.inl ⟨[], rfl, by simp⟩
      | retry k b rows => exact absurd (by rw [hp]; rfl) (hno k b rows)
      | flushAll ks => cases h; exact Or.inl ⟨[], rfl, by simp⟩
    | flushAll ks =>
      rw [hp] at h
      cases ks with
      | nil => cases h; exact Or.inl ⟨[], rfl, by simp⟩
      | cons k ks =>
        cases h
        unfold beginFlush
        cases hb : PyDict.get? st.buffers k with
        | none => exact Or.inl ⟨[], rfl, by simp⟩
        | some buf => exact Or.inr (Or.inl ⟨k, buf, hb, rfl⟩)
    | wait =>
      rw [hp] at h
      simp only at h
      split_ifs at h with h1
      · cases h; exact Or.inl ⟨[_], rfl, by simp⟩
      · cases h; exact Or.inl ⟨[], rfl, by simp⟩
  | take =>
    simp only [step] at h
    unfold takeStep at h
    cases hq : st.queue with
    | nil => rw [hq] at h; cases h
    | cons t q =>
      rw [hq] at h
      simp only at h
      split_ifs at h
      cases h; exact Or.inl ⟨[], rfl, by simp⟩
  | work i =>
    simp only [step] at h
    unfold workStep at h
    cases hb : st.busy[i]? with
    | none => rw [hb] at h; cases h
    | some x =>
      obtain ⟨ph, t⟩ := x
      rw [hb] at h
      cases ph with
      | got =>
        simp only at h
        cases hpth : pathOf t.key.1 t.info <;> rw [hpth] at h <;> cases h
        exact Or.inl ⟨[], rfl, by simp⟩
      | data =>
        simp only at h
        cases hpth : pathOf t.key.1 t.info <;> rw [hpth] at h <;> cases h
        exact Or.inl ⟨[], rfl, by simp⟩
      | done => cases h; exact Or.inl ⟨[], rfl, by simp⟩
  | fail i =>
    simp only [step] at h
    unfold failStep at h
    cases hb : st.busy[i]? with
    | none => rw [hb] at h; cases h
    | some x =>
      obtain ⟨ph, t⟩ := x
      rw [hb] at h
      cases ph with
      | got => cases h; exact Or.inl ⟨[_], rfl, by simp⟩
      | data => cases h; exact Or.inl ⟨[_], rfl, by simp⟩
      | done => cases h

theorem flushHas_append {l r : List (Ev R)} (hl : ∀ k, Ev.flushed k ∉ l) (h : FlushHas r) :
    FlushHas (l ++ r) := by
  induction l with
  | nil => exact h
  | cons a t ih =>
    have ih := ih fun k hk => hl k (List.mem_cons_of_mem _ hk)
    cases a <;> first | exact ih | exact absurd List.mem_cons_self (hl _)

theorem flushHas_exec {st st' : St R} {acts : List (Act R)} (hs : exec cfg st acts = some st')
    (hd : Disciplined st'.ev) (h : K cfg st) (hfo : FlushOnce st.ev) (hg : Good cfg st)
    (hpc : PcInv cfg st) (hh : FlushHas st.ev) : FlushHas st'.ev ∧ FlushOnce st'.ev := by
  induction acts generalizing st with
  | nil => cases hs; exact ⟨hh, hfo⟩
  | cons a t ih =>
    rw [exec_cons] at hs
    obtain ⟨s1, h1, h2⟩ := Option.bind_eq_some_iff.1 hs
    obtain ⟨l, e⟩ := ev_exec h2
    have hd1 : Disciplined s1.ev := by rw [e] at hd; exact disciplined_append hd
    obtain ⟨k1, f1⟩ := k_step h h1 hd1 hpc (fun _ => hg) hfo
    obtain ⟨g1, p1⟩ := good_step hg hpc h1 f1
    refine ih h2 k1 f1 g1 p1 ?_
    rcases step_flushed h1 h.noRetry hd1 with ⟨l, e1, e2⟩ | ⟨k, buf, e1, e2⟩ | ⟨k, b, rows, e1⟩
    · rw [e1]; exact flushHas_append e2 hh
    · rw [e2]
      refine ⟨?_, hh⟩
      cases hi : buf.info with
      | nil => exact absurd hi (h.bufNe k buf e1)
      | cons i is =>
        obtain ⟨rows, hr⟩ := h.bufSt k buf e1 i (by rw [hi]; exact List.mem_cons_self)
        exact ⟨i.idx, rows, hr⟩
    · rw [e1]
      exact ⟨⟨b, rows, by rw [epoch_cons _ (by simp)]; exact List.mem_cons_self⟩, hh⟩

/-- **C96** (in terms of calls only).  The same for disciplined use in which all batches of a chunk are
stored between one `start_batch_range` and the return of `finalize_batch_range`. -/
theorem C96_disciplined (acts : List (Act R)) {st st' : St R}
    (hex : exec cfg (St.init (fun _ => none) (fun _ => none)) acts = some st) (hd : Disciplined st.ev)
    (ho : OneRound st.ev) (hr : Returns cfg st st') (ls : List Path) (hls : ls.Nodup)
    (hall : ∀ p, p ∈ ls ↔ (st'.metaFile p).isSome) (dt : DT) (rng : Option (ℕ × ℕ)) {g : ℕ}
    (hg : 0 < g) :
    ∃ items, (chunkInfo ⟨st'.dataFile, st'.metaFile, ls⟩ dt rng).mapM
        (loadFile ⟨st'.dataFile, st'.metaFile, ls⟩ rng) = .ok items ∧
      ((loaderPass g items).flatMap readPairs).Perm
        ((storedOf dt st.ev).filter fun e => inRng rng e.1) := by
  obtain ⟨g1, g2⟩ := good_init (cfg := cfg) (fun _ => (none : Option (List R))) (fun _ => none)
  obtain ⟨f1, f2⟩ := flushHas_exec hex hd (k_init _ _) trivial g1 g2 trivial
  exact C96_round_trip acts hex (once_of hd f2 f1 ho) hr ls hls hall dt rng hg

/-! ### Files of an earlier run -/

theorem put_isSome {α : Type} {f : Path → Option α} {p q : Path} {v : α} (h : (f q).isSome) :
    ((put f p v) q).isSome := by
  unfold put
  split_ifs
  · rfl
  · exact h

theorem meta_step {st st' : St R} {a : Act R} (h : step cfg st a = some st') :
    st'.metaFile = st.metaFile ∨ ∃ p info, st'.metaFile = put st.metaFile p info := by
  have hbf : ∀ (s : St R) k c, (beginFlush s k c).metaFile = s.metaFile := by
    intro s k c
    unfold beginFlush
    cases PyDict.get? s.buffers k <;> rfl
  have hap : ∀ (s : St R) k b rows, (append cfg s k b rows).metaFile = s.metaFile := by
    intro s k b rows
    unfold append
    cases PyDict.get? s.buffers k with
    | none => rfl
    | some buf =>
      simp only
      split_ifs
      · rfl
      · rw [hbf]
      · rfl
  cases a with
  | callStart s e =>
    simp only [step] at h
    cases hp : st.pc <;> rw [hp] at h <;> simp only [Option.some.injEq, reduceCtorEq] at h
    subst h
    unfold startRange
    split_ifs <;> exact Or.inl rfl
  | callStore dt b rows =>
    simp only [step] at h
    cases hp : st.pc <;> rw [hp] at h <;> simp only [Option.some.injEq, reduceCtorEq] at h
    subst h
    left
    have h4 : (openBuffer st (dt, chunkId cfg b)).1.metaFile = st.metaFile := by
      unfold openBuffer
      cases PyDict.get? st.buffers (dt, chunkId cfg b) <;> rfl
    unfold store storeIn
    split_ifs
    · exact h4
    · rw [hbf]; exact h4
    · rw [hap]; exact h4
  | callFinalize =>
    simp only [step] at h
    cases hp : st.pc <;> rw [hp] at h <;> simp only [Option.some.injEq, reduceCtorEq] at h
    subst h
    unfold finalize
    cases st.range <;> exact Or.inl rfl
  | prod =>
    simp only [step] at h
    unfold prodStep at h
    cases hp : st.pc with
    | idle => rw [hp] at h; cases h
    | mark t c => rw [hp] at h; cases h; exact Or.inl rfl
    | put t c =>
      rw [hp] at h
      simp only at h
      split_ifs at h
      cases h; exact Or.inl rfl
    | resume c =>
      rw [hp] at h
      cases c with
      | done => cases h; exact Or.inl rfl
      | retry k b rows => cases h; left; rw [hap]
      | flushAll ks => cases h; exact Or.inl rfl
    | flushAll ks =>
      rw [hp] at h
      cases ks with
      | nil => cases h; exact Or.inl rfl
      | cons k ks => cases h; left; rw [hbf]
    | wait =>
      rw [hp] at h
      simp only at h
      split_ifs at h with h1
      · cases h; exact Or.inl rfl
      · cases h; exact Or.inl rfl
  | take =>
    simp only [step] at h
    unfold takeStep at h
    cases hq : st.queue with
    | nil => rw [hq] at h; cases h
    | cons t q =>
      rw [hq] at h
      simp only at h
      split_ifs at h
      cases h; exact Or.inl rfl
  | work i =>
    simp only [step] at h
    unfold workStep at h
    cases hb : st.busy[i]? with
    | none => rw [hb] at h; cases h
    | some x =>
      obtain ⟨ph, t⟩ := x
      rw [hb] at h
      cases ph with
      | got =>
        simp only at h
        cases hpth : pathOf t.key.1 t.info <;> rw [hpth] at h <;> cases h
        exact Or.inl rfl
      | data =>
        simp only at h
        cases hpth : pathOf t.key.1 t.info <;> rw [hpth] at h <;> cases h
        exact Or.inr ⟨_, _, rfl⟩
      | done => cases h; exact Or.inl rfl
  | fail i =>
    simp only [step] at h
    unfold failStep at h
    cases hb : st.busy[i]? with
    | none => rw [hb] at h; cases h
    | some x =>
      obtain ⟨ph, t⟩ := x
      rw [hb] at h
      cases ph with
      | got => cases h; exact Or.inl rfl
      | data => cases h; exact Or.inl rfl
      | done => cases h

/-- **C97** (nothing is removed).  No schedule ever removes a chunk file: whatever was in the directory
when the manager was created is still listed afterwards. -/
theorem C97_never_removed (df : Path → Option (List R)) (mf : Path → Option (List Info))
    (acts : List (Act R)) {st : St R} (hex : exec cfg (St.init df mf) acts = some st) (p : Path)
    (hp : (mf p).isSome) : (st.metaFile p).isSome := by
  have key : ∀ (acts : List (Act R)) (s : St R), exec cfg s acts = some st → (s.metaFile p).isSome →
      (st.metaFile p).isSome := by
    intro acts
    induction acts with
    | nil => intro s h h1; cases h; exact h1
    | cons a t ih =>
      intro s h h1
      rw [exec_cons] at h
      obtain ⟨s1, h2, h3⟩ := Option.bind_eq_some_iff.1 h
      refine ih s1 h3 ?_
      rcases meta_step h2 with h4 | ⟨q, info, h4⟩
      · rw [h4]; exact h1
      · rw [h4]; exact put_isSome h1
  exact key acts _ hex hp

/-- A run that stores the single batch 0 and finalises. -/
def rerunActs (rows : List R) : List (Act R) :=
  [.callStart 0 1, .callStore .gradients 0 rows, .prod, .prod, .prod, .take, .work 0, .work 0, .work 0,
    .callFinalize, .prod]

/-- **C97** (a left-over chunk).  Let the directory hold the gradients of batches 0 and 1 of an earlier
run.  A run over batch 0 alone ends with two files that both list batch 0: a pass of the loader yields
the new rows of batch 0, the old rows of batch 0 and the old rows of batch 1. -/
theorem C97_left_over (hc : 0 < cfg.chunkSize) (hq : 0 < cfg.queueCap) (hw : 0 < cfg.workers)
    (old0 old1 new : List R) (h0 : old0 ≠ []) (h1 : old1 ≠ []) (h2 : new ≠ [])
    (h3 : new.length ≤ cfg.maxRows) :
    let q : Path := ⟨.gradients, 0, 1⟩
    let mf := put (fun _ => none) q
      [⟨0, 0, old0.length⟩, ⟨1, old0.length, old0.length + old1.length⟩]
    let df := put (fun _ => none) q (old0 ++ old1)
    ∃ st st', exec cfg (St.init df mf) (rerunActs new) = some st ∧ Returns cfg st st' ∧
      Disciplined st.ev ∧ OneRound st.ev ∧
      ∀ ls : List Path, ls.Nodup → (∀ r, r ∈ ls ↔ (st'.metaFile r).isSome) →
        ∃ items, (chunkInfo ⟨st'.dataFile, st'.metaFile, ls⟩ .gradients none).mapM
            (loadFile ⟨st'.dataFile, st'.metaFile, ls⟩ none) = .ok items ∧
          ((loaderPass 1 items).flatMap readPairs).Perm [(0, new), (0, old0), (1, old1)] := by
  intro q mf df
  let p : Path := ⟨.gradients, 0, 0⟩
  have hpq : p ≠ q := by simp [p, q]
  have hm : min cfg.chunkSize 1 = 1 := Nat.min_eq_right hc
  refine ⟨{ buffers := [], pending := [], queue := [], busy := [], dataFile := put df p new,
            metaFile := put mf p [⟨0, 0, new.length⟩], range := some (0, 1), pc := .wait,
            ev := [.flushed (.gradients, 0), .stored (.gradients, 0) 0 new, .started 0 1] },
    { buffers := [], pending := [], queue := [], busy := [], dataFile := put df p new,
      metaFile := put mf p [⟨0, 0, new.length⟩], range := none, pc := .idle,
      ev := [.finalized, .flushed (.gradients, 0), .stored (.gradients, 0) 0 new, .started 0 1] },
    ?_, ?_, ?_, ?_, ?_⟩
  · have n4 : ¬ cfg.maxRows < new.length := by omega
    have n5 : ¬ cfg.chunkSize = 0 := by omega
    simp [exec, rerunActs, St.init, step, startRange, store, storeIn, openBuffer, append, beginFlush,
      isComplete, prodStep, takeStep, workStep, setBusy, finalize, chunkId, hm, PyDict.get?, PyDict.set,
      PyDict.erase, PyDict.keys, h2, n4, n5, hq, hw, pathOf, p]
  · exact ⟨by simp [step, prodStep], rfl⟩
  · simp [Disciplined, epochRange, epoch]
  · simp [OneRound, past]
  · intro ls hls hall
    simp only at hall
    have hlsp : ls.Perm [p, q] := by
      refine (List.perm_ext_iff_of_nodup hls (by simp [hpq])).2 ?_
      intro r
      rw [hall r]
      unfold put
      by_cases e1 : r = p
      · simp [e1]
      · by_cases e2 : r = q
        · subst e2; simp [mf, put, e1]
        · simp [mf, put, e1, e2]
    have hl0 : 0 < old0.length := List.length_pos_iff.2 h0
    have hl1 : 0 < old1.length := List.length_pos_iff.2 h1
    have hl2 : 0 < new.length := List.length_pos_iff.2 h2
    have hmp : put mf p [⟨0, 0, new.length⟩] p = some [⟨0, 0, new.length⟩] := by simp [put]
    have hdp : put df p new p = some new := by simp [put]
    have hmq : put mf p [⟨0, 0, new.length⟩] q =
        some [⟨0, 0, old0.length⟩, ⟨1, old0.length, old0.length + old1.length⟩] := by
      simp [put, mf, hpq.symm]
    have hdq : put df p new q = some (old0 ++ old1) := by simp [put, df, hpq.symm]
    have hprop : ∀ r ∈ chunkInfo ⟨put df p new, put mf p [⟨0, 0, new.length⟩], ls⟩ .gradients none,
        ∃ info t, put mf p [⟨0, 0, new.length⟩] r = some info ∧ put df p new r = some t ∧
          Proper info t := by
      intro r hr
      have := List.mem_of_mem_filter (List.mem_of_mem_filter ((chunkInfo_perm _ _ _).mem_iff.1 hr))
      have := hlsp.mem_iff.1 this
      simp only [List.mem_cons, List.not_mem_nil, or_false] at this
      rcases this with rfl | rfl
      · refine ⟨_, _, hmp, hdp, ?_, by simp⟩
        simp; exact hl2
      · refine ⟨_, _, hmq, hdq, ?_, by simp⟩
        simp; exact ⟨hl0, hl1⟩
    obtain ⟨items, e1, e2, e3⟩ := mapM_loads (rng := none) (fs :=
      ⟨put df p new, put mf p [⟨0, 0, new.length⟩], ls⟩) _ hprop
    refine ⟨items, e1, ?_⟩
    have hone : ∀ l : List (Item R), (loaderPass 1 l).flatMap readPairs = l.flatMap readPairs := by
      intro l
      have hb : ∀ b ∈ Verif.batches 1 l, b.length ≤ 1 := by
        intro b hb
        obtain ⟨i, _, rfl⟩ := List.mem_map.1 hb
        simp [Verif.batchAt]
      have key : ∀ bs : List (List (Item R)), (∀ b ∈ bs, b.length ≤ 1) →
          (bs.map collateItems).flatMap readPairs = bs.flatten.flatMap readPairs := by
        intro bs
        induction bs with
        | nil => intro _; rfl
        | cons b t ih =>
          intro h
          rw [List.map_cons, List.flatMap_cons, List.flatten_cons, List.flatMap_append,
            ih fun b hb => h b (List.mem_cons_of_mem _ hb)]
          congr 1
          have hb := h b List.mem_cons_self
          match b, hb with
          | [], _ => rfl
          | [x], _ => simp [collateItems]
          | _ :: _ :: _, hb => simp at hb
      have := key _ hb
      rw [Verif.flatten_batches 1 (by omega)] at this
      exact this
    rw [hone, e3]
    refine ((chunkInfo_perm _ _ _).flatMap_right _).trans ?_
    refine (((hlsp.filter _).filter _).flatMap_right _).trans ?_
    have w1 : wanted ⟨put df p new, put mf p [⟨0, 0, new.length⟩], ls⟩ none p = true := by
      simp [wanted, hmp]
    have w2 : wanted ⟨put df p new, put mf p [⟨0, 0, new.length⟩], ls⟩ none q = true := by
      simp [wanted, hmq]
    have f1 : fileEntries ⟨put df p new, put mf p [⟨0, 0, new.length⟩], ls⟩ p = [(0, new)] := by
      simp [fileEntries, hmp, hdp, entries, slice]
    have f2 : fileEntries ⟨put df p new, put mf p [⟨0, 0, new.length⟩], ls⟩ q =
        [(0, old0), (1, old1)] := by
      simp [fileEntries, hmq, hdq, entries, slice]
    simp [p, q] at w1 w2 f1 f2
    simp [p, q, w1, w2, f1, f2, inRng]

/-- The hypotheses of C96 are met by the interleaved schedule of `exSt`, with two files. -/
example : Once exSt.ev ∧ Disciplined exSt.ev ∧ OneRound exSt.ev ∧
    (∃ st', Returns exCfg exSt st' ∧ ∀ p, p ∈ ([⟨.gradients, 2, 2⟩, ⟨.gradients, 0, 1⟩] : List Path) ↔
      (st'.metaFile p).isSome) ∧
    storedOf .gradients exSt.ev = [(2, [13]), (1, [12]), (0, [10, 11])] := by
  refine ⟨?_, ?_, ?_, ⟨{ exSt with pc := .idle, range := none, ev := .finalized :: exSt.ev },
    ⟨?_, rfl⟩, ?_⟩, ?_⟩
  · simp [exSt, exSt1, Once]
  · simp [exSt, exSt1, Disciplined, epochRange, epoch]
  · simp [exSt, exSt1, OneRound, past]
  · simp [exSt, step, prodStep]
  · intro p
    simp only [exSt, put]
    split_ifs with h1 h2
    · simp [h1]
    · simp [h2]
    · simp [h1, h2]
  · simp [exSt, exSt1, storedOf]

end Verif.Disk
