import Verif.Disk.WriterProps
import Verif.Disk.ReadProps

/-!
# The files are exactly what was stored

An invariant over the whole history of a manager that started in an empty directory, as long as no
chunk is flushed twice and no batch is stored twice.
-/

namespace Verif.Disk

variable {R : Type} {cfg : Cfg}

/-- Over the whole history no chunk is flushed twice and no batch is stored twice. -/
def Once : List (Ev R) → Prop
  | [] => True
  | .flushed k :: r => .flushed k ∉ r ∧ Once r
  | .stored k b _ :: r => (∀ rows, .stored k b rows ∉ r) ∧ Once r
  | _ :: r => Once r

theorem Once.tail {e : Ev R} {r : List (Ev R)} (h : Once (e :: r)) : Once r := by
  cases e <;> first | exact h | exact h.2

theorem Once.append {l r : List (Ev R)} (h : Once (l ++ r)) : Once r := by
  induction l with
  | nil => exact h
  | cons e t ih => exact ih h.tail

theorem epoch_subset (l : List (Ev R)) : ∀ e ∈ epoch l, e ∈ l := by
  induction l with
  | nil => intro e h; cases h
  | cons a t ih =>
    intro e h
    by_cases ha : a = .finalized
    · subst ha; cases h
    · rw [epoch_cons _ ha] at h
      rcases List.mem_cons.1 h with rfl | h
      · exact List.mem_cons_self
      · exact List.mem_cons_of_mem _ (ih e h)

theorem Once.flushOnce {l : List (Ev R)} (h : Once l) : FlushOnce l := by
  induction l with
  | nil => trivial
  | cons e t ih =>
    cases e with
    | flushed k => exact ⟨fun h1 => h.1 (epoch_subset _ _ h1), ih h.2⟩
    | _ => exact ih h.tail

/-- A chunk whose entries are stored batches, each once and with its rows. -/
structure Exact (cfg : Cfg) (E : List (Ev R)) (k : Key) (info : List Info) (t : List R) : Prop where
  fits : ∀ i ∈ info, i.start < i.stop ∧ i.stop ≤ t.length
  nd : (info.map Info.idx).Nodup
  key : Keyed cfg k info
  st : ∀ i ∈ info, Ev.stored k i.idx (slice t i.start i.stop) ∈ E
  tight : info.flatMap (fun i => slice t i.start i.stop) = t

theorem Exact.mono {E : List (Ev R)} {k : Key} {info : List Info} {t : List R}
    (h : Exact cfg E k info t) (e : Ev R) : Exact cfg (e :: E) k info t :=
  ⟨h.fits, h.nd, h.key, fun i hi => List.mem_cons_of_mem _ (h.st i hi), h.tight⟩

theorem Exact.empty (E : List (Ev R)) (k : Key) : Exact cfg E k [] [] :=
  ⟨by simp, by simp, (by intro i h; cases h), by simp, rfl⟩

theorem slice_append_of_le {t : List R} {s e : ℕ} (h : e ≤ t.length) (more : List R) :
    slice (t ++ more) s e = slice t s e := by
  by_cases hs : s ≤ e
  · rw [slice, slice, List.drop_append_of_le_length (by omega),
      List.take_append_of_le_length (by rw [List.length_drop]; omega)]
  · rw [slice, slice, Nat.sub_eq_zero_of_le (by omega), List.take_zero, List.take_zero]

theorem slice_new (t rows : List R) : slice (t ++ rows) t.length (t.length + rows.length) = rows := by
  rw [slice, List.drop_left, Nat.add_sub_cancel_left, List.take_length]

theorem Exact.store {E : List (Ev R)} {k : Key} {info : List Info} {t : List R}
    (h : Exact cfg E k info t) {b : ℕ} {rows : List R} (hr : rows.length ≠ 0)
    (hb : b / cfg.chunkSize = k.2) (hn : ∀ rows, Ev.stored k b rows ∉ E) :
    Exact cfg (.stored k b rows :: E) k (info ++ [⟨b, t.length, t.length + rows.length⟩])
      (t ++ rows) := by
  refine ⟨?_, ?_, ?_, ?_, ?_⟩
  · intro i hi
    rw [List.length_append]
    rcases List.mem_append.1 hi with h1 | h1
    · have := h.fits i h1; exact ⟨this.1, by omega⟩
    · rw [List.mem_singleton] at h1; subst h1; exact ⟨by simp only; omega, le_refl _⟩
  · rw [List.map_append, List.nodup_append]
    refine ⟨h.nd, by simp, ?_⟩
    intro x hx y hy
    obtain ⟨i, hi, rfl⟩ := List.mem_map.1 hx
    rw [List.map_singleton, List.mem_singleton] at hy
    subst hy
    intro he
    exact hn _ (he ▸ h.st i hi)
  · intro i hi
    rcases List.mem_append.1 hi with h1 | h1
    · exact h.key i h1
    · rw [List.mem_singleton] at h1; subst h1; exact hb
  · intro i hi
    rcases List.mem_append.1 hi with h1 | h1
    · rw [slice_append_of_le (h.fits i h1).2]
      exact List.mem_cons_of_mem _ (h.st i h1)
    · rw [List.mem_singleton] at h1; subst h1
      rw [slice_new]; exact List.mem_cons_self
  · rw [List.flatMap_append, List.flatMap_cons, List.flatMap_nil, List.append_nil, slice_new]
    congr 1
    conv_rhs => rw [← h.tight]
    exact List.flatMap_congr fun i hi => slice_append_of_le (h.fits i hi).2 rows

/-- The invariant. -/
structure Ex (cfg : Cfg) (E : List (Ev R)) (bufs : List (Key × Buffer R)) (o : List (Stage × Task R))
    (df : Path → Option (List R)) (mf : Path → Option (List Info)) : Prop where
  bufX : ∀ k buf, PyDict.get? bufs k = some buf → Exact cfg E k buf.info buf.tensor
  outX : ∀ x ∈ o, Exact cfg E x.2.key x.2.info x.2.tensor
  outF : ∀ x ∈ o, Ev.flushed x.2.key ∈ E
  file : ∀ p info, mf p = some info → ∃ t k, df p = some t ∧ pathOf k.1 info = some p ∧
    Exact cfg E k info t ∧ (∀ x ∈ o, x.2.key = k → x.1 = .done) ∧ Ev.flushed k ∈ E
  uniq : ∀ p q info info', mf p = some info → mf q = some info' → p.dt = q.dt →
    p.lo / cfg.chunkSize = q.lo / cfg.chunkSize → p = q
  keep : ∀ k b rows, Ev.stored k b rows ∈ E →
    (∃ buf, PyDict.get? bufs k = some buf ∧ Has buf.info buf.tensor b rows) ∨
    (∃ x ∈ o, x.2.key = k ∧ Has x.2.info x.2.tensor b rows) ∨ Ev.failed k ∈ E ∨
    Written cfg df mf k b rows
  keyed : ∀ k b rows, Ev.stored k b rows ∈ E → b / cfg.chunkSize = k.2

variable {E : List (Ev R)} {bufs : List (Key × Buffer R)} {pend : List Key}
  {o o' : List (Stage × Task R)} {df : Path → Option (List R)} {mf : Path → Option (List Info)}

theorem Ex.init : Ex cfg ([] : List (Ev R)) [] [] (fun _ => none) (fun _ => none) where
  bufX := by intro k buf h; cases h
  outX := by simp
  outF := by simp
  file := by intro p info h; cases h
  uniq := by intro p q i j h; cases h
  keep := by simp
  keyed := by simp

theorem Ex.perm (h : Ex cfg E bufs o df mf) (hp : o.Perm o') : Ex cfg E bufs o' df mf := by
  have hm : ∀ x, x ∈ o' ↔ x ∈ o := fun x => hp.symm.mem_iff
  refine ⟨h.bufX, fun x hx => h.outX x ((hm x).1 hx), fun x hx => h.outF x ((hm x).1 hx), ?_, h.uniq,
    ?_, h.keyed⟩
  · intro p info hp
    obtain ⟨t, k, h1, h2, h3, h4, h5⟩ := h.file p info hp
    exact ⟨t, k, h1, h2, h3, fun x hx => h4 x ((hm x).1 hx), h5⟩
  · intro k b rows hs
    rcases h.keep k b rows hs with h1 | ⟨x, h1, h2⟩ | h1
    · exact Or.inl h1
    · exact Or.inr (Or.inl ⟨x, (hm x).2 h1, h2⟩)
    · exact Or.inr (Or.inr h1)

/-- Any event but a store. -/
theorem Ex.event (h : Ex cfg E bufs o df mf) {e : Ev R} (he : ∀ k b rows, e ≠ .stored k b rows) :
    Ex cfg (e :: E) bufs o df mf := by
  have hs' : ∀ k b rows, Ev.stored k b rows ∈ e :: E → Ev.stored k b rows ∈ E := by
    intro k b rows hs
    rcases List.mem_cons.1 hs with h1 | h1
    · exact absurd h1.symm (he k b rows)
    · exact h1
  refine ⟨fun k buf hb => (h.bufX k buf hb).mono e, fun x hx => (h.outX x hx).mono e,
    fun x hx => List.mem_cons_of_mem _ (h.outF x hx), ?_, h.uniq, ?_,
    fun k b rows hs => h.keyed k b rows (hs' k b rows hs)⟩
  · intro p info hp
    obtain ⟨t, k, h1, h2, h3, h4, h5⟩ := h.file p info hp
    exact ⟨t, k, h1, h2, h3.mono e, h4, List.mem_cons_of_mem _ h5⟩
  · intro k b rows hs
    rcases h.keep k b rows (hs' k b rows hs) with h1 | h1 | h1 | h1
    · exact Or.inl h1
    · exact Or.inr (Or.inl h1)
    · exact Or.inr (Or.inr (Or.inl (List.mem_cons_of_mem _ h1)))
    · exact Or.inr (Or.inr (Or.inr h1))

theorem Ex.flush (h : Ex cfg E bufs o df mf) {k : Key} {buf : Buffer R}
    (hb : PyDict.get? bufs k = some buf) (hk : Ev.flushed k ∉ E) :
    Ex cfg (.flushed k :: E) (PyDict.erase k bufs) ((.fresh, ⟨k, buf.tensor, buf.info⟩) :: o) df mf := by
  have h' := h.event (e := .flushed k) (by simp)
  refine ⟨?_, ?_, ?_, ?_, h'.uniq, ?_, h'.keyed⟩
  · intro k' buf' hb'
    rw [PyDict.get?_erase] at hb'
    split_ifs at hb'
    exact h'.bufX k' buf' hb'
  · intro x hx
    rcases List.mem_cons.1 hx with rfl | h1
    · exact h'.bufX k buf hb
    · exact h'.outX x h1
  · intro x hx
    rcases List.mem_cons.1 hx with rfl | h1
    · exact List.mem_cons_self
    · exact h'.outF x h1
  · intro p info hp
    obtain ⟨t, k', h1, h2, h3, h4, h5⟩ := h.file p info hp
    refine ⟨t, k', h1, h2, h3.mono _, ?_, List.mem_cons_of_mem _ h5⟩
    intro x hx hxk
    rcases List.mem_cons.1 hx with rfl | h6
    · have hxk : k = k' := hxk
      subst hxk
      exact absurd h5 hk
    · exact h4 x h6 hxk
  · intro k' b rows hs
    rcases h'.keep k' b rows hs with ⟨buf', h1, h2⟩ | ⟨x, h1, h2⟩ | h1
    · by_cases hkk : k' = k
      · subst hkk
        rw [hb] at h1
        cases h1
        exact Or.inr (Or.inl ⟨_, List.mem_cons_self, rfl, h2⟩)
      · exact Or.inl ⟨buf', by rw [PyDict.get?_erase, if_neg hkk]; exact h1, h2⟩
    · exact Or.inr (Or.inl ⟨x, List.mem_cons_of_mem _ h1, h2⟩)
    · exact Or.inr (Or.inr h1)

theorem Ex.newBuffer (h : Ex cfg E bufs o df mf) {k : Key} (hk : PyDict.get? bufs k = none) :
    Ex cfg E (PyDict.set k ⟨[], []⟩ bufs) o df mf := by
  refine { h with bufX := ?_, keep := ?_ }
  · intro k' buf hb
    rw [PyDict.get?_set] at hb
    split_ifs at hb
    · cases hb; exact Exact.empty _ _
    · exact h.bufX k' buf hb
  · intro k' b rows hs
    rcases h.keep k' b rows hs with ⟨buf, h1, h2⟩ | h1
    · refine Or.inl ⟨buf, ?_, h2⟩
      rw [PyDict.get?_set, if_neg]
      · exact h1
      · rintro rfl; rw [hk] at h1; cases h1
    · exact Or.inr h1

theorem Ex.store (h : Ex cfg E bufs o df mf) {k : Key} {buf : Buffer R}
    (hb : PyDict.get? bufs k = some buf) {b : ℕ} (hbk : b / cfg.chunkSize = k.2) {rows : List R}
    (hr : rows.length ≠ 0) (hn : ∀ rows, Ev.stored k b rows ∉ E) :
    Ex cfg (.stored k b rows :: E) (PyDict.set k ⟨buf.tensor ++ rows,
      buf.info ++ [⟨b, buf.tensor.length, buf.tensor.length + rows.length⟩]⟩ bufs) o df mf := by
  refine ⟨?_, fun x hx => (h.outX x hx).mono _, fun x hx => List.mem_cons_of_mem _ (h.outF x hx), ?_,
    h.uniq, ?_, ?_⟩
  · intro k' buf' hb'
    rw [PyDict.get?_set] at hb'
    by_cases h1 : k' = k
    · rw [if_pos h1] at hb'
      cases hb'
      subst h1
      exact (h.bufX k' buf hb).store hr hbk hn
    · rw [if_neg h1] at hb'; exact (h.bufX k' buf' hb').mono _
  · intro p info hp
    obtain ⟨t, k', h1, h2, h3, h4, h5⟩ := h.file p info hp
    exact ⟨t, k', h1, h2, h3.mono _, h4, List.mem_cons_of_mem _ h5⟩
  · intro k' b' rows' hs
    rcases List.mem_cons.1 hs with h1 | h1
    · cases h1
      exact Or.inl ⟨_, by rw [PyDict.get?_set, if_pos rfl], Has.new _ _ _ _⟩
    · rcases h.keep k' b' rows' h1 with ⟨buf', h2, h3⟩ | h2 | h2 | h2
      · by_cases h4 : k' = k
        · subst h4
          rw [hb] at h2
          cases h2
          exact Or.inl ⟨_, by rw [PyDict.get?_set, if_pos rfl], h3.append _ _⟩
        · exact Or.inl ⟨buf', by rw [PyDict.get?_set, if_neg h4]; exact h2, h3⟩
      · exact Or.inr (Or.inl h2)
      · exact Or.inr (Or.inr (Or.inl (List.mem_cons_of_mem _ h2)))
      · exact Or.inr (Or.inr (Or.inr h2))
  · intro k' b' rows' hs
    rcases List.mem_cons.1 hs with h1 | h1
    · cases h1; exact hbk
    · exact h.keyed k' b' rows' h1

/-- A later stage that is not `done`, with the same files. -/
theorem Ex.stage {s s' : Stage} {t : Task R} (h : Ex cfg E bufs ((s, t) :: o) df mf) (hs : s ≠ .done) :
    Ex cfg E bufs ((s', t) :: o) df mf := by
  have hm : ∀ x ∈ (s', t) :: o, ∃ y ∈ (s, t) :: o, y.2 = x.2 := by
    intro x hx
    rcases List.mem_cons.1 hx with rfl | h1
    · exact ⟨_, List.mem_cons_self, rfl⟩
    · exact ⟨x, List.mem_cons_of_mem _ h1, rfl⟩
  refine ⟨h.bufX, ?_, ?_, ?_, h.uniq, ?_, h.keyed⟩
  · intro x hx
    obtain ⟨y, hy, he⟩ := hm x hx
    rw [← he]; exact h.outX y hy
  · intro x hx
    obtain ⟨y, hy, he⟩ := hm x hx
    rw [← he]; exact h.outF y hy
  · intro p info hp
    obtain ⟨t', k, h1, h2, h3, h4, h5⟩ := h.file p info hp
    refine ⟨t', k, h1, h2, h3, ?_, h5⟩
    intro x hx hk
    rcases List.mem_cons.1 hx with rfl | h6
    · exact absurd (h4 (s, t) List.mem_cons_self hk) hs
    · exact h4 x (List.mem_cons_of_mem _ h6) hk
  · intro k b rows hst
    rcases h.keep k b rows hst with h1 | ⟨x, h1, h2, h3⟩ | h1
    · exact Or.inl h1
    · rcases List.mem_cons.1 h1 with rfl | h1
      · exact Or.inr (Or.inl ⟨_, List.mem_cons_self, h2, h3⟩)
      · exact Or.inr (Or.inl ⟨x, List.mem_cons_of_mem _ h1, h2, h3⟩)
    · exact Or.inr (Or.inr h1)

/-- Files of a chunk whose task is not yet done do not exist. -/
theorem Ex.no_file {s : Stage} {t : Task R} (h : Ex cfg E bufs ((s, t) :: o) df mf) (hs : s ≠ .done)
    {p : Path} (hp : p.dt = t.key.1 ∧ p.lo / cfg.chunkSize = t.key.2) : mf p = none := by
  cases hm : mf p with
  | none => rfl
  | some info =>
    obtain ⟨t', k, h1, h2, h3, h4, h5⟩ := h.file p info hm
    have := pathOf_key h2 h3.key
    have hk : t.key = k := Prod.ext (hp.1.symm.trans this.1) (hp.2.symm.trans this.2)
    exact absurd (h4 (s, t) List.mem_cons_self hk) hs

/-- The data file of a task is written. -/
theorem Ex.data {s : Stage} {t : Task R} (h : Ex cfg E bufs ((s, t) :: o) df mf) (hs : s ≠ .done)
    {p : Path} (hp : pathOf t.key.1 t.info = some p) :
    Ex cfg E bufs ((.data, t) :: o) (put df p t.tensor) mf := by
  have hkey := pathOf_key hp (h.outX _ List.mem_cons_self).key
  have hno := h.no_file hs hkey
  have h' := h.stage (s' := .data) hs
  have hput : ∀ q info, mf q = some info → put df p t.tensor q = df q := by
    intro q info hq
    unfold put
    rw [if_neg]
    rintro rfl; rw [hno] at hq; cases hq
  refine ⟨h'.bufX, h'.outX, h'.outF, ?_, h'.uniq, ?_, h'.keyed⟩
  · intro q info hq
    obtain ⟨t', k, h1, h2, h3, h4, h5⟩ := h'.file q info hq
    exact ⟨t', k, by rw [hput q info hq]; exact h1, h2, h3, h4, h5⟩
  · intro k b rows hst
    rcases h'.keep k b rows hst with h1 | h1 | h1 | ⟨q, info, t', e1, e2, e3, e4, e5⟩
    · exact Or.inl h1
    · exact Or.inr (Or.inl h1)
    · exact Or.inr (Or.inr (Or.inl h1))
    · exact Or.inr (Or.inr (Or.inr ⟨q, info, t', e1, e2, e3, by rw [hput q info e3]; exact e4, e5⟩))

/-- The metadata file of a task is written. -/
theorem Ex.meta' {t : Task R} (h : Ex cfg E bufs ((.data, t) :: o) df mf) (hd : DataOk df t)
    (hnd : t.key ∉ okeys o) {p : Path} (hp : pathOf t.key.1 t.info = some p) :
    Ex cfg E bufs ((.done, t) :: o) df (put mf p t.info) := by
  have hX := h.outX _ List.mem_cons_self
  have hkey := pathOf_key hp hX.key
  have h' := h.stage (s' := .done) (by simp)
  obtain ⟨p', hp', hdf⟩ := hd
  rw [hp] at hp'
  cases hp'
  have hno : ∀ q : Path, (q.dt = t.key.1 ∧ q.lo / cfg.chunkSize = t.key.2) → mf q = none :=
    fun q hq => h.no_file (by simp) hq
  refine ⟨h'.bufX, h'.outX, h'.outF, ?_, ?_, ?_, h'.keyed⟩
  · intro q info hq
    unfold put at hq
    split_ifs at hq with hqp
    · cases hq
      subst hqp
      refine ⟨t.tensor, t.key, hdf, hp, hX, ?_, h.outF _ List.mem_cons_self⟩
      intro x hx hk
      rcases List.mem_cons.1 hx with rfl | h1
      · rfl
      · exact absurd (List.mem_map.2 ⟨x, h1, hk⟩) hnd
    · obtain ⟨t', k, h1, h2, h3, h4, h5⟩ := h'.file q info hq
      exact ⟨t', k, h1, h2, h3, h4, h5⟩
  · intro q q' info info' hq hq' hdt hlo
    unfold put at hq hq'
    split_ifs at hq hq' with c1 c2 c2
    · rw [c1, c2]
    · subst c1
      rw [hno q' ⟨hdt.symm.trans hkey.1, hlo.symm.trans hkey.2⟩] at hq'; cases hq'
    · subst c2
      rw [hno q ⟨hdt.trans hkey.1, hlo.trans hkey.2⟩] at hq; cases hq
    · exact h'.uniq q q' info info' hq hq' hdt hlo
  · intro k b rows hst
    rcases h'.keep k b rows hst with h1 | h1 | h1 | ⟨q, info, t', e1, e2, e3, e4, e5⟩
    · exact Or.inl h1
    · exact Or.inr (Or.inl h1)
    · exact Or.inr (Or.inr (Or.inl h1))
    · refine Or.inr (Or.inr (Or.inr ⟨q, info, t', e1, e2, ?_, e4, e5⟩))
      unfold put
      rw [if_neg]
      · exact e3
      · rintro rfl; rw [hno _ hkey] at e3; cases e3

/-- A writer is done with a task. -/
theorem Ex.discard {t : Task R} (h : Ex cfg E bufs ((.done, t) :: o) df mf) (hf : FileOk df mf t) :
    Ex cfg E bufs o df mf := by
  refine ⟨h.bufX, fun x hx => h.outX x (List.mem_cons_of_mem _ hx),
    fun x hx => h.outF x (List.mem_cons_of_mem _ hx), ?_, h.uniq, ?_, h.keyed⟩
  · intro p info hp
    obtain ⟨t', k, h1, h2, h3, h4, h5⟩ := h.file p info hp
    exact ⟨t', k, h1, h2, h3, fun x hx => h4 x (List.mem_cons_of_mem _ hx), h5⟩
  · intro k b rows hst
    rcases h.keep k b rows hst with h1 | ⟨x, h1, h2, h3⟩ | h1
    · exact Or.inl h1
    · rcases List.mem_cons.1 h1 with rfl | h1
      · have h2 : t.key = k := h2
        subst h2
        obtain ⟨p, e1, e2, e3⟩ := hf
        have := pathOf_key e1 (h.outX _ List.mem_cons_self).key
        exact Or.inr (Or.inr (Or.inr ⟨p, _, _, this.1, this.2, e3, e2, h3⟩))
      · exact Or.inr (Or.inl ⟨x, h1, h2, h3⟩)
    · exact Or.inr (Or.inr h1)

/-- A write raises. -/
theorem Ex.fail {s : Stage} {t : Task R} (h : Ex cfg E bufs ((s, t) :: o) df mf) :
    Ex cfg (.failed t.key :: E) bufs o df mf := by
  have h' := h.event (e := .failed t.key) (by simp)
  refine ⟨h'.bufX, fun x hx => h'.outX x (List.mem_cons_of_mem _ hx),
    fun x hx => h'.outF x (List.mem_cons_of_mem _ hx), ?_, h'.uniq, ?_, h'.keyed⟩
  · intro p info hp
    obtain ⟨t', k, h1, h2, h3, h4, h5⟩ := h'.file p info hp
    exact ⟨t', k, h1, h2, h3, fun x hx => h4 x (List.mem_cons_of_mem _ hx), h5⟩
  · intro k b rows hst
    rcases h'.keep k b rows hst with h1 | ⟨x, h1, h2, h3⟩ | h1
    · exact Or.inl h1
    · rcases List.mem_cons.1 h1 with rfl | h1
      · have h2 : t.key = k := h2
        subst h2
        exact Or.inr (Or.inr (Or.inl List.mem_cons_self))
      · exact Or.inr (Or.inl ⟨x, h1, h2, h3⟩)
    · exact Or.inr (Or.inr h1)

/-! ### Steps -/

/-- The invariant of a state. -/
def GoodX (cfg : Cfg) (st : St R) : Prop :=
  Ex cfg st.ev st.buffers (out st) st.dataFile st.metaFile

theorem goodX_beginFlush {st : St R} (h : GoodX cfg st) (hpc : pcOut st.pc = []) (k : Key) (c : Cont R)
    (hf : Once (beginFlush st k c).ev) : GoodX cfg (beginFlush st k c) := by
  unfold GoodX out at h ⊢
  rw [hpc] at h
  unfold beginFlush at hf ⊢
  cases hb : PyDict.get? st.buffers k with
  | none => rw [hb] at hf; exact h
  | some buf =>
    rw [hb] at hf
    exact h.flush hb hf.1

theorem once_beginFlush {st : St R} {k : Key} {c : Cont R}
    (h : Once (beginFlush st k c).ev) : Once st.ev := by
  rcases ev_beginFlush st k c with h1 | h1
  · rw [h1] at h; exact h
  · rw [h1] at h; exact h.tail

theorem goodX_append {st : St R} (h : GoodX cfg st) (hpc : pcOut st.pc = []) {k : Key} {b : ℕ}
    (hbk : b / cfg.chunkSize = k.2) {rows : List R} (hr : rows.length ≠ 0)
    (hf : Once (append cfg st k b rows).ev) : GoodX cfg (append cfg st k b rows) := by
  unfold GoodX out at h
  rw [hpc] at h
  unfold append at hf ⊢
  cases hb : PyDict.get? st.buffers k with
  | none => exact h.event (e := .raised .keyError) (by simp)
  | some buf =>
    rw [hb] at hf
    simp only at hf ⊢
    split_ifs at hf ⊢ with h1 h2
    · exact h.event (e := .raised .runtimeError) (by simp)
    · refine goodX_beginFlush ?_ rfl _ _ hf
      exact h.store hb hbk hr (once_beginFlush hf).1
    · exact h.store hb hbk hr hf.1

/-- The rows of a store call continued after an overflow are not empty. -/
def RetryNe (st : St R) : Prop := ∀ k b rows, pcCont st.pc = some (.retry k b rows) → rows.length ≠ 0

theorem retry_beginFlush {st : St R} (k : Key) {c : Cont R}
    (h : ∀ k' b rows, c = .retry k' b rows → rows.length ≠ 0) : RetryNe (beginFlush st k c) := by
  unfold beginFlush
  cases PyDict.get? st.buffers k <;>
  · intro k' b rows he
    simp only [pcCont, Option.some.injEq] at he
    exact h k' b rows he

theorem retry_append (st : St R) (k : Key) (b : ℕ) (rows : List R) :
    RetryNe (append cfg st k b rows) := by
  unfold append
  cases PyDict.get? st.buffers k with
  | none => intro k' b rows he; cases he
  | some buf =>
    simp only
    split_ifs
    · intro k' b rows he; cases he
    · exact retry_beginFlush _ (by simp)
    · intro k' b rows he; cases he

theorem goodX_store {st : St R} (h : GoodX cfg st) (hpc : st.pc = .idle) (dt : DT) (b : ℕ)
    (rows : List R) (hf : Once (store cfg st dt b rows).ev) :
    GoodX cfg (store cfg st dt b rows) ∧ RetryNe (store cfg st dt b rows) := by
  have g : GoodX cfg (openBuffer st (dt, chunkId cfg b)).1 ∧
      (openBuffer st (dt, chunkId cfg b)).1.pc = st.pc := by
    unfold openBuffer
    cases hb : PyDict.get? st.buffers (dt, chunkId cfg b) with
    | none => exact ⟨Ex.newBuffer h hb, rfl⟩
    | some buf => exact ⟨h, rfl⟩
  obtain ⟨g1, g3⟩ := g
  unfold store storeIn at hf ⊢
  generalize (openBuffer st (dt, chunkId cfg b)).1 = st1 at *
  generalize (openBuffer st (dt, chunkId cfg b)).2 = buf at *
  rw [hpc] at g3
  split_ifs at hf ⊢ with h1 h2
  · refine ⟨Ex.event (e := .storedEmpty _ _) g1 (by simp), ?_⟩
    intro k b rows he
    simp only [g3] at he
    cases he
  · have g1' : GoodX cfg { st1 with ev := .overflow (dt, chunkId cfg b) :: st1.ev } :=
      Ex.event (e := .overflow _) g1 (by simp)
    refine ⟨goodX_beginFlush g1' (by show pcOut st1.pc = []; rw [g3]; rfl) _ _ hf, ?_⟩
    refine retry_beginFlush _ ?_
    intro k' b' rows' he
    cases he
    exact h1
  · exact ⟨goodX_append g1 (by rw [g3]; rfl) rfl h1 hf, retry_append _ _ _ _⟩

/-- Every step keeps the invariant. -/
theorem goodX_step {st st' : St R} {a : Act R} (h : GoodX cfg st) (hg : Good cfg st)
    (hpc : PcInv cfg st) (hne : RetryNe st) (hs : step cfg st a = some st') (hf : Once st'.ev) :
    GoodX cfg st' ∧ RetryNe st' := by
  cases a with
  | callStart s e =>
    simp only [step] at hs
    cases hp : st.pc <;> rw [hp] at hs <;> simp only [Option.some.injEq, reduceCtorEq] at hs
    subst hs
    unfold startRange
    split_ifs
    · exact ⟨Ex.event (e := .raised .valueError) h (by simp), hne⟩
    · exact ⟨Ex.event (e := .started s e) h (by simp), hne⟩
  | callStore dt b rows =>
    simp only [step] at hs
    cases hp : st.pc <;> rw [hp] at hs <;> simp only [Option.some.injEq, reduceCtorEq] at hs
    subst hs
    exact goodX_store h hp dt b rows hf
  | callFinalize =>
    simp only [step] at hs
    cases hp : st.pc <;> rw [hp] at hs <;> simp only [Option.some.injEq, reduceCtorEq] at hs
    subst hs
    unfold finalize
    cases st.range with
    | none => exact ⟨Ex.event (e := .skipped) h (by simp), hne⟩
    | some r =>
      refine ⟨?_, fun k b rows he => by cases he⟩
      unfold GoodX out at h ⊢
      rw [hp] at h
      exact h
  | prod =>
    simp only [step] at hs
    unfold prodStep at hs
    cases hp : st.pc with
    | idle => rw [hp] at hs; cases hs
    | mark t c =>
      rw [hp] at hs
      cases hs
      refine ⟨?_, fun k b rows he => hne k b rows (by rw [hp]; exact he)⟩
      unfold GoodX out at h ⊢
      rw [hp] at h
      exact h.stage (s' := .marked) (by simp)
    | put t c =>
      rw [hp] at hs
      simp only at hs
      split_ifs at hs
      cases hs
      refine ⟨?_, fun k b rows he => hne k b rows (by rw [hp]; exact he)⟩
      unfold GoodX out at h ⊢
      rw [hp] at h
      refine h.perm ?_
      show (((Stage.marked, t) :: st.queue.map _) ++ _).Perm ((st.queue ++ [t]).map _ ++ _)
      rw [List.map_append]
      exact (List.perm_append_comm (l₁ := [(Stage.marked, t)])).append_right _
    | resume c =>
      rw [hp] at hs
      cases c with
      | done =>
        cases hs
        refine ⟨?_, fun k b rows he => by cases he⟩
        unfold GoodX out at h ⊢
        rw [hp] at h
        exact h
      | retry k b rows =>
        cases hs
        obtain ⟨h1, h2⟩ := hpc (.retry k b rows) (by rw [hp]; rfl)
        refine ⟨goodX_append ?_ rfl h2 (hne k b rows (by rw [hp]; rfl)) hf, retry_append _ _ _ _⟩
        unfold GoodX out at h ⊢
        rw [hp] at h
        exact Ex.newBuffer h h1
      | flushAll ks =>
        cases hs
        refine ⟨?_, fun k b rows he => by cases he⟩
        unfold GoodX out at h ⊢
        rw [hp] at h
        exact h
    | flushAll ks =>
      rw [hp] at hs
      cases ks with
      | nil =>
        cases hs
        refine ⟨?_, fun k b rows he => by cases he⟩
        unfold GoodX out at h ⊢
        rw [hp] at h
        exact h
      | cons k ks =>
        cases hs
        exact ⟨goodX_beginFlush h (by rw [hp]; rfl) _ _ hf, retry_beginFlush _ (by simp)⟩
    | wait =>
      rw [hp] at hs
      simp only at hs
      split_ifs at hs with h1
      · cases hs
        refine ⟨?_, fun k b rows he => by cases he⟩
        unfold GoodX out at h ⊢
        rw [hp] at h
        exact h.event (e := .finalized) (by simp)
      · cases hs
        exact ⟨h, hne⟩
  | take =>
    simp only [step] at hs
    unfold takeStep at hs
    cases hq : st.queue with
    | nil => rw [hq] at hs; cases hs
    | cons t q =>
      rw [hq] at hs
      simp only at hs
      split_ifs at hs
      cases hs
      refine ⟨?_, hne⟩
      unfold GoodX out at h ⊢
      rw [hq] at h
      refine h.perm ?_
      show (pcOut st.pc ++ (_ :: q.map _) ++ st.busy.map _).Perm
        (pcOut st.pc ++ q.map _ ++ (st.busy ++ [(Phase.got, t)]).map _)
      rw [List.map_append, List.append_assoc, List.append_assoc]
      refine List.Perm.append_left _ ?_
      rw [← List.append_assoc]
      exact (List.perm_append_comm (l₁ := [(Stage.marked, t)]))
  | work i =>
    simp only [step] at hs
    unfold workStep at hs
    cases hb : st.busy[i]? with
    | none => rw [hb] at hs; cases hs
    | some x =>
      obtain ⟨ph, t⟩ := x
      rw [hb] at hs
      have h' := Ex.perm h (out_front hb)
      have g' := Inv.perm hg (out_front hb)
      cases ph with
      | got =>
        simp only at hs
        cases hpth : pathOf t.key.1 t.info with
        | none => rw [hpth] at hs; cases hs
        | some p =>
          rw [hpth] at hs
          cases hs
          exact ⟨(h'.data (by simp [Phase.stage]) hpth).perm (out_set (y := (.data, t)) hb), hne⟩
      | data =>
        simp only at hs
        cases hpth : pathOf t.key.1 t.info with
        | none => rw [hpth] at hs; cases hs
        | some p =>
          rw [hpth] at hs
          cases hs
          exact ⟨(h'.meta' (g'.dataOk _ List.mem_cons_self rfl) (List.nodup_cons.1 g'.nd).1 hpth).perm
            (out_set (y := (.done, t)) hb), hne⟩
      | done =>
        cases hs
        exact ⟨h'.discard (g'.fileOk _ List.mem_cons_self rfl), hne⟩
  | fail i =>
    simp only [step] at hs
    unfold failStep at hs
    cases hb : st.busy[i]? with
    | none => rw [hb] at hs; cases hs
    | some x =>
      obtain ⟨ph, t⟩ := x
      rw [hb] at hs
      have h' := Ex.perm h (out_front hb)
      cases ph with
      | got => cases hs; exact ⟨h'.fail, hne⟩
      | data => cases hs; exact ⟨h'.fail, hne⟩
      | done => cases hs

theorem goodX_exec {st st' : St R} {acts : List (Act R)} (h : GoodX cfg st) (hg : Good cfg st)
    (hpc : PcInv cfg st) (hne : RetryNe st) (hs : exec cfg st acts = some st') (hf : Once st'.ev)
    (hfail : ∀ k, Ev.failed k ∈ st.ev → Ev.failed k ∈ epoch st.ev) :
    GoodX cfg st' ∧ Good cfg st' ∧ PcInv cfg st' ∧
      ∀ k, Ev.failed k ∈ st'.ev → Ev.failed k ∈ epoch st'.ev := by
  induction acts generalizing st with
  | nil => cases hs; exact ⟨h, hg, hpc, hfail⟩
  | cons a t ih =>
    rw [exec_cons] at hs
    obtain ⟨s1, h1, h2⟩ := Option.bind_eq_some_iff.1 hs
    obtain ⟨l, hl⟩ := ev_exec h2
    have hf1 : Once s1.ev := Once.append (l := l) (by rw [← hl]; exact hf)
    obtain ⟨e1, e2⟩ := goodX_step h hg hpc hne h1 hf1
    obtain ⟨e3, e4⟩ := good_step hg hpc h1 hf1.flushOnce
    refine ih e1 e3 e4 e2 h2 ?_
    intro k hk
    rcases step_finalized h1 with ⟨l', h3, h4⟩ | ⟨h3, h4, -, h5⟩
    · rw [h3] at hk ⊢
      rw [epoch_append h4]
      rcases List.mem_append.1 hk with h6 | h6
      · exact List.mem_append_left _ h6
      · exact List.mem_append_right _ (hfail k h6)
    · rw [h5] at hk
      have hk' : Ev.failed k ∈ st.ev := by simpa using hk
      have := (hg.failedIn k (hfail k hk')).1
      rw [h4] at this; cases this

end Verif.Disk
