import Verif.Disk.WriterModel
import Mathlib.Data.List.Perm.Basic
import Mathlib.Data.List.Nodup

/-!
# Invariants of the disk writer

Specification vocabulary (`epoch`, `FlushOnce`, `Has`, `OnDisk`) and the invariant kept by every step of
every schedule in which no chunk is flushed twice between two returns of `finalize_batch_range`.
-/

namespace Verif.Disk

variable {R : Type}

/-- The events since the last return of `finalize_batch_range` (histories are newest first). -/
def epoch : List (Ev R) → List (Ev R)
  | [] => []
  | .finalized :: _ => []
  | e :: r => e :: epoch r

/-- Between two returns of `finalize_batch_range` no chunk is flushed twice. -/
def FlushOnce : List (Ev R) → Prop
  | [] => True
  | .flushed k :: r => .flushed k ∉ epoch r ∧ FlushOnce r
  | _ :: r => FlushOnce r

/-- A chunk (its metadata and its tensor) has an entry for batch `b` whose rows are `rows`. -/
def Has (info : List Info) (tensor : List R) (b : ℕ) (rows : List R) : Prop :=
  ∃ s e, (⟨b, s, e⟩ : Info) ∈ info ∧ s ≤ e ∧ e ≤ tensor.length ∧ (tensor.drop s).take (e - s) = rows

/-- Some chunk file of the directory of `dt` holds batch `b` with these rows. -/
def OnDisk (st : St R) (dt : DT) (b : ℕ) (rows : List R) : Prop :=
  ∃ p info tensor, p.dt = dt ∧ st.metaFile p = some info ∧ st.dataFile p = some tensor ∧
    Has info tensor b rows

theorem Has.append {info : List Info} {tensor : List R} {b : ℕ} {rows : List R}
    (h : Has info tensor b rows) (more : List R) (i : Info) :
    Has (info ++ [i]) (tensor ++ more) b rows := by
  obtain ⟨s, e, h1, h2, h3, h4⟩ := h
  refine ⟨s, e, List.mem_append_left _ h1, h2, by rw [List.length_append]; omega, ?_⟩
  rw [List.drop_append_of_le_length (by omega), List.take_append_of_le_length
    (by rw [List.length_drop]; omega)]
  exact h4

theorem Has.new (info : List Info) (tensor : List R) (b : ℕ) (rows : List R) :
    Has (info ++ [⟨b, tensor.length, tensor.length + rows.length⟩]) (tensor ++ rows) b rows := by
  refine ⟨tensor.length, tensor.length + rows.length, by simp, by omega, by simp, ?_⟩
  rw [List.drop_left, Nat.add_sub_cancel_left, List.take_length]

/-! ### Outstanding tasks -/

/-- How far an outstanding task is. -/
inductive Stage where
  | fresh
  | marked
  | data
  | done
  deriving DecidableEq

/-- The stage of a task held by a writer. -/
def Phase.stage : Phase → Stage
  | .got => .marked
  | .data => .data
  | .done => .done

/-- The task the storing thread is handing over. -/
def pcOut : Pc R → List (Stage × Task R)
  | .mark t _ => [(.fresh, t)]
  | .put t _ => [(.marked, t)]
  | _ => []

/-- All outstanding tasks. -/
def out (st : St R) : List (Stage × Task R) :=
  pcOut st.pc ++ st.queue.map (fun t => (.marked, t)) ++ st.busy.map (fun x => (x.1.stage, x.2))

/-- Indices of the batches of a chunk. -/
def Keyed (cfg : Cfg) (k : Key) (info : List Info) : Prop := ∀ i ∈ info, i.idx / cfg.chunkSize = k.2

theorem foldl_min_mem (is : List Info) (a : ℕ) :
    is.foldl (fun a j => min a j.idx) a = a ∨ ∃ i ∈ is, i.idx = is.foldl (fun a j => min a j.idx) a := by
  induction is generalizing a with
  | nil => exact Or.inl rfl
  | cons j t ih =>
    rw [List.foldl_cons]
    rcases ih (min a j.idx) with h | ⟨i, h1, h2⟩
    · rw [h]
      rcases Nat.le_total a j.idx with h3 | h3
      · rw [Nat.min_eq_left h3]; exact Or.inl rfl
      · rw [Nat.min_eq_right h3]; exact Or.inr ⟨j, List.mem_cons_self, rfl⟩
    · exact Or.inr ⟨i, List.mem_cons_of_mem _ h1, h2⟩

/-- The file name determines the chunk. -/
theorem pathOf_key {cfg : Cfg} {dt : DT} {c : ℕ} {info : List Info} {p : Path}
    (h : pathOf dt info = some p) (hk : Keyed cfg (dt, c) info) :
    p.dt = dt ∧ p.lo / cfg.chunkSize = c := by
  cases info with
  | nil => cases h
  | cons i is =>
    simp only [pathOf, Option.some.injEq] at h
    subst h
    refine ⟨rfl, ?_⟩
    rcases foldl_min_mem is i.idx with h | ⟨j, h1, h2⟩
    · show List.foldl _ _ _ / _ = _
      rw [h]; exact hk i List.mem_cons_self
    · show List.foldl _ _ _ / _ = _
      rw [← h2]; exact hk j (List.mem_cons_of_mem _ h1)

/-- What the files say about a batch of chunk `k`. -/
def Written (cfg : Cfg) (df : Path → Option (List R)) (mf : Path → Option (List Info)) (k : Key)
    (b : ℕ) (rows : List R) : Prop :=
  ∃ p info tensor, p.dt = k.1 ∧ p.lo / cfg.chunkSize = k.2 ∧ mf p = some info ∧ df p = some tensor ∧
    Has info tensor b rows

/-- The data file of a task has been written. -/
def DataOk (df : Path → Option (List R)) (t : Task R) : Prop :=
  ∃ p, pathOf t.key.1 t.info = some p ∧ df p = some t.tensor

/-- Both files of a task have been written. -/
def FileOk (df : Path → Option (List R)) (mf : Path → Option (List Info)) (t : Task R) : Prop :=
  ∃ p, pathOf t.key.1 t.info = some p ∧ df p = some t.tensor ∧ mf p = some t.info

/-- Keys of the outstanding tasks. -/
abbrev okeys (o : List (Stage × Task R)) : List Key := o.map fun x => x.2.key

/-- The invariant, over the events `E` since the last return of `finalize_batch_range`. -/
structure Inv (cfg : Cfg) (E : List (Ev R)) (bufs : List (Key × Buffer R)) (pend : List Key)
    (o : List (Stage × Task R)) (df : Path → Option (List R)) (mf : Path → Option (List Info)) : Prop
    where
  nd : (okeys o).Nodup
  marked : ∀ x ∈ o, x.1 ≠ .fresh → x.2.key ∈ pend
  fl : ∀ k ∈ okeys o, Ev.flushed k ∈ E
  pendFl : ∀ k ∈ pend, Ev.flushed k ∈ E
  pendOut : ∀ k ∈ pend, k ∈ okeys o ∨ Ev.failed k ∈ E
  failedIn : ∀ k, Ev.failed k ∈ E → k ∈ pend ∧ k ∉ okeys o
  ndB : (PyDict.keys bufs).Nodup
  wfB : ∀ k buf, PyDict.get? bufs k = some buf → Keyed cfg k buf.info
  wfT : ∀ x ∈ o, Keyed cfg x.2.key x.2.info
  dataOk : ∀ x ∈ o, x.1 = .data → DataOk df x.2
  fileOk : ∀ x ∈ o, x.1 = .done → FileOk df mf x.2
  loc : ∀ k b rows, Ev.stored k b rows ∈ E →
    (∃ buf, PyDict.get? bufs k = some buf ∧ Has buf.info buf.tensor b rows) ∨
    (∃ x ∈ o, x.2.key = k ∧ Has x.2.info x.2.tensor b rows) ∨
    (Ev.flushed k ∈ E ∧ k ∉ okeys o ∧ Written cfg df mf k b rows) ∨ Ev.failed k ∈ E

variable {cfg : Cfg} {E : List (Ev R)} {bufs : List (Key × Buffer R)} {pend : List Key}
  {o o' : List (Stage × Task R)} {df : Path → Option (List R)} {mf : Path → Option (List Info)}

theorem Inv.init : Inv cfg ([] : List (Ev R)) [] [] [] df mf where
  nd := List.nodup_nil
  marked := by simp
  fl := by simp [okeys]
  pendFl := by simp
  pendOut := by simp
  failedIn := by simp
  ndB := List.nodup_nil
  wfB := by simp [PyDict.get?]
  wfT := by simp
  dataOk := by simp
  fileOk := by simp
  loc := by simp

theorem Inv.perm (h : Inv cfg E bufs pend o df mf) (hp : o.Perm o') :
    Inv cfg E bufs pend o' df mf := by
  have hm : ∀ x, x ∈ o' ↔ x ∈ o := fun x => hp.symm.mem_iff
  have hk : ∀ k, k ∈ okeys o' ↔ k ∈ okeys o := fun k => (hp.map _).symm.mem_iff
  constructor
  · exact ((hp.map _).nodup_iff).1 h.nd
  · intro x hx; exact h.marked x ((hm x).1 hx)
  · intro k hk'; exact h.fl k ((hk k).1 hk')
  · exact h.pendFl
  · intro k hk'; rw [hk]; exact h.pendOut k hk'
  · intro k hk'; rw [hk]; exact h.failedIn k hk'
  · exact h.ndB
  · exact h.wfB
  · intro x hx; exact h.wfT x ((hm x).1 hx)
  · intro x hx; exact h.dataOk x ((hm x).1 hx)
  · intro x hx; exact h.fileOk x ((hm x).1 hx)
  · intro k b rows hs
    rcases h.loc k b rows hs with h1 | ⟨x, h1, h2⟩ | ⟨h1, h2, h3⟩ | h1
    · exact Or.inl h1
    · exact Or.inr (Or.inl ⟨x, (hm x).2 h1, h2⟩)
    · exact Or.inr (Or.inr (Or.inl ⟨h1, fun h => h2 ((hk k).1 h), h3⟩))
    · exact Or.inr (Or.inr (Or.inr h1))

/-- Events that are neither a store, a flush nor a failed write. -/
def Ev.neutral : Ev R → Prop
  | .stored .. => False
  | .flushed .. => False
  | .failed .. => False
  | .finalized => False
  | _ => True

theorem Inv.event (h : Inv cfg E bufs pend o df mf) {e : Ev R} (he : e.neutral) :
    Inv cfg (e :: E) bufs pend o df mf := by
  have hf : ∀ k, Ev.flushed k ∈ e :: E ↔ Ev.flushed k ∈ E := by
    intro k
    rw [List.mem_cons]
    constructor
    · rintro (h1 | h1)
      · subst h1; exact he.elim
      · exact h1
    · exact Or.inr
  have hx : ∀ k, Ev.failed k ∈ e :: E ↔ Ev.failed k ∈ E := by
    intro k
    rw [List.mem_cons]
    constructor
    · rintro (h1 | h1)
      · subst h1; exact he.elim
      · exact h1
    · exact Or.inr
  constructor
  · exact h.nd
  · exact h.marked
  · intro k hk; rw [hf]; exact h.fl k hk
  · intro k hk; rw [hf]; exact h.pendFl k hk
  · intro k hk; rw [hx]; exact h.pendOut k hk
  · intro k hk; rw [hx] at hk; exact h.failedIn k hk
  · exact h.ndB
  · exact h.wfB
  · exact h.wfT
  · exact h.dataOk
  · exact h.fileOk
  · intro k b rows hs
    rw [hf, hx]
    apply h.loc
    rcases List.mem_cons.1 hs with h1 | h1
    · subst h1; exact he.elim
    · exact h1

/-- A flush. -/
theorem Inv.flush (h : Inv cfg E bufs pend o df mf) {k : Key} {buf : Buffer R}
    (hb : PyDict.get? bufs k = some buf) (hk : Ev.flushed k ∉ E) :
    Inv cfg (.flushed k :: E) (PyDict.erase k bufs) pend ((.fresh, ⟨k, buf.tensor, buf.info⟩) :: o) df
      mf := by
  have hkn : k ∉ okeys o := fun h' => hk (h.fl k h')
  have hE : ∀ e ∈ E, e ∈ Ev.flushed k :: E := fun e he => List.mem_cons_of_mem _ he
  have hfail : ∀ k', Ev.failed k' ∈ Ev.flushed k :: E ↔ Ev.failed k' ∈ E := by
    intro k'; simp
  have hok : okeys ((Stage.fresh, (⟨k, buf.tensor, buf.info⟩ : Task R)) :: o) = k :: okeys o := rfl
  constructor
  · rw [hok]; exact List.nodup_cons.2 ⟨hkn, h.nd⟩
  · intro x hx hs
    rcases List.mem_cons.1 hx with rfl | h1
    · exact absurd rfl hs
    · exact h.marked x h1 hs
  · intro k' hk'
    rw [hok] at hk'
    rcases List.mem_cons.1 hk' with rfl | h1
    · exact List.mem_cons_self
    · exact hE _ (h.fl k' h1)
  · intro k' hk'; exact hE _ (h.pendFl k' hk')
  · intro k' hk'
    rw [hok, hfail]
    rcases h.pendOut k' hk' with h1 | h1
    · exact Or.inl (List.mem_cons_of_mem _ h1)
    · exact Or.inr h1
  · intro k' hk'
    rw [hfail] at hk'
    refine ⟨(h.failedIn k' hk').1, ?_⟩
    rw [hok]
    intro h1
    rcases List.mem_cons.1 h1 with rfl | h1
    · exact hk (h.pendFl _ (h.failedIn _ hk').1)
    · exact (h.failedIn k' hk').2 h1
  · exact PyDict.nodup_erase h.ndB k
  · intro k' buf' hb'
    rw [PyDict.get?_erase] at hb'
    by_cases h1 : k' = k
    · rw [if_pos h1] at hb'; cases hb'
    · rw [if_neg h1] at hb'; exact h.wfB k' buf' hb'
  · intro x hx
    rcases List.mem_cons.1 hx with rfl | h1
    · exact h.wfB k buf hb
    · exact h.wfT x h1
  · intro x hx hs
    rcases List.mem_cons.1 hx with rfl | h1
    · cases hs
    · exact h.dataOk x h1 hs
  · intro x hx hs
    rcases List.mem_cons.1 hx with rfl | h1
    · cases hs
    · exact h.fileOk x h1 hs
  · intro k' b rows hs
    have hs' : Ev.stored k' b rows ∈ E := by simpa using hs
    rw [hfail]
    rcases h.loc k' b rows hs' with ⟨buf', h1, h2⟩ | ⟨x, h1, h2⟩ | ⟨h1, h2, h3⟩ | h1
    · by_cases h3 : k' = k
      · subst h3
        rw [hb] at h1
        cases h1
        exact Or.inr (Or.inl ⟨_, List.mem_cons_self, rfl, h2⟩)
      · exact Or.inl ⟨buf', by rw [PyDict.get?_erase, if_neg h3]; exact h1, h2⟩
    · exact Or.inr (Or.inl ⟨x, List.mem_cons_of_mem _ h1, h2⟩)
    · refine Or.inr (Or.inr (Or.inl ⟨hE _ h1, ?_, h3⟩))
      rw [hok]
      intro h4
      rcases List.mem_cons.1 h4 with rfl | h4
      · exact hk h1
      · exact h2 h4
    · exact Or.inr (Or.inr (Or.inr h1))

/-- Replacing the first outstanding task by the same task at a later stage, possibly with new marks and
files. -/
theorem Inv.restage {s s' : Stage} {t : Task R} {pend' : List Key} {df' : Path → Option (List R)}
    {mf' : Path → Option (List Info)} (h : Inv cfg E bufs pend ((s, t) :: o) df mf)
    (hpend : ∀ k, k ∈ pend' ↔ k ∈ pend ∨ k = t.key)
    (hdf : ∀ q, ¬ (q.dt = t.key.1 ∧ q.lo / cfg.chunkSize = t.key.2) → df' q = df q)
    (hmf : ∀ q, ¬ (q.dt = t.key.1 ∧ q.lo / cfg.chunkSize = t.key.2) → mf' q = mf q)
    (hdata : s' = .data → DataOk df' t) (hfile : s' = .done → FileOk df' mf' t) :
    Inv cfg E bufs pend' ((s', t) :: o) df' mf' := by
  have hok : okeys ((s', t) :: o) = okeys ((s, t) :: o) := rfl
  have hnd : t.key ∉ okeys o := (List.nodup_cons.1 h.nd).1
  have hne : ∀ x ∈ o, x.2.key ≠ t.key := fun x hx h1 => hnd (h1 ▸ List.mem_map.2 ⟨x, hx, rfl⟩)
  have hoff : ∀ x ∈ o, ∀ p, pathOf x.2.key.1 x.2.info = some p →
      ¬ (p.dt = t.key.1 ∧ p.lo / cfg.chunkSize = t.key.2) := by
    intro x hx p hp hc
    have := pathOf_key hp (h.wfT x (List.mem_cons_of_mem _ hx))
    exact hne x hx (Prod.ext (this.1.symm.trans hc.1) (this.2.symm.trans hc.2))
  constructor
  · exact h.nd
  · intro x hx hs
    rw [hpend]
    rcases List.mem_cons.1 hx with rfl | h1
    · exact Or.inr rfl
    · exact Or.inl (h.marked x (List.mem_cons_of_mem _ h1) hs)
  · exact h.fl
  · intro k hk
    rcases (hpend k).1 hk with h1 | rfl
    · exact h.pendFl k h1
    · exact h.fl _ List.mem_cons_self
  · intro k hk
    rw [hok]
    rcases (hpend k).1 hk with h1 | rfl
    · exact h.pendOut k h1
    · exact Or.inl List.mem_cons_self
  · intro k hk
    rw [hok, hpend]
    exact ⟨Or.inl (h.failedIn k hk).1, (h.failedIn k hk).2⟩
  · exact h.ndB
  · exact h.wfB
  · intro x hx
    rcases List.mem_cons.1 hx with rfl | h1
    · exact h.wfT (s, t) List.mem_cons_self
    · exact h.wfT x (List.mem_cons_of_mem _ h1)
  · intro x hx hs
    rcases List.mem_cons.1 hx with rfl | h1
    · exact hdata hs
    · obtain ⟨p, hp, hd⟩ := h.dataOk x (List.mem_cons_of_mem _ h1) hs
      exact ⟨p, hp, by rw [hdf p (hoff x h1 p hp)]; exact hd⟩
  · intro x hx hs
    rcases List.mem_cons.1 hx with rfl | h1
    · exact hfile hs
    · obtain ⟨p, hp, hd, hm⟩ := h.fileOk x (List.mem_cons_of_mem _ h1) hs
      exact ⟨p, hp, by rw [hdf p (hoff x h1 p hp)]; exact hd,
        by rw [hmf p (hoff x h1 p hp)]; exact hm⟩
  · intro k b rows hs
    rcases h.loc k b rows hs with h1 | ⟨x, h1, h2⟩ | ⟨h1, h2, h3⟩ | h1
    · exact Or.inl h1
    · rcases List.mem_cons.1 h1 with rfl | h1
      · exact Or.inr (Or.inl ⟨_, List.mem_cons_self, h2⟩)
      · exact Or.inr (Or.inl ⟨x, List.mem_cons_of_mem _ h1, h2⟩)
    · refine Or.inr (Or.inr (Or.inl ⟨h1, h2, ?_⟩))
      obtain ⟨p, info, tensor, e1, e2, e3, e4, e5⟩ := h3
      have : ¬ (p.dt = t.key.1 ∧ p.lo / cfg.chunkSize = t.key.2) := by
        rintro ⟨c1, c2⟩
        apply h2
        have : k = t.key := Prod.ext (e1.symm.trans c1) (e2.symm.trans c2)
        rw [this]; exact List.mem_cons_self
      exact ⟨p, info, tensor, e1, e2, by rw [hmf p this]; exact e3, by rw [hdf p this]; exact e4, e5⟩
    · exact Or.inr (Or.inr (Or.inr h1))

/-- A writer is done with a task. -/
theorem Inv.discard {t : Task R} (h : Inv cfg E bufs pend ((.done, t) :: o) df mf) :
    Inv cfg E bufs (pend.filter fun k => decide (k ≠ t.key)) o df mf := by
  have hnd : t.key ∉ okeys o := (List.nodup_cons.1 h.nd).1
  have hp : ∀ k, (k ∈ pend.filter fun k => decide (k ≠ t.key)) ↔ k ∈ pend ∧ k ≠ t.key := by
    intro k; rw [List.mem_filter, decide_eq_true_iff]
  constructor
  · exact (List.nodup_cons.1 h.nd).2
  · intro x hx hs
    rw [hp]
    exact ⟨h.marked x (List.mem_cons_of_mem _ hx) hs,
      fun h1 => hnd (h1 ▸ List.mem_map.2 ⟨x, hx, rfl⟩)⟩
  · intro k hk; exact h.fl k (List.mem_cons_of_mem _ hk)
  · intro k hk; exact h.pendFl k ((hp k).1 hk).1
  · intro k hk
    rcases h.pendOut k ((hp k).1 hk).1 with h1 | h1
    · rcases List.mem_cons.1 h1 with h2 | h2
      · exact absurd h2 ((hp k).1 hk).2
      · exact Or.inl h2
    · exact Or.inr h1
  · intro k hk
    obtain ⟨h1, h2⟩ := h.failedIn k hk
    refine ⟨(hp k).2 ⟨h1, ?_⟩, fun h3 => h2 (List.mem_cons_of_mem _ h3)⟩
    rintro rfl; exact h2 List.mem_cons_self
  · exact h.ndB
  · exact h.wfB
  · intro x hx; exact h.wfT x (List.mem_cons_of_mem _ hx)
  · intro x hx; exact h.dataOk x (List.mem_cons_of_mem _ hx)
  · intro x hx; exact h.fileOk x (List.mem_cons_of_mem _ hx)
  · intro k b rows hs
    rcases h.loc k b rows hs with h1 | ⟨x, h1, h2⟩ | ⟨h1, h2, h3⟩ | h1
    · exact Or.inl h1
    · rcases List.mem_cons.1 h1 with rfl | h1
      · obtain ⟨h3, h4⟩ := h2
        have h3 : t.key = k := h3
        subst h3
        obtain ⟨p, e1, e2, e3⟩ := h.fileOk _ List.mem_cons_self rfl
        have := pathOf_key e1 (h.wfT _ List.mem_cons_self)
        exact Or.inr (Or.inr (Or.inl ⟨h.fl _ List.mem_cons_self, hnd, p, _, _, this.1, this.2, e3, e2,
          h4⟩))
      · exact Or.inr (Or.inl ⟨x, h1, h2⟩)
    · exact Or.inr (Or.inr (Or.inl ⟨h1, fun h4 => h2 (List.mem_cons_of_mem _ h4), h3⟩))
    · exact Or.inr (Or.inr (Or.inr h1))

/-- A write raises. -/
theorem Inv.fail {s : Stage} {t : Task R} (h : Inv cfg E bufs pend ((s, t) :: o) df mf)
    (hs : s ≠ .fresh) : Inv cfg (.failed t.key :: E) bufs pend o df mf := by
  have hnd : t.key ∉ okeys o := (List.nodup_cons.1 h.nd).1
  have hE : ∀ e ∈ E, e ∈ Ev.failed t.key :: E := fun e he => List.mem_cons_of_mem _ he
  constructor
  · exact (List.nodup_cons.1 h.nd).2
  · intro x hx; exact h.marked x (List.mem_cons_of_mem _ hx)
  · intro k hk; exact hE _ (h.fl k (List.mem_cons_of_mem _ hk))
  · intro k hk; exact hE _ (h.pendFl k hk)
  · intro k hk
    rcases h.pendOut k hk with h1 | h1
    · rcases List.mem_cons.1 h1 with rfl | h2
      · exact Or.inr List.mem_cons_self
      · exact Or.inl h2
    · exact Or.inr (hE _ h1)
  · intro k hk
    rcases List.mem_cons.1 hk with h1 | h1
    · cases h1
      exact ⟨h.marked (s, t) List.mem_cons_self hs, hnd⟩
    · exact ⟨(h.failedIn k h1).1, fun h3 => (h.failedIn k h1).2 (List.mem_cons_of_mem _ h3)⟩
  · exact h.ndB
  · exact h.wfB
  · intro x hx; exact h.wfT x (List.mem_cons_of_mem _ hx)
  · intro x hx; exact h.dataOk x (List.mem_cons_of_mem _ hx)
  · intro x hx; exact h.fileOk x (List.mem_cons_of_mem _ hx)
  · intro k b rows hst
    have hst' : Ev.stored k b rows ∈ E := by simpa using hst
    rcases h.loc k b rows hst' with h1 | ⟨x, h1, h2⟩ | ⟨h1, h2, h3⟩ | h1
    · exact Or.inl h1
    · rcases List.mem_cons.1 h1 with rfl | h1
      · obtain ⟨h3, h4⟩ := h2
        have h3 : t.key = k := h3
        subst h3
        exact Or.inr (Or.inr (Or.inr List.mem_cons_self))
      · exact Or.inr (Or.inl ⟨x, h1, h2⟩)
    · exact Or.inr (Or.inr (Or.inl ⟨hE _ h1, fun h4 => h2 (List.mem_cons_of_mem _ h4), h3⟩))
    · exact Or.inr (Or.inr (Or.inr (hE _ h1)))

/-- Registering an empty buffer. -/
theorem Inv.newBuffer (h : Inv cfg E bufs pend o df mf) {k : Key} (hk : PyDict.get? bufs k = none) :
    Inv cfg E (PyDict.set k ⟨[], []⟩ bufs) pend o df mf := by
  refine { h with ndB := PyDict.nodup_set h.ndB _ _, wfB := ?_, loc := ?_ }
  · intro k' buf hb
    rw [PyDict.get?_set] at hb
    by_cases h1 : k' = k
    · rw [if_pos h1] at hb; cases hb; intro i hi; cases hi
    · rw [if_neg h1] at hb; exact h.wfB k' buf hb
  · intro k' b rows hs
    rcases h.loc k' b rows hs with ⟨buf, h1, h2⟩ | h1
    · refine Or.inl ⟨buf, ?_, h2⟩
      rw [PyDict.get?_set, if_neg]
      · exact h1
      · rintro rfl; rw [hk] at h1; cases h1
    · exact Or.inr h1

/-- Storing a batch in a buffer. -/
theorem Inv.store (h : Inv cfg E bufs pend o df mf) {k : Key} {buf : Buffer R}
    (hb : PyDict.get? bufs k = some buf) {b : ℕ} (hbk : b / cfg.chunkSize = k.2) (rows : List R) :
    Inv cfg (.stored k b rows :: E) (PyDict.set k ⟨buf.tensor ++ rows,
      buf.info ++ [⟨b, buf.tensor.length, buf.tensor.length + rows.length⟩]⟩ bufs) pend o df mf := by
  have hE : ∀ e ∈ E, e ∈ Ev.stored k b rows :: E := fun e he => List.mem_cons_of_mem _ he
  have hfail : ∀ k', Ev.failed k' ∈ Ev.stored k b rows :: E ↔ Ev.failed k' ∈ E := by
    intro k'; simp
  constructor
  · exact h.nd
  · exact h.marked
  · intro k' hk'; exact hE _ (h.fl k' hk')
  · intro k' hk'; exact hE _ (h.pendFl k' hk')
  · intro k' hk'; rw [hfail]; exact h.pendOut k' hk'
  · intro k' hk'; rw [hfail] at hk'; exact h.failedIn k' hk'
  · exact PyDict.nodup_set h.ndB _ _
  · intro k' buf' hb'
    rw [PyDict.get?_set] at hb'
    by_cases h1 : k' = k
    · rw [if_pos h1] at hb'
      cases hb'
      subst h1
      intro i hi
      rcases List.mem_append.1 hi with h2 | h2
      · exact h.wfB k' buf hb i h2
      · rw [List.mem_singleton] at h2; subst h2; exact hbk
    · rw [if_neg h1] at hb'; exact h.wfB k' buf' hb'
  · exact h.wfT
  · exact h.dataOk
  · exact h.fileOk
  · intro k' b' rows' hs
    rw [hfail]
    rcases List.mem_cons.1 hs with h1 | h1
    · cases h1
      exact Or.inl ⟨_, by rw [PyDict.get?_set, if_pos rfl], Has.new _ _ _ _⟩
    · rcases h.loc k' b' rows' h1 with ⟨buf', h2, h3⟩ | h2 | ⟨h2, h3⟩ | h2
      · by_cases h4 : k' = k
        · subst h4
          rw [hb] at h2
          cases h2
          exact Or.inl ⟨_, by rw [PyDict.get?_set, if_pos rfl], h3.append _ _⟩
        · exact Or.inl ⟨buf', by rw [PyDict.get?_set, if_neg h4]; exact h2, h3⟩
      · exact Or.inr (Or.inl h2)
      · exact Or.inr (Or.inr (Or.inl ⟨hE _ h2, h3⟩))
      · exact Or.inr (Or.inr (Or.inr h2))

/-! ### Steps -/

theorem FlushOnce.tail {e : Ev R} {r : List (Ev R)} (h : FlushOnce (e :: r)) : FlushOnce r := by
  cases e <;> first | exact h | exact h.2

theorem epoch_cons {e : Ev R} (r : List (Ev R)) (he : e ≠ .finalized) :
    epoch (e :: r) = e :: epoch r := by
  cases e <;> first | rfl | exact absurd rfl he

theorem neutral_ne {e : Ev R} (he : e.neutral) : e ≠ .finalized := by
  rintro rfl; exact he

/-- What the storing thread still has to do, if it is inside a call. -/
def pcCont : Pc R → Option (Cont R)
  | .idle => none
  | .mark _ c => some c
  | .put _ c => some c
  | .resume c => some c
  | .flushAll ks => some (.flushAll ks)
  | .wait => some (.flushAll [])

/-- Inside `finalize_batch_range` only the buffers still to be flushed are left; after an overflow the
chunk has no buffer. -/
def ContInv (cfg : Cfg) (bufs : List (Key × Buffer R)) : Cont R → Prop
  | .done => True
  | .retry k b _ => PyDict.get? bufs k = none ∧ b / cfg.chunkSize = k.2
  | .flushAll ks => ∀ k ∈ PyDict.keys bufs, k ∈ ks

/-- The invariant of the position of the storing thread. -/
def PcInv (cfg : Cfg) (st : St R) : Prop := ∀ c, pcCont st.pc = some c → ContInv cfg st.buffers c

/-- The invariant of a state. -/
def Good (cfg : Cfg) (st : St R) : Prop :=
  Inv cfg (epoch st.ev) st.buffers st.pending (out st) st.dataFile st.metaFile

theorem good_beginFlush {st : St R} (h : Good cfg st) (hpc : pcOut st.pc = []) (k : Key) (c : Cont R)
    (hf : FlushOnce (beginFlush st k c).ev) : Good cfg (beginFlush st k c) := by
  unfold Good out at h ⊢
  rw [hpc] at h
  unfold beginFlush at hf ⊢
  cases hb : PyDict.get? st.buffers k with
  | none => rw [hb] at hf; exact h
  | some buf =>
    rw [hb] at hf
    exact h.flush hb hf.1

theorem pc_beginFlush {st : St R} (k : Key) (c : Cont R)
    (h1 : PyDict.get? st.buffers k = none → ContInv cfg st.buffers c)
    (h2 : ContInv cfg (PyDict.erase k st.buffers) c) : PcInv cfg (beginFlush st k c) := by
  unfold beginFlush
  cases hb : PyDict.get? st.buffers k with
  | none => intro c' hc'; cases hc'; exact h1 hb
  | some buf => intro c' hc'; cases hc'; exact h2

theorem ev_beginFlush (st : St R) (k : Key) (c : Cont R) :
    (beginFlush st k c).ev = st.ev ∨ (beginFlush st k c).ev = .flushed k :: st.ev := by
  unfold beginFlush
  cases PyDict.get? st.buffers k with
  | none => exact Or.inl rfl
  | some buf => exact Or.inr rfl

theorem flushOnce_beginFlush {st : St R} {k : Key} {c : Cont R}
    (h : FlushOnce (beginFlush st k c).ev) : FlushOnce st.ev := by
  rcases ev_beginFlush st k c with h1 | h1
  · rw [h1] at h; exact h
  · rw [h1] at h; exact h.tail

theorem good_append {st : St R} (h : Good cfg st) (hpc : pcOut st.pc = []) {k : Key} {b : ℕ}
    (hbk : b / cfg.chunkSize = k.2) (rows : List R) (hf : FlushOnce (append cfg st k b rows).ev) :
    Good cfg (append cfg st k b rows) ∧ PcInv cfg (append cfg st k b rows) := by
  have h0 := h
  unfold Good out at h
  rw [hpc] at h
  unfold append at hf ⊢
  cases hb : PyDict.get? st.buffers k with
  | none =>
    exact ⟨h.event (e := .raised .keyError) trivial, fun c hc => by cases hc⟩
  | some buf =>
    rw [hb] at hf
    simp only at hf ⊢
    split_ifs at hf ⊢ with h1 h2
    · exact ⟨h.event (e := .raised .runtimeError) trivial, fun c hc => by cases hc⟩
    · refine ⟨good_beginFlush ?_ rfl _ _ hf, pc_beginFlush _ _ (fun _ => trivial) trivial⟩
      exact h.store hb hbk rows
    · exact ⟨h.store hb hbk rows, fun c hc => by cases hc⟩

theorem ev_append (cfg : Cfg) (st : St R) (k : Key) (b : ℕ) (rows : List R) :
    ∃ l, (append cfg st k b rows).ev = l ++ st.ev ∧ Ev.finalized ∉ l := by
  unfold append
  cases PyDict.get? st.buffers k with
  | none => exact ⟨[_], rfl, by simp⟩
  | some buf =>
    simp only
    split_ifs with h1 h2
    · exact ⟨[_], rfl, by simp⟩
    · rcases ev_beginFlush _ k .done with h3 | h3
      · rw [h3]; exact ⟨[_], rfl, by simp⟩
      · rw [h3]; exact ⟨[_, _], rfl, by simp⟩
    · exact ⟨[_], rfl, by simp⟩

theorem flushOnce_append {l r : List (Ev R)} (h : FlushOnce (l ++ r)) : FlushOnce r := by
  induction l with
  | nil => exact h
  | cons e t ih => exact ih h.tail

theorem good_openBuffer {st : St R} (h : Good cfg st) (k : Key) :
    Good cfg (openBuffer st k).1 ∧ PyDict.get? (openBuffer st k).1.buffers k = some (openBuffer st k).2 ∧
      (openBuffer st k).1.pc = st.pc ∧ (openBuffer st k).1.ev = st.ev := by
  unfold openBuffer
  cases hb : PyDict.get? st.buffers k with
  | none =>
    refine ⟨?_, by rw [PyDict.get?_set, if_pos rfl], rfl, rfl⟩
    exact Inv.newBuffer h hb
  | some buf => exact ⟨h, hb, rfl, rfl⟩

theorem good_store {st : St R} (h : Good cfg st) (hpc : st.pc = .idle) (dt : DT) (b : ℕ)
    (rows : List R) (hf : FlushOnce (store cfg st dt b rows).ev) :
    Good cfg (store cfg st dt b rows) ∧ PcInv cfg (store cfg st dt b rows) := by
  obtain ⟨g1, g2, g3, g4⟩ := good_openBuffer h (dt, chunkId cfg b)
  unfold store storeIn at hf ⊢
  generalize (openBuffer st (dt, chunkId cfg b)).1 = st1 at *
  generalize (openBuffer st (dt, chunkId cfg b)).2 = buf at *
  rw [hpc] at g3
  have hcont : ∀ c : Cont R, pcCont (Pc.idle : Pc R) = some c → ContInv cfg st1.buffers c :=
    fun c hc => by cases hc
  split_ifs at hf ⊢ with h1 h2
  · refine ⟨?_, fun c hc => hcont c (by rw [← g3]; exact hc)⟩
    exact Inv.event (e := .storedEmpty _ _) g1 trivial
  · have g1' : Good cfg { st1 with ev := .overflow (dt, chunkId cfg b) :: st1.ev } :=
      Inv.event (e := .overflow _) g1 trivial
    refine ⟨good_beginFlush g1' ?_ _ _ hf, pc_beginFlush _ _ ?_ ?_⟩
    · show pcOut st1.pc = []
      rw [g3]; rfl
    · intro h3
      rw [g2] at h3; cases h3
    · exact ⟨by rw [PyDict.get?_erase, if_pos rfl], rfl⟩
  · exact good_append g1 (by rw [g3]; rfl) rfl rows hf

/-- Every event history is extended at the front. -/
theorem ev_step {st st' : St R} {a : Act R} (h : step cfg st a = some st') :
    ∃ l, st'.ev = l ++ st.ev := by
  cases a with
  | callStart s e =>
    simp only [step] at h
    cases hp : st.pc <;> rw [hp] at h <;> simp only [Option.some.injEq, reduceCtorEq] at h
    subst h
    unfold startRange
    split_ifs
    · exact ⟨[_], rfl⟩
    · exact ⟨[_], rfl⟩
  | callStore dt b rows =>
    simp only [step] at h
    cases hp : st.pc <;> rw [hp] at h <;> simp only [Option.some.injEq, reduceCtorEq] at h
    subst h
    have h4 : (openBuffer st (dt, chunkId cfg b)).1.ev = st.ev := by
      unfold openBuffer
      cases PyDict.get? st.buffers (dt, chunkId cfg b) <;> rfl
    unfold store storeIn
    generalize (openBuffer st (dt, chunkId cfg b)).1 = st1 at *
    generalize (openBuffer st (dt, chunkId cfg b)).2 = buf at *
    split_ifs
    · exact ⟨[_], by rw [← h4]; rfl⟩
    · rcases ev_beginFlush { st1 with ev := .overflow (dt, chunkId cfg b) :: st1.ev }
        (dt, chunkId cfg b) (.retry (dt, chunkId cfg b) b rows) with h5 | h5
      · exact ⟨[_], by rw [h5, ← h4]; rfl⟩
      · exact ⟨[_, _], by rw [h5, ← h4]; rfl⟩
    · obtain ⟨l, h5, _⟩ := ev_append cfg st1 (dt, chunkId cfg b) b rows
      exact ⟨l, by rw [h5, h4]⟩
  | callFinalize =>
    simp only [step] at h
    cases hp : st.pc <;> rw [hp] at h <;> simp only [Option.some.injEq, reduceCtorEq] at h
    subst h
    unfold finalize
    cases st.range
    · exact ⟨[_], rfl⟩
    · exact ⟨[], rfl⟩
  | prod =>
    simp only [step] at h
    unfold prodStep at h
    cases hp : st.pc with
    | idle => rw [hp] at h; cases h
    | mark t c => rw [hp] at h; cases h; exact ⟨[], rfl⟩
    | put t c =>
      rw [hp] at h
      simp only at h
      split_ifs at h
      cases h; exact ⟨[], rfl⟩
    | resume c =>
      rw [hp] at h
      cases c with
      | done => cases h; exact ⟨[], rfl⟩
      | retry k b rows =>
        cases h
        obtain ⟨l, h5, _⟩ := ev_append cfg { st with buffers := PyDict.set k ⟨[], []⟩ st.buffers } k b rows
        exact ⟨l, h5⟩
      | flushAll ks => cases h; exact ⟨[], rfl⟩
    | flushAll ks =>
      rw [hp] at h
      cases ks with
      | nil => cases h; exact ⟨[], rfl⟩
      | cons k ks =>
        cases h
        rcases ev_beginFlush st k (.flushAll ks) with h5 | h5
        · exact ⟨[], h5⟩
        · exact ⟨[_], h5⟩
    | wait =>
      rw [hp] at h
      simp only at h
      split_ifs at h
      · cases h; exact ⟨[_], rfl⟩
      · cases h; exact ⟨[], rfl⟩
  | take =>
    simp only [step] at h
    unfold takeStep at h
    cases hq : st.queue with
    | nil => rw [hq] at h; cases h
    | cons t q =>
      rw [hq] at h
      simp only at h
      split_ifs at h
      cases h; exact ⟨[], rfl⟩
  | work i =>
    simp only [step] at h
    unfold workStep at h
    cases hb : st.busy[i]? with
    | none => rw [hb] at h; cases h
    | some x =>
      obtain ⟨ph, t⟩ := x
      rw [hb] at h
      cases ph with
      | got =>
        simp only at h
        cases hpth : pathOf t.key.1 t.info <;> rw [hpth] at h <;> cases h
        exact ⟨[], rfl⟩
      | data =>
        simp only at h
        cases hpth : pathOf t.key.1 t.info <;> rw [hpth] at h <;> cases h
        exact ⟨[], rfl⟩
      | done => cases h; exact ⟨[], rfl⟩
  | fail i =>
    simp only [step] at h
    unfold failStep at h
    cases hb : st.busy[i]? with
    | none => rw [hb] at h; cases h
    | some x =>
      obtain ⟨ph, t⟩ := x
      rw [hb] at h
      cases ph with
      | got => cases h; exact ⟨[_], rfl⟩
      | data => cases h; exact ⟨[_], rfl⟩
      | done => cases h

/-- A list with one element moved to the front. -/
theorem perm_front {α : Type} {l : List α} {i : ℕ} {x : α} (h : l[i]? = some x) :
    (x :: l.eraseIdx i).Perm l := by
  induction l generalizing i with
  | nil => cases h
  | cons a t ih =>
    cases i with
    | zero =>
      simp only [List.getElem?_cons_zero, Option.some.injEq] at h
      subst h
      exact List.Perm.refl _
    | succ i =>
      rw [List.getElem?_cons_succ] at h
      rw [List.eraseIdx_cons_succ]
      exact (List.Perm.swap _ _ _).trans ((ih h).cons _)

theorem perm_set {α : Type} {l : List α} {i : ℕ} {x y : α} (h : l[i]? = some x) :
    (y :: l.eraseIdx i).Perm (l.set i y) := by
  induction l generalizing i with
  | nil => cases h
  | cons a t ih =>
    cases i with
    | zero => exact List.Perm.refl _
    | succ i =>
      rw [List.getElem?_cons_succ] at h
      rw [List.eraseIdx_cons_succ, List.set_cons_succ]
      exact (List.Perm.swap _ _ _).trans ((ih h).cons _)

/-- The outstanding tasks with the one of the writer at position `i` in front. -/
theorem out_front {st : St R} {i : ℕ} {x : Phase × Task R} (h : st.busy[i]? = some x) :
    (out st).Perm ((x.1.stage, x.2) :: out { st with busy := st.busy.eraseIdx i }) := by
  unfold out
  have := ((perm_front h).map (fun x : Phase × Task R => (x.1.stage, x.2))).symm
  rw [List.map_cons] at this
  exact (this.append_left _).trans List.perm_middle

theorem out_set {st : St R} {i : ℕ} {x y : Phase × Task R} (h : st.busy[i]? = some x) :
    ((y.1.stage, y.2) :: out { st with busy := st.busy.eraseIdx i }).Perm
      (out { st with busy := st.busy.set i y }) := by
  unfold out
  have := (perm_set (y := y) h).map (fun x : Phase × Task R => (x.1.stage, x.2))
  rw [List.map_cons] at this
  exact List.perm_middle.symm.trans (this.append_left _)

theorem put_off {α : Type} {f : Path → Option α} {p : Path} {v : α} {dt : DT} {c : ℕ}
    (hp : p.dt = dt ∧ p.lo / cfg.chunkSize = c) (q : Path)
    (hq : ¬ (q.dt = dt ∧ q.lo / cfg.chunkSize = c)) : put f p v q = f q := by
  unfold put
  rw [if_neg]
  rintro rfl
  exact hq hp

/-- Every step keeps the invariant, as long as no chunk is flushed twice. -/
theorem good_step {st st' : St R} {a : Act R} (h : Good cfg st) (hpc : PcInv cfg st)
    (hs : step cfg st a = some st') (hf : FlushOnce st'.ev) : Good cfg st' ∧ PcInv cfg st' := by
  cases a with
  | callStart s e =>
    simp only [step] at hs
    cases hp : st.pc <;> rw [hp] at hs <;> simp only [Option.some.injEq, reduceCtorEq] at hs
    subst hs
    unfold startRange
    split_ifs
    · exact ⟨Inv.event (e := .raised .valueError) h trivial, fun c hc => hpc c hc⟩
    · exact ⟨Inv.event (e := .started s e) h trivial, fun c hc => hpc c hc⟩
  | callStore dt b rows =>
    simp only [step] at hs
    cases hp : st.pc <;> rw [hp] at hs <;> simp only [Option.some.injEq, reduceCtorEq] at hs
    subst hs
    exact good_store h hp dt b rows hf
  | callFinalize =>
    simp only [step] at hs
    cases hp : st.pc <;> rw [hp] at hs <;> simp only [Option.some.injEq, reduceCtorEq] at hs
    subst hs
    unfold finalize
    cases st.range with
    | none => exact ⟨Inv.event (e := .skipped) h trivial, fun c hc => hpc c hc⟩
    | some r =>
      refine ⟨?_, ?_⟩
      · unfold Good out at h ⊢
        rw [hp] at h
        exact h
      · intro c hc
        cases hc
        intro k hk
        exact hk
  | prod =>
    simp only [step] at hs
    unfold prodStep at hs
    cases hp : st.pc with
    | idle => rw [hp] at hs; cases hs
    | mark t c =>
      rw [hp] at hs
      cases hs
      refine ⟨?_, fun c' hc' => by cases hc'; exact hpc c (by rw [hp]; rfl)⟩
      unfold Good out at h ⊢
      rw [hp] at h
      refine h.restage ?_ (fun q _ => rfl) (fun q _ => rfl) (fun h => by cases h) (fun h => by cases h)
      intro k
      simp only
      split_ifs with h1
      · constructor
        · exact Or.inl
        · rintro (h2 | rfl)
          · exact h2
          · exact h1
      · rw [List.mem_cons, or_comm]
    | put t c =>
      rw [hp] at hs
      simp only at hs
      split_ifs at hs
      cases hs
      refine ⟨?_, fun c' hc' => by cases hc'; exact hpc c (by rw [hp]; rfl)⟩
      unfold Good out at h ⊢
      rw [hp] at h
      refine h.perm ?_
      show (((Stage.marked, t) :: st.queue.map _) ++ _).Perm ((st.queue ++ [t]).map _ ++ _)
      rw [List.map_append]
      exact (List.perm_append_comm (l₁ := [(Stage.marked, t)])).append_right _
    | resume c =>
      rw [hp] at hs
      cases c with
      | done =>
        cases hs
        refine ⟨?_, fun c' hc' => by cases hc'⟩
        unfold Good out at h ⊢
        rw [hp] at h
        exact h
      | retry k b rows =>
        cases hs
        obtain ⟨h1, h2⟩ := hpc (.retry k b rows) (by rw [hp]; rfl)
        refine good_append ?_ rfl h2 rows hf
        unfold Good out at h ⊢
        rw [hp] at h
        exact Inv.newBuffer h h1
      | flushAll ks =>
        cases hs
        refine ⟨?_, fun c' hc' => by cases hc'; exact hpc _ (by rw [hp]; rfl)⟩
        unfold Good out at h ⊢
        rw [hp] at h
        exact h
    | flushAll ks =>
      rw [hp] at hs
      have h0 : ContInv cfg st.buffers (.flushAll ks) := hpc _ (by rw [hp]; rfl)
      cases ks with
      | nil =>
        cases hs
        refine ⟨?_, fun c' hc' => by cases hc'; exact h0⟩
        unfold Good out at h ⊢
        rw [hp] at h
        exact h
      | cons k ks =>
        cases hs
        refine ⟨good_beginFlush h (by rw [hp]; rfl) _ _ hf, pc_beginFlush _ _ ?_ ?_⟩
        · intro h1 k' hk'
          rcases List.mem_cons.1 (h0 k' hk') with rfl | h2
          · exact absurd hk' ((PyDict.get?_eq_none _ _).1 h1)
          · exact h2
        · intro k' hk'
          rw [PyDict.mem_keys_erase] at hk'
          rcases List.mem_cons.1 (h0 k' hk'.2) with h2 | h2
          · exact absurd h2 hk'.1
          · exact h2
    | wait =>
      rw [hp] at hs
      simp only at hs
      split_ifs at hs with h1
      · cases hs
        refine ⟨?_, fun c' hc' => by cases hc'⟩
        have h0 : ContInv cfg st.buffers (.flushAll []) := hpc _ (by rw [hp]; rfl)
        unfold Good out at h ⊢
        rw [hp] at h
        have hq : ∀ x, x ∉ pcOut (Pc.wait : Pc R) ++ st.queue.map (fun t => (Stage.marked, t)) ++
            st.busy.map (fun x => (x.1.stage, x.2)) := by
          intro x hx
          have : x.1 ≠ .fresh := by
            rcases List.mem_append.1 hx with h2 | h2
            · obtain ⟨t, _, rfl⟩ := List.mem_map.1 (by exact h2)
              intro h; cases h
            · obtain ⟨⟨ph, t⟩, _, rfl⟩ := List.mem_map.1 h2
              cases ph <;> intro h <;> cases h
          have := h.marked x hx this
          rw [h1] at this
          cases this
        have hq' := List.eq_nil_iff_forall_not_mem.2 hq
        have hb : st.buffers = [] := by
          have : PyDict.keys st.buffers = [] :=
            List.eq_nil_iff_forall_not_mem.2 fun k hk => by cases h0 k hk
          exact List.map_eq_nil_iff.1 this
        show Inv cfg [] st.buffers st.pending (pcOut Pc.idle ++ _ ++ _) _ _
        rw [hb, h1]
        have : (pcOut (Pc.idle : Pc R) ++ st.queue.map (fun t => (Stage.marked, t)) ++
            st.busy.map (fun x => (x.1.stage, x.2))) = [] := hq'
        rw [this]
        exact Inv.init
      · cases hs
        exact ⟨h, hpc⟩
  | take =>
    simp only [step] at hs
    unfold takeStep at hs
    cases hq : st.queue with
    | nil => rw [hq] at hs; cases hs
    | cons t q =>
      rw [hq] at hs
      simp only at hs
      split_ifs at hs
      cases hs
      refine ⟨?_, fun c' hc' => hpc c' hc'⟩
      unfold Good out at h ⊢
      rw [hq] at h
      refine h.perm ?_
      show (pcOut st.pc ++ (_ :: q.map _) ++ st.busy.map _).Perm
        (pcOut st.pc ++ q.map _ ++ (st.busy ++ [(Phase.got, t)]).map _)
      rw [List.map_append, List.append_assoc, List.append_assoc]
      refine List.Perm.append_left _ ?_
      rw [← List.append_assoc]
      exact (List.perm_append_comm (l₁ := [(Stage.marked, t)]))
  | work i =>
    simp only [step] at hs
    unfold workStep at hs
    cases hb : st.busy[i]? with
    | none => rw [hb] at hs; cases hs
    | some x =>
      obtain ⟨ph, t⟩ := x
      rw [hb] at hs
      have h' := Inv.perm h (out_front hb)
      have hmem : (ph.stage, t) ∈ (ph.stage, t) :: out { st with busy := st.busy.eraseIdx i } :=
        List.mem_cons_self
      cases ph with
      | got =>
        simp only at hs
        cases hpth : pathOf t.key.1 t.info with
        | none => rw [hpth] at hs; cases hs
        | some p =>
          rw [hpth] at hs
          cases hs
          refine ⟨?_, fun c' hc' => hpc c' hc'⟩
          have hk := pathOf_key hpth (h'.wfT _ hmem)
          have := h'.restage (s' := .data) (pend' := st.pending)
            (df' := put st.dataFile p t.tensor) (mf' := st.metaFile) ?_ ?_ (fun q _ => rfl) ?_ ?_
          · exact this.perm (out_set (y := (.data, t)) hb)
          · intro k
            constructor
            · exact Or.inl
            · rintro (h2 | rfl)
              · exact h2
              · exact h'.marked _ hmem (fun h => by cases h)
          · exact fun q hq => put_off hk q hq
          · intro _
            exact ⟨p, hpth, by unfold put; rw [if_pos rfl]⟩
          · intro h; cases h
      | data =>
        simp only at hs
        cases hpth : pathOf t.key.1 t.info with
        | none => rw [hpth] at hs; cases hs
        | some p =>
          rw [hpth] at hs
          cases hs
          refine ⟨?_, fun c' hc' => hpc c' hc'⟩
          have hk := pathOf_key hpth (h'.wfT _ hmem)
          have := h'.restage (s' := .done) (pend' := st.pending)
            (df' := st.dataFile) (mf' := put st.metaFile p t.info) ?_ (fun q _ => rfl) ?_ ?_ ?_
          · exact this.perm (out_set (y := (.done, t)) hb)
          · intro k
            constructor
            · exact Or.inl
            · rintro (h2 | rfl)
              · exact h2
              · exact h'.marked _ hmem (fun h => by cases h)
          · exact fun q hq => put_off hk q hq
          · intro h; cases h
          · intro _
            obtain ⟨p', e1, e2⟩ := h'.dataOk _ hmem rfl
            have : p' = p := by rw [hpth] at e1; cases e1; rfl
            subst this
            exact ⟨p', hpth, e2, by unfold put; rw [if_pos rfl]⟩
      | done =>
        cases hs
        exact ⟨h'.discard, fun c' hc' => hpc c' hc'⟩
  | fail i =>
    simp only [step] at hs
    unfold failStep at hs
    cases hb : st.busy[i]? with
    | none => rw [hb] at hs; cases hs
    | some x =>
      obtain ⟨ph, t⟩ := x
      rw [hb] at hs
      have h' := Inv.perm h (out_front hb)
      cases ph with
      | got => cases hs; exact ⟨h'.fail (by intro h; cases h), fun c' hc' => hpc c' hc'⟩
      | data => cases hs; exact ⟨h'.fail (by intro h; cases h), fun c' hc' => hpc c' hc'⟩
      | done => cases hs

theorem exec_append (cfg : Cfg) (st : St R) (l1 l2 : List (Act R)) :
    exec cfg st (l1 ++ l2) = (exec cfg st l1).bind fun s => exec cfg s l2 := by
  unfold exec
  rw [List.foldlM_append]
  rfl

theorem exec_cons (cfg : Cfg) (st : St R) (a : Act R) (l : List (Act R)) :
    exec cfg st (a :: l) = (step cfg st a).bind fun s => exec cfg s l := rfl

theorem ev_exec {st st' : St R} {acts : List (Act R)} (h : exec cfg st acts = some st') :
    ∃ l, st'.ev = l ++ st.ev := by
  induction acts generalizing st with
  | nil => cases h; exact ⟨[], rfl⟩
  | cons a t ih =>
    rw [exec_cons] at h
    obtain ⟨s1, h1, h2⟩ := Option.bind_eq_some_iff.1 h
    obtain ⟨l1, e1⟩ := ev_step h1
    obtain ⟨l2, e2⟩ := ih h2
    exact ⟨l2 ++ l1, by rw [e2, e1, List.append_assoc]⟩

theorem good_exec {st st' : St R} {acts : List (Act R)} (h : Good cfg st) (hpc : PcInv cfg st)
    (hs : exec cfg st acts = some st') (hf : FlushOnce st'.ev) : Good cfg st' ∧ PcInv cfg st' := by
  induction acts generalizing st with
  | nil => cases hs; exact ⟨h, hpc⟩
  | cons a t ih =>
    rw [exec_cons] at hs
    obtain ⟨s1, h1, h2⟩ := Option.bind_eq_some_iff.1 hs
    obtain ⟨l, e⟩ := ev_exec h2
    have hf1 : FlushOnce s1.ev := by rw [e] at hf; exact flushOnce_append hf
    obtain ⟨g1, g2⟩ := good_step h hpc h1 hf1
    exact ih g1 g2 h2

theorem good_init (df : Path → Option (List R)) (mf : Path → Option (List Info)) :
    Good cfg (St.init df mf) ∧ PcInv cfg (St.init df mf) :=
  ⟨Inv.init, fun c hc => by cases hc⟩

end Verif.Disk
