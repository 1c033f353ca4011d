import Verif.Disk.RetrieveModel
import Verif.Disk.ExactProps
import Mathlib.Tactic.Linarith

/-!
# C130: reading single batches back
-/

namespace Verif.Disk

variable {R : Type} {cfg : Cfg}

theorem loadSlice_lookup (info : List Info) (t : List R) (b : ℕ) : loadSlice info t b = (entries info t).lookup b := by
  induction info with
  | nil => rfl
  | cons i l ih =>
    unfold loadSlice entries at ih ⊢
    by_cases h : i.idx = b
    · simp [h, slice]
    · have h' : (b == i.idx) = false := by simp [Ne.symm h]
      simp [List.lookup_cons, h, h', ih]

theorem lookup_of_mem {l : List (ℕ × List R)} (hn : (l.map Prod.fst).Nodup) {b : ℕ} {rows : List R} (h : (b, rows) ∈ l) :
    l.lookup b = some rows := by
  induction l with
  | nil => cases h
  | cons x t ih =>
    obtain ⟨b', r'⟩ := x
    simp only [List.map_cons, List.nodup_cons] at hn
    rcases List.mem_cons.1 h with h1 | h1
    · cases h1; simp
    · have hne : (b == b') = false := by
        simp only [beq_eq_false_iff_ne, ne_eq]
        rintro rfl
        exact hn.1 (List.mem_map.2 ⟨_, h1, rfl⟩)
      rw [List.lookup_cons, hne]
      exact ih hn.2 h1

theorem mem_of_lookup {l : List (ℕ × List R)} {b : ℕ} {rows : List R} (h : l.lookup b = some rows) : (b, rows) ∈ l := by
  induction l with
  | nil => simp at h
  | cons x t ih =>
    obtain ⟨b', r'⟩ := x
    rw [List.lookup_cons] at h
    split at h
    · rename_i he
      simp only [beq_iff_eq] at he
      cases h; subst he; exact List.mem_cons_self
    · exact List.mem_cons_of_mem _ (ih h)

theorem lookup_none {l : List (ℕ × List R)} {b : ℕ} (h : ∀ rows, (b, rows) ∉ l) : l.lookup b = none := by
  cases hl : l.lookup b with
  | none => rfl
  | some rows => exact absurd (mem_of_lookup hl) (h rows)

theorem evict_mem {c : ReadCache R} {x : Key × Cached R} (h : x ∈ evict c) : x ∈ c := by
  unfold evict at h
  split at h
  · split at h
    · exact h
    · exact (PyDict.mem_erase.1 h).1
  · exact h

theorem set_mem {κ α : Type} [DecidableEq κ] {k : κ} {v : α} {m : List (κ × α)} {x : κ × α} (h : x ∈ PyDict.set k v m) :
    x = (k, v) ∨ x ∈ m := by
  induction m with
  | nil => simpa [PyDict.set] using h
  | cons p t ih =>
    obtain ⟨k', v'⟩ := p
    unfold PyDict.set at h
    split at h
    · rcases List.mem_cons.1 h with h | h
      · exact Or.inl h
      · exact Or.inr (List.mem_cons_of_mem _ h)
    · rcases List.mem_cons.1 h with h | h
      · exact Or.inr (h ▸ List.mem_cons_self)
      · rcases ih h with h | h
        · exact Or.inl h
        · exact Or.inr (List.mem_cons_of_mem _ h)

theorem touch_mem {k : Key} {now : ℚ} {c : ReadCache R} {x : Key × Cached R} (h : x ∈ touch k now c) :
    ∃ e, (x.1, e) ∈ c ∧ x.2.tensor = e.tensor ∧ x.2.info = e.info := by
  unfold touch at h
  split at h
  · exact ⟨x.2, h, rfl, rfl⟩
  · rename_i e he
    rcases set_mem h with rfl | h
    · exact ⟨e, PyDict.mem_of_get? he, rfl, rfl⟩
    · exact ⟨x.2, h, rfl, rfl⟩

/-- Every cached chunk is the present content of a listed file of its kind. -/
def Fresh (fs : Files R) (c : ReadCache R) : Prop :=
  ∀ x ∈ c, ∃ p ∈ fs.listing, p.dt = x.1.1 ∧ fs.metaFile p = some x.2.info ∧ fs.dataFile p = some x.2.tensor

theorem search_spec (fs : Files R) (b : ℕ) (ps : List Path)
    (h : ∀ p ∈ ps, (fs.metaFile p).isSome ∧ (fs.dataFile p).isSome) :
    (search fs b ps = .ok none ∧ ∀ p ∈ ps, ∀ rows, (b, rows) ∉ fileEntries fs p) ∨
    (∃ p ∈ ps, ∃ info t, fs.metaFile p = some info ∧ fs.dataFile p = some t ∧ search fs b ps = .ok (some (t, info)) ∧
      ∃ rows, (b, rows) ∈ entries info t) := by
  induction ps with
  | nil => exact Or.inl ⟨rfl, by simp⟩
  | cons p ps ih =>
    obtain ⟨h1, h2⟩ := h p (by simp)
    obtain ⟨info, hi⟩ := Option.isSome_iff_exists.1 h1
    obtain ⟨t, ht⟩ := Option.isSome_iff_exists.1 h2
    by_cases ha : info.any (fun i => decide (i.idx = b))
    · refine Or.inr ⟨p, by simp, info, t, hi, ht, ?_, ?_⟩
      · simp only [search, hi, ht, if_pos ha]
      · obtain ⟨i, hi1, hi2⟩ := List.any_eq_true.1 ha
        simp only [decide_eq_true_eq] at hi2
        exact ⟨_, List.mem_map.2 ⟨i, hi1, by rw [hi2]⟩⟩
    · have hno : ∀ rows, (b, rows) ∉ fileEntries fs p := by
        intro rows hm
        simp only [fileEntries, hi, ht] at hm
        obtain ⟨i, hi1, hi2⟩ := List.mem_map.1 hm
        exact ha (List.any_eq_true.2 ⟨i, hi1, by simpa using (Prod.mk.inj hi2).1⟩)
      have es : search fs b (p :: ps) = search fs b ps := by
        simp only [search, hi]; rw [if_neg ha]
      rcases ih fun q hq => h q (List.mem_cons_of_mem _ hq) with ⟨e, hq⟩ | ⟨q, hq, r⟩
      · refine Or.inl ⟨es.trans e, fun q hq' => ?_⟩
        rcases List.mem_cons.1 hq' with rfl | hq'
        · exact hno
        · exact hq q hq'
      · rw [es]
        exact Or.inr ⟨q, List.mem_cons_of_mem _ hq, r⟩

theorem mem_findChunks {ls : List Path} {dt : DT} {p : Path} : p ∈ findChunks ls dt ↔ p ∈ ls ∧ p.dt = dt := by
  unfold findChunks
  rw [(List.mergeSort_perm _ _).mem_iff, List.mem_filter]
  simp

/-- One request over files that do not change. -/
theorem retrieve_fresh (fs : Files R) (hs : ∀ dt, Sound fs dt) (hn : ∀ dt, ((contents fs dt).map Prod.fst).Nodup) (now : ℚ) (dt : DT)
    (b : ℕ) (c : ReadCache R) (hc : Fresh fs c) :
    (retrieve cfg [] fs now dt b c).1 = .ok ((contents fs dt).lookup b) ∧ Fresh fs (retrieve cfg [] fs now dt b c).2 := by
  have hmem : ∀ p ∈ fs.listing, p.dt = dt → ∀ info t, fs.metaFile p = some info → fs.dataFile p = some t → ∀ rows,
      (b, rows) ∈ entries info t → (contents fs dt).lookup b = some rows := by
    intro p hp hd info t hi ht rows hm
    refine lookup_of_mem (hn dt) (List.mem_flatMap.2 ⟨p, List.mem_filter.2 ⟨hp, by simpa using hd⟩, ?_⟩)
    simp only [fileEntries, hi, ht]; exact hm
  set k : Key := (dt, chunkId cfg b) with hk
  have hcT : Fresh fs (touch k now c) := by
    intro x hx
    obtain ⟨e, h1, h2, h3⟩ := touch_mem hx
    obtain ⟨p, hp, hd, e1, e2⟩ := hc _ h1
    exact ⟨p, hp, hd, by rw [h3]; exact e1, by rw [h2]; exact e2⟩
  unfold retrieve
  simp only [PyDict.get?, Option.bind_none, ← hk]
  split
  · rename_i rows hr
    obtain ⟨e, he, hl⟩ := Option.bind_eq_some_iff.1 hr
    obtain ⟨p, hp, hd, e1, e2⟩ := hcT _ (PyDict.mem_of_get? he)
    rw [loadSlice_lookup] at hl
    exact ⟨by rw [hmem p hp hd _ _ e1 e2 rows (mem_of_lookup hl)], hcT⟩
  · rcases search_spec fs b (findChunks fs.listing dt) (by
      intro p hp
      obtain ⟨h1, h2⟩ := mem_findChunks.1 hp
      obtain ⟨info, t, h3, h4, -⟩ := hs dt p h1 h2
      simp [h3, h4]) with ⟨e, hno⟩ | ⟨p, hp, info, t, hi, ht, e, rows, hm⟩
    · rw [e]
      refine ⟨?_, hcT⟩
      simp only
      rw [lookup_none]
      intro rows hm
      obtain ⟨p, hp, hm⟩ := List.mem_flatMap.1 hm
      rw [List.mem_filter] at hp
      exact hno p (mem_findChunks.2 ⟨hp.1, by simpa using hp.2⟩) rows hm
    · rw [e]
      obtain ⟨h1, h2⟩ := mem_findChunks.1 hp
      have hnd : ((entries info t).map Prod.fst).Nodup := by
        obtain ⟨info', t', h3, h4, h5⟩ := hs dt p h1 h2
        rw [hi] at h3; rw [ht] at h4
        cases h3; cases h4
        have : (entries info t).map Prod.fst = info.map Info.idx := by simp [entries]
        rw [this]; exact h5.nd
      refine ⟨?_, ?_⟩
      · simp only
        rw [loadSlice_lookup, lookup_of_mem hnd hm, hmem p h1 h2 _ _ hi ht rows hm]
      · intro x hx
        rcases set_mem (evict_mem hx) with rfl | hx
        · exact ⟨p, h1, h2, hi, ht⟩
        · exact hcT x hx

/-- **C130** (coherence). Over files that do not change, are readable and list every batch at most once, every request of every
sequence, at whatever times and with whatever entries evicted meanwhile, returns the rows of the batch, or empty tensors for a batch
that no file lists. -/
theorem C130_coherent (fs : Files R) (hs : ∀ dt, Sound fs dt) (hn : ∀ dt, ((contents fs dt).map Prod.fst).Nodup)
    (qs : List (Req R)) (hq : ∀ q ∈ qs, q.bufs = [] ∧ q.fs = fs) :
    (retrieveAll cfg [] qs).1 = qs.map fun q => .ok ((contents fs q.dt).lookup q.b) := by
  have key : ∀ (qs : List (Req R)) (c : ReadCache R), (∀ q ∈ qs, q.bufs = [] ∧ q.fs = fs) → Fresh fs c →
      (retrieveAll cfg c qs).1 = qs.map fun q => .ok ((contents fs q.dt).lookup q.b) := by
    intro qs
    induction qs with
    | nil => intro c _ _; rfl
    | cons q qs ih =>
      intro c h hc
      obtain ⟨h1, h2⟩ := h q (by simp)
      obtain ⟨e1, e2⟩ := retrieve_fresh (cfg := cfg) fs hs hn q.now q.dt q.b c hc
      simp only [retrieveAll, List.map_cons, h1, h2]
      rw [e1, ih _ (fun q hq => h q (List.mem_cons_of_mem _ hq)) e2]
  exact key qs [] hq (by intro x hx; cases hx)

/-- **C130** (round trip). Take any schedule of a new manager over an empty directory that keeps to the order of calls of `C96_disciplined`.
After `finalize_batch_range` returned, every sequence of requests returns for each batch the rows stored for it, and empty tensors for
batches that were not stored. -/
theorem C130_round_trip (acts : List (Act R)) {st st' : St R}
    (hex : exec cfg (St.init (fun _ => none) (fun _ => none)) acts = some st) (hd : Disciplined st.ev)
    (ho : OneRound st.ev) (hr : Returns cfg st st') (ls : List Path) (hls : ls.Nodup)
    (hall : ∀ p, p ∈ ls ↔ (st'.metaFile p).isSome) (qs : List (Req R))
    (hq : ∀ q ∈ qs, q.bufs = st'.buffers ∧ q.fs = ⟨st'.dataFile, st'.metaFile, ls⟩) :
    (retrieveAll cfg [] qs).1 = qs.map fun q => .ok ((storedOf q.dt st.ev).lookup q.b) := by
  obtain ⟨g1, g2⟩ := good_init (cfg := cfg) (fun _ => (none : Option (List R))) (fun _ => none)
  obtain ⟨f1, f2⟩ := flushHas_exec hex hd (k_init _ _) trivial g1 g2 trivial
  have hon := once_of hd f2 f1 ho
  have hfiles := fun dt => C96_files acts hex hon hr ls hls hall dt
  have hbuf : st'.buffers = [] := by
    have x0 : GoodX cfg (St.init (fun _ => (none : Option (List R))) fun _ => none) := Ex.init
    obtain ⟨-, -, pc, -⟩ := goodX_exec x0 g1 g2 (by intro k b rows h; cases h) hex hon (by intro k h; cases h)
    obtain ⟨h1, -, rfl⟩ := returns_iff hr
    cases hb : st.buffers with
    | nil => rfl
    | cons x l =>
      have := pc (.flushAll []) (by rw [h1]; rfl) x.1 (by rw [hb]; simp [PyDict.keys])
      cases this
  have hn : ∀ dt, ((contents (⟨st'.dataFile, st'.metaFile, ls⟩ : Files R) dt).map Prod.fst).Nodup := fun dt =>
    (((hfiles dt).2.1.map Prod.fst).nodup_iff).2 (hfiles dt).2.2
  rw [C130_coherent ⟨st'.dataFile, st'.metaFile, ls⟩ (fun dt => (hfiles dt).1) hn qs (fun q h => ⟨(hq q h).1.trans hbuf, (hq q h).2⟩)]
  refine List.map_congr_left fun q _ => ?_
  congr 1
  cases h : (storedOf q.dt st.ev).lookup q.b with
  | some rows => exact lookup_of_mem (hn q.dt) (((hfiles q.dt).2.1.mem_iff).2 (mem_of_lookup h))
  | none =>
    refine lookup_none fun rows hm => ?_
    have := lookup_of_mem (hfiles q.dt).2.2 (((hfiles q.dt).2.1.mem_iff).1 hm)
    rw [h] at this; cases this

theorem keys_touch (k : Key) (now : ℚ) (c : ReadCache R) : PyDict.keys (touch k now c) = PyDict.keys c := by
  unfold touch
  split
  · rfl
  · rename_i e he
    rw [PyDict.keys_set, if_pos]
    rw [← PyDict.get?_isSome, he]; rfl

theorem oldest_mem {c : ReadCache R} {x : Key × ℚ} (h : oldest c = some x) : x.1 ∈ PyDict.keys c := by
  induction c generalizing x with
  | nil => cases h
  | cons p t ih =>
    obtain ⟨k, e⟩ := p
    unfold oldest at h
    cases ho : oldest t with
    | none => rw [ho] at h; cases h; simp [PyDict.keys]
    | some y =>
      rw [ho] at h
      simp only at h
      have hm := ih ho
      split at h
      · cases h; exact List.mem_cons_of_mem _ hm
      · cases h; simp [PyDict.keys]

theorem oldest_isSome {c : ReadCache R} (h : c ≠ []) : ∃ x, oldest c = some x := by
  cases c with
  | nil => exact absurd rfl h
  | cons p t =>
    unfold oldest
    cases oldest t with
    | none => exact ⟨_, rfl⟩
    | some y => simp only; split <;> exact ⟨_, rfl⟩

theorem evict_nodup {c : ReadCache R} (h : (PyDict.keys c).Nodup) : (PyDict.keys (evict c)).Nodup := by
  unfold evict
  split
  · split
    · exact h
    · exact PyDict.nodup_erase h _
  · exact h

theorem evict_length {c : ReadCache R} (hc : c.length ≤ 5) : (evict c).length ≤ 4 := by
  unfold evict
  split
  · rename_i h4
    obtain ⟨x, hx⟩ := oldest_isSome (c := c) (by rintro rfl; simp at h4)
    rw [hx]
    have hm := oldest_mem hx
    obtain ⟨y, hy, hyx⟩ := List.mem_map.1 hm
    have : (PyDict.erase x.1 c).length < c.length := by
      unfold PyDict.erase
      exact List.length_filter_lt_length_iff_exists.2 ⟨y, hy, by simp [hyx]⟩
    simp only
    omega
  · omega

theorem length_set_le {κ α : Type} [DecidableEq κ] (k : κ) (v : α) (m : List (κ × α)) : (PyDict.set k v m).length ≤ m.length + 1 := by
  induction m with
  | nil => simp [PyDict.set]
  | cons p t ih =>
    obtain ⟨k', v'⟩ := p
    unfold PyDict.set
    split
    · simp
    · simp only [List.length_cons]; omega

theorem retrieve_cache (bufs : List (Key × Buffer R)) (fs : Files R) (now : ℚ) (dt : DT) (b : ℕ) (c : ReadCache R) :
    (retrieve cfg bufs fs now dt b c).2 = c ∨ (retrieve cfg bufs fs now dt b c).2 = touch (dt, chunkId cfg b) now c ∨
    ∃ t info, (retrieve cfg bufs fs now dt b c).2 =
        evict (PyDict.set (dt, chunkId cfg b) ⟨t, info, now⟩ (touch (dt, chunkId cfg b) now c)) ∧
      (PyDict.get? (touch (dt, chunkId cfg b) now c) (dt, chunkId cfg b)).bind (fun e => loadSlice e.info e.tensor b) = none := by
  unfold retrieve
  simp only
  split
  · exact Or.inl rfl
  · split
    · exact Or.inr (Or.inl rfl)
    · rename_i hno
      split
      · exact Or.inr (Or.inl rfl)
      · exact Or.inr (Or.inl rfl)
      · rename_i t info _
        exact Or.inr (Or.inr ⟨t, info, rfl, hno⟩)

/-- **C130** (size). No history of requests, whatever the files do meanwhile, leaves more than four chunks in memory. -/
theorem C130_bound (qs : List (Req R)) : (retrieveAll cfg [] qs).2.length ≤ 4 := by
  have key : ∀ (qs : List (Req R)) (c : ReadCache R), c.length ≤ 4 → (retrieveAll cfg c qs).2.length ≤ 4 := by
    intro qs
    induction qs with
    | nil => intro c h; exact h
    | cons q qs ih =>
      intro c h
      refine ih _ ?_
      have ht : ∀ k now, (touch k now c).length = c.length := by
        intro k now
        have := congrArg List.length (keys_touch k now c)
        simpa [PyDict.keys] using this
      rcases retrieve_cache (cfg := cfg) q.bufs q.fs q.now q.dt q.b c with e | e | ⟨t, info, e, -⟩
      · rw [e]; exact h
      · rw [e, ht]; exact h
      · rw [e]
        refine evict_length ((length_set_le _ _ _).trans ?_)
        rw [ht]; omega
  exact key qs [] (by simp)

/-- The chunk `k` is in the read cache with this content. -/
def Holds (c : ReadCache R) (k : Key) (t : List R) (info : List Info) : Prop :=
  ∃ time, PyDict.get? c k = some ⟨t, info, time⟩

theorem holds_touch {c : ReadCache R} {k k' : Key} {t : List R} {info : List Info} {now : ℚ} (h : Holds c k t info) :
    Holds (touch k' now c) k t info := by
  obtain ⟨time, h⟩ := h
  unfold touch
  split
  · exact ⟨time, h⟩
  · rename_i e he
    by_cases hk : k = k'
    · subst hk
      rw [h] at he; cases he
      exact ⟨now, by rw [PyDict.get?_set, if_pos rfl]⟩
    · exact ⟨time, by rw [PyDict.get?_set, if_neg hk]; exact h⟩

/-- **C130** (staleness). Once a chunk has been read, requests for the batches it listed then return what was read then, whatever has
happened to the files since: stored again, replaced or deleted. This lasts at least as long as the requests concern no more than four
chunks altogether and, of this chunk, only batches that it listed. -/
theorem C130_stale (c : ReadCache R) (hn : (PyDict.keys c).Nodup) (k : Key) (t : List R) (info : List Info) (hc : Holds c k t info)
    (ks : List Key) (hks : ks.length ≤ 4) (hck : ∀ x ∈ PyDict.keys c, x ∈ ks) (qs : List (Req R))
    (hq : ∀ q ∈ qs, (q.dt, q.b / cfg.chunkSize) ∈ ks ∧
      ((q.dt, q.b / cfg.chunkSize) = k → q.bufs = [] ∧ q.b ∈ info.map Info.idx)) :
    ∀ (i : ℕ) (q : Req R), qs[i]? = some q → (q.dt, q.b / cfg.chunkSize) = k →
      ∃ j ∈ info, j.idx = q.b ∧ (retrieveAll cfg c qs).1[i]? = some (.ok (some ((t.drop j.start).take (j.stop - j.start)))) := by
  have served : ∀ b, b ∈ info.map Info.idx → ∃ j ∈ info, j.idx = b ∧
      loadSlice info t b = some ((t.drop j.start).take (j.stop - j.start)) := by
    intro b hb
    obtain ⟨j, h1, h2⟩ := List.mem_map.1 hb
    unfold loadSlice
    cases hf : info.find? fun i => decide (i.idx = b) with
    | none => exact absurd (List.find?_eq_none.1 hf j h1) (by simpa using h2)
    | some j' => exact ⟨j', List.mem_of_find?_eq_some hf, by simpa using List.find?_some hf, rfl⟩
  induction qs generalizing c with
  | nil => intro i q h; simp at h
  | cons q0 qs ih =>
    obtain ⟨h1, h2⟩ := hq q0 (by simp)
    -- the request of this chunk is served from memory
    have hserve : (q0.dt, q0.b / cfg.chunkSize) = k → retrieve cfg q0.bufs q0.fs q0.now q0.dt q0.b c =
        (.ok (loadSlice info t q0.b), touch k q0.now c) := by
      intro e
      obtain ⟨e1, e2⟩ := h2 e
      obtain ⟨time, hT⟩ := holds_touch (k' := k) (now := q0.now) hc
      have e' : (q0.dt, chunkId cfg q0.b) = k := e
      obtain ⟨j, -, -, hj⟩ := served _ e2
      unfold retrieve
      simp only [e1, PyDict.get?, Option.bind_none, e', hT, Option.bind_some, hj]
    -- the invariant after the request
    have hlen : ∀ c' : ReadCache R, (PyDict.keys c').Nodup → (∀ x ∈ PyDict.keys c', x ∈ ks) → c'.length ≤ 4 := by
      intro c' n1 n2
      have := (n1.subperm n2).length_le
      unfold PyDict.keys at this
      rw [List.length_map] at this
      omega
    have hinv : Holds (retrieve cfg q0.bufs q0.fs q0.now q0.dt q0.b c).2 k t info ∧
        (PyDict.keys (retrieve cfg q0.bufs q0.fs q0.now q0.dt q0.b c).2).Nodup ∧
        ∀ x ∈ PyDict.keys (retrieve cfg q0.bufs q0.fs q0.now q0.dt q0.b c).2, x ∈ ks := by
      by_cases e : (q0.dt, q0.b / cfg.chunkSize) = k
      · rw [hserve e]
        simp only [keys_touch]
        exact ⟨holds_touch hc, hn, hck⟩
      · rcases retrieve_cache (cfg := cfg) q0.bufs q0.fs q0.now q0.dt q0.b c with r | r | ⟨t', info', r, -⟩
        · rw [r]; exact ⟨hc, hn, hck⟩
        · rw [r, keys_touch]; exact ⟨holds_touch hc, hn, hck⟩
        · have k1 : (PyDict.keys (PyDict.set (q0.dt, chunkId cfg q0.b) (⟨t', info', q0.now⟩ : Cached R)
              (touch (q0.dt, chunkId cfg q0.b) q0.now c))).Nodup := PyDict.nodup_set (by rw [keys_touch]; exact hn) _ _
          have k2 : ∀ x ∈ PyDict.keys (PyDict.set (q0.dt, chunkId cfg q0.b) (⟨t', info', q0.now⟩ : Cached R)
              (touch (q0.dt, chunkId cfg q0.b) q0.now c)), x ∈ ks := by
            intro x hx
            rw [PyDict.mem_keys_set, keys_touch] at hx
            rcases hx with rfl | hx
            · exact h1
            · exact hck x hx
          have hno : evict (PyDict.set (q0.dt, chunkId cfg q0.b) (⟨t', info', q0.now⟩ : Cached R)
              (touch (q0.dt, chunkId cfg q0.b) q0.now c)) = _ := if_neg (by have := hlen _ k1 k2; omega)
          rw [r, hno]
          refine ⟨?_, k1, k2⟩
          obtain ⟨time, hT⟩ := holds_touch (k' := (q0.dt, chunkId cfg q0.b)) (now := q0.now) hc
          exact ⟨time, by rw [PyDict.get?_set, if_neg (fun h => e h.symm)]; exact hT⟩
    intro i q hi hk
    cases i with
    | zero =>
      simp only [List.getElem?_cons_zero, Option.some.injEq] at hi
      subst hi
      simp only [retrieveAll, List.getElem?_cons_zero]
      obtain ⟨j, j1, j2, j3⟩ := served _ (h2 hk).2
      exact ⟨j, j1, j2, by rw [hserve hk, j3]⟩
    | succ i =>
      simp only [List.getElem?_cons_succ] at hi
      simp only [retrieveAll, List.getElem?_cons_succ]
      exact ih _ hinv.2.1 hinv.1 hinv.2.2 (fun q hq' => hq q (List.mem_cons_of_mem _ hq')) i q hi hk

/-! ### Which chunks stay in memory -/

theorem oldest_min {c : ReadCache R} {x : Key × ℚ} (h : oldest c = some x) : (∃ e, (x.1, e) ∈ c ∧ e.time = x.2) ∧ ∀ p ∈ c, x.2 ≤ p.2.time := by
  induction c generalizing x with
  | nil => cases h
  | cons p t ih =>
    obtain ⟨k, e⟩ := p
    unfold oldest at h
    cases ho : oldest t with
    | none =>
      rw [ho] at h
      cases h
      have : t = [] := by
        by_contra hne
        obtain ⟨x, hx⟩ := oldest_isSome hne
        rw [ho] at hx
        cases hx
      subst this
      simp
    | some y =>
      rw [ho] at h
      simp only at h
      obtain ⟨⟨e', h1, h2⟩, h3⟩ := ih ho
      split at h
      · rename_i hlt
        cases h
        refine ⟨⟨e', List.mem_cons_of_mem _ h1, h2⟩, ?_⟩
        intro p hp
        rcases List.mem_cons.1 hp with rfl | hp
        · exact hlt.le
        · exact h3 p hp
      · rename_i hlt
        cases h
        refine ⟨⟨e, by simp, rfl⟩, ?_⟩
        intro p hp
        rcases List.mem_cons.1 hp with rfl | hp
        · exact le_rfl
        · exact (not_lt.1 hlt).trans (h3 p hp)

/-- The access time of a chunk. -/
def timeOf (c : ReadCache R) (k : Key) : ℚ := ((PyDict.get? c k).map (·.time)).getD 0

/-- The chunks in memory are those of `M`, the last accessed ones first, all before the time `now`. -/
structure Recent (c : ReadCache R) (M : List Key) (now : ℚ) : Prop where
  nodup : (PyDict.keys c).Nodup
  mem : ∀ k, k ∈ PyDict.keys c ↔ k ∈ M
  nd : M.Nodup
  len : M.length ≤ 4
  desc : M.Pairwise fun a b => timeOf c b < timeOf c a
  past : ∀ k ∈ M, timeOf c k < now

theorem timeOf_set (c : ReadCache R) (k k' : Key) (e : Cached R) : timeOf (PyDict.set k e c) k' = if k' = k then e.time else timeOf c k' := by
  unfold timeOf
  rw [PyDict.get?_set]
  split <;> rfl

theorem mem_timeOf {c : ReadCache R} (hn : (PyDict.keys c).Nodup) {k : Key} {e : Cached R} (h : (k, e) ∈ c) : timeOf c k = e.time := by
  unfold timeOf
  rw [PyDict.get?_of_mem hn h]
  rfl

theorem Recent.length {c : ReadCache R} {M : List Key} {now : ℚ} (h : Recent c M now) : c.length = M.length := by
  have := ((List.perm_ext_iff_of_nodup h.nodup h.nd).2 h.mem).length_eq
  unfold PyDict.keys at this
  rwa [List.length_map] at this

/-- After an entry is written at the time `now`. -/
theorem recent_set {c : ReadCache R} {M : List Key} {now now' : ℚ} (h : Recent c M now) (hnow : now < now') (k : Key) (e : Cached R)
    (he : e.time = now) (hM : k ∈ M ∨ M.length < 4) : Recent (PyDict.set k e c) (k :: M.erase k) now' := by
  refine ⟨PyDict.nodup_set h.nodup _ _, ?_, ?_, ?_, ?_, ?_⟩
  · intro x
    rw [PyDict.mem_keys_set, h.mem, List.mem_cons, h.nd.mem_erase_iff]
    constructor
    · rintro (rfl | hx)
      · exact Or.inl rfl
      · by_cases hxk : x = k
        · exact Or.inl hxk
        · exact Or.inr ⟨hxk, hx⟩
    · rintro (rfl | ⟨-, hx⟩)
      · exact Or.inl rfl
      · exact Or.inr hx
  · exact List.nodup_cons.2 ⟨fun hk => (h.nd.mem_erase_iff.1 hk).1 rfl, h.nd.erase _⟩
  · rw [List.length_cons]
    by_cases hk : k ∈ M
    · rw [List.length_erase_of_mem hk]
      have := List.length_pos_of_mem hk
      have := h.len
      omega
    · rw [List.erase_of_not_mem hk]
      rcases hM with hM | hM
      · exact absurd hM hk
      · omega
  · rw [List.pairwise_cons]
    constructor
    · intro b hb
      obtain ⟨h1, h2⟩ := h.nd.mem_erase_iff.1 hb
      rw [timeOf_set, timeOf_set, if_neg h1, if_pos rfl, he]
      exact h.past b h2
    · refine (h.desc.sublist (List.erase_sublist (a := k))).imp_of_mem ?_
      intro a b ha hb hab
      rw [timeOf_set, timeOf_set, if_neg (h.nd.mem_erase_iff.1 ha).1, if_neg (h.nd.mem_erase_iff.1 hb).1]
      exact hab
  · intro x hx
    rw [timeOf_set]
    split
    · rw [he]; exact hnow
    · rename_i hxk
      rcases List.mem_cons.1 hx with rfl | hx
      · exact absurd rfl hxk
      · exact (h.past x (List.mem_of_mem_erase hx)).trans hnow

/-- After a fifth chunk came in. -/
theorem recent_evict {c : ReadCache R} {M : List Key} {now now' : ℚ} (h : Recent c M now) (hnow : now < now') (k : Key) (e : Cached R)
    (he : e.time = now) (hk : k ∉ M) (h4 : M.length = 4) : Recent (evict (PyDict.set k e c)) (k :: M.take 3) now' := by
  have hn := PyDict.nodup_set h.nodup k e
  have hkeys : ∀ x, x ∈ PyDict.keys (PyDict.set k e c) ↔ x = k ∨ x ∈ M := by
    intro x
    rw [PyDict.mem_keys_set, h.mem]
  have hlen : (PyDict.set k e c).length = 5 := by
    have := ((List.perm_ext_iff_of_nodup hn (List.nodup_cons.2 ⟨hk, h.nd⟩)).2 (by
      intro x
      rw [hkeys, List.mem_cons])).length_eq
    unfold PyDict.keys at this
    rw [List.length_map, List.length_cons, h4] at this
    exact this
  obtain ⟨l, hl⟩ : ∃ l, M = M.take 3 ++ [l] := by
    refine ⟨M[3], ?_⟩
    conv_lhs => rw [← List.take_append_drop 3 M]
    rw [List.drop_eq_getElem_cons (by omega), List.drop_of_length_le (by omega)]
  obtain ⟨x, hx⟩ := oldest_isSome (c := PyDict.set k e c) (by intro h0; rw [h0] at hlen; simp at hlen)
  obtain ⟨⟨ex, hex1, hex2⟩, hmin⟩ := oldest_min hx
  have ht : ∀ y, timeOf (PyDict.set k e c) y = if y = k then now else timeOf c y := fun y => by rw [timeOf_set, he]
  have hminT : ∀ y, y = k ∨ y ∈ M → x.2 ≤ timeOf (PyDict.set k e c) y := by
    intro y hy
    obtain ⟨p, hp, rfl⟩ := List.mem_map.1 ((hkeys y).2 hy)
    rw [mem_timeOf hn (show (p.1, p.2) ∈ _ from hp)]
    exact hmin p hp
  have hxT : timeOf (PyDict.set k e c) x.1 = x.2 := by rw [mem_timeOf hn hex1, hex2]
  have hlM : l ∈ M := by rw [hl]; simp
  have hlk : l ≠ k := fun h0 => hk (h0 ▸ hlM)
  have hxl : x.1 = l := by
    have h1 := hminT l (Or.inr hlM)
    rw [ht, if_neg hlk] at h1
    rcases (hkeys x.1).1 (oldest_mem hx) with hx1 | hx1
    · rw [ht, if_pos hx1] at hxT
      have := h.past l hlM
      rw [← hxT] at h1
      exact absurd h1 (not_le.2 this)
    · by_contra hne
      have hx3 : x.1 ∈ M.take 3 := by
        rw [hl] at hx1
        rcases List.mem_append.1 hx1 with h2 | h2
        · exact h2
        · exact absurd (List.mem_singleton.1 h2) hne
      have hd := h.desc
      rw [hl, List.pairwise_append] at hd
      have := hd.2.2 x.1 hx3 l (by simp)
      rw [ht, if_neg (fun h0 : x.1 = k => hk (h0 ▸ hx1))] at hxT
      rw [← hxT] at h1
      exact absurd h1 (not_le.2 this)
  have hev : evict (PyDict.set k e c) = PyDict.erase l (PyDict.set k e c) := by
    unfold evict
    rw [if_pos (by omega), hx, ← hxl]
  have hlt : l ∉ M.take 3 := by
    have := h.nd
    rw [hl] at this
    intro hm
    exact (List.disjoint_of_nodup_append this) hm (by simp)
  have htE : ∀ y, y ≠ l → timeOf (PyDict.erase l (PyDict.set k e c)) y = if y = k then now else timeOf c y := by
    intro y hy
    rw [← ht]
    unfold timeOf
    rw [PyDict.get?_erase, if_neg hy]
  have hsub : ∀ y ∈ M.take 3, y ∈ M ∧ y ≠ l ∧ y ≠ k := by
    intro y hy
    have hyM := List.mem_of_mem_take hy
    exact ⟨hyM, fun h0 => hlt (h0 ▸ hy), fun h0 => hk (h0 ▸ hyM)⟩
  rw [hev]
  refine ⟨PyDict.nodup_erase hn _, ?_, ?_, ?_, ?_, ?_⟩
  · intro y
    rw [PyDict.mem_keys_erase, hkeys, List.mem_cons]
    constructor
    · rintro ⟨h1, h2 | h2⟩
      · first | exact Or.inl h1 | exact Or.inl h2
      · rw [hl] at h2
        rcases List.mem_append.1 h2 with h3 | h3
        · exact Or.inr h3
        · exact absurd (List.mem_singleton.1 h3) h1
    · rintro (rfl | h1)
      · exact ⟨fun h0 => hlk h0.symm, Or.inl rfl⟩
      · exact ⟨(hsub y h1).2.1, Or.inr (hsub y h1).1⟩
  · exact List.nodup_cons.2 ⟨fun h0 => (hsub k h0).2.2 rfl, h.nd.sublist (List.take_sublist _ _)⟩
  · simp [h4]
  · rw [List.pairwise_cons]
    constructor
    · intro b hb
      obtain ⟨h1, h2, h3⟩ := hsub b hb
      rw [htE b h2, htE k (fun h0 => hlk h0.symm), if_neg h3, if_pos rfl]
      exact h.past b h1
    · refine (h.desc.sublist (List.take_sublist _ _)).imp_of_mem ?_
      intro a b ha hb hab
      obtain ⟨-, a2, a3⟩ := hsub a ha
      obtain ⟨-, b2, b3⟩ := hsub b hb
      rw [htE a a2, htE b b2, if_neg a3, if_neg b3]
      exact hab
  · intro y hy
    rcases List.mem_cons.1 hy with rfl | hy
    · rw [htE y (fun h0 => hlk h0.symm), if_pos rfl]
      exact hnow
    · obtain ⟨h1, h2, h3⟩ := hsub y hy
      rw [htE y h2, if_neg h3]
      exact (h.past y h1).trans hnow

theorem set_set {κ α : Type} [DecidableEq κ] (k : κ) (v w : α) (m : List (κ × α)) : PyDict.set k v (PyDict.set k w m) = PyDict.set k v m := by
  induction m with
  | nil => simp [PyDict.set]
  | cons p m ih =>
    obtain ⟨k', x⟩ := p
    by_cases hk : k' = k
    · simp [PyDict.set, hk]
    · simp [PyDict.set, hk, ih]

/-- After a request that found its batch. -/
theorem recent_retrieve {c : ReadCache R} {M : List Key} (q : Req R) {now' : ℚ} (h : Recent c M q.now) (hnow : q.now < now') (hb : q.bufs = [])
    {rows : List R} (hr : (retrieve cfg q.bufs q.fs q.now q.dt q.b c).1 = .ok (some rows)) :
    Recent (retrieve cfg q.bufs q.fs q.now q.dt q.b c).2
      (((q.dt, chunkId cfg q.b) :: M.erase (q.dt, chunkId cfg q.b)).take 4) now' := by
  generalize hk : (q.dt, chunkId cfg q.b) = k
  have htouch : ∀ e, PyDict.get? c k = some e → touch k q.now c = PyDict.set k ⟨e.tensor, e.info, q.now⟩ c := by
    intro e he
    unfold touch
    rw [he]
  have hin : ∀ e, PyDict.get? c k = some e → k ∈ M := by
    intro e he
    rw [← h.mem, ← PyDict.get?_isSome, he]
    rfl
  have hlen : k ∈ M → (k :: M.erase k).take 4 = k :: M.erase k := by
    intro hm
    apply List.take_of_length_le
    rw [List.length_cons, List.length_erase_of_mem hm]
    have := List.length_pos_of_mem hm
    have := h.len
    omega
  have hset : ∀ e : Cached R, e.time = q.now → Recent (evict (PyDict.set k e c)) ((k :: M.erase k).take 4) now' := by
    intro e he
    by_cases hm : k ∈ M
    · rw [hlen hm]
      have h1 := recent_set h hnow k e he (Or.inl hm)
      have h2 := h1.length
      have h3 := h1.len
      unfold evict
      rw [if_neg (by omega)]
      exact h1
    · by_cases h4 : M.length < 4
      · have h1 := recent_set h hnow k e he (Or.inr h4)
        have h2 := h1.length
        have h3 := h1.len
        rw [List.take_of_length_le h3]
        unfold evict
        rw [if_neg (by omega)]
        exact h1
      · rw [List.erase_of_not_mem hm]
        exact recent_evict h hnow k e he hm (by have := h.len; omega)
  have hss : ∀ (e e' : Cached R), PyDict.set k e (PyDict.set k e' c) = PyDict.set k e c := by
    intro e e'
    exact set_set k e e' c
  revert hr
  unfold retrieve
  simp only [hb, PyDict.get?, Option.bind_none, hk]
  intro hr
  cases hg : PyDict.get? c k with
  | none =>
    have htn : touch k q.now c = c := by
      unfold touch
      rw [hg]
    rw [htn, hg] at hr ⊢
    simp only [Option.bind_none] at hr ⊢
    split at hr
    · cases hr
    · cases hr
    · rename_i hs
      exact hset _ rfl
  | some e =>
    rw [htouch e hg] at hr ⊢
    split at hr
    · rw [hlen (hin e hg)]
      exact recent_set h hnow k _ rfl (Or.inl (hin e hg))
    · split at hr
      · cases hr
      · cases hr
      · simp only [hss]
        exact hset _ rfl

theorem dedup_concat (l : List Key) (a : Key) : (l ++ [a]).dedup = l.dedup.erase a ++ [a] := by
  induction l with
  | nil => simp
  | cons b l ih =>
    rw [List.cons_append]
    by_cases hb : b ∈ l
    · rw [List.dedup_cons_of_mem (List.mem_append_left _ hb), List.dedup_cons_of_mem hb, ih]
    · rw [List.dedup_cons_of_notMem hb]
      by_cases hba : b = a
      · subst hba
        rw [List.dedup_cons_of_mem (by simp), ih, List.erase_cons_head, List.erase_of_not_mem (by rwa [List.mem_dedup])]
      · rw [List.dedup_cons_of_notMem (by simp [hb, hba]), ih, List.erase_cons_tail (by simpa using hba)]
        rfl

theorem take_erase {α : Type} [BEq α] [LawfulBEq α] (n : ℕ) (l : List α) (a : α) : ((l.take (n + 1)).erase a).take n = (l.erase a).take n := by
  induction l generalizing n with
  | nil => simp
  | cons b l ih =>
    rw [List.take_succ_cons]
    rcases em (b = a) with hb | hb
    · subst hb
      rw [List.erase_cons_head, List.erase_cons_head, List.take_take, min_self]
    · rw [List.erase_cons_tail (by simpa using hb), List.erase_cons_tail (by simpa using hb)]
      cases n with
      | zero => simp
      | succ n => rw [List.take_succ_cons, List.take_succ_cons, ih]

/-- **C130** (which chunks stay). Let all requests find their batch, outside the buffers, and the clock move forward. Then the chunks in
memory are the four that were requested last. -/
theorem C130_lru (qs : List (Req R)) (hq : ∀ q ∈ qs, q.bufs = []) (hclock : qs.Pairwise fun q q' => q.now < q'.now)
    (hfound : ∀ r ∈ (retrieveAll cfg [] qs).1, ∃ rows, r = .ok (some rows)) (k : Key) :
    (∃ t info, Holds (retrieveAll cfg [] qs).2 k t info) ↔
      k ∈ (qs.map fun q => (q.dt, q.b / cfg.chunkSize)).dedup.reverse.take 4 := by
  have key : ∀ (qs : List (Req R)) (c : ReadCache R) (past : List Key) (τ : ℚ), (∀ q ∈ qs, q.bufs = []) →
      qs.Pairwise (fun q q' => q.now < q'.now) → (∀ q ∈ qs, τ < q.now) → (∀ τ' > τ, Recent c (past.dedup.reverse.take 4) τ') →
      (∀ r ∈ (retrieveAll cfg c qs).1, ∃ rows, r = .ok (some rows)) →
      ∃ τ1, ∀ τ' > τ1, Recent (retrieveAll cfg c qs).2 ((past ++ qs.map fun q => (q.dt, q.b / cfg.chunkSize)).dedup.reverse.take 4) τ' := by
    intro qs
    induction qs with
    | nil =>
      intro c past τ _ _ _ h _
      exact ⟨τ, by simpa [retrieveAll] using h⟩
    | cons q qs ih =>
      intro c past τ hq hp hτ h hf
      obtain ⟨rows, hrow⟩ := hf (retrieve cfg q.bufs q.fs q.now q.dt q.b c).1 (by simp [retrieveAll])
      have hstep := fun τ' (hτ' : τ' > q.now) => recent_retrieve (cfg := cfg) q (h q.now (hτ q (by simp))) hτ' (hq q (by simp)) hrow
      rw [List.pairwise_cons] at hp
      have hM : ((q.dt, chunkId cfg q.b) :: (past.dedup.reverse.take 4).erase (q.dt, chunkId cfg q.b)).take 4 =
          (past ++ [(q.dt, chunkId cfg q.b)]).dedup.reverse.take 4 := by
        have hnd : past.dedup.Nodup := List.nodup_dedup _
        rw [dedup_concat, List.reverse_append, List.reverse_singleton, List.singleton_append, List.take_succ_cons, List.take_succ_cons,
          take_erase 3, hnd.erase_eq_filter, (List.nodup_reverse.2 hnd).erase_eq_filter, List.filter_reverse]
      rw [hM] at hstep
      obtain ⟨τ1, h1⟩ := ih _ (past ++ [(q.dt, chunkId cfg q.b)]) q.now (fun q hq' => hq q (List.mem_cons_of_mem _ hq')) hp.2 hp.1 hstep
        (fun r hr => hf r (by rw [retrieveAll]; exact List.mem_cons_of_mem _ hr))
      refine ⟨τ1, fun τ' hτ' => ?_⟩
      have := h1 τ' hτ'
      rw [List.append_assoc] at this
      exact this
  have hτ : ∃ τ : ℚ, ∀ q ∈ qs, τ < q.now := by
    cases qs with
    | nil => exact ⟨0, by simp⟩
    | cons q qs =>
      rw [List.pairwise_cons] at hclock
      refine ⟨q.now - 1, fun q' hq' => ?_⟩
      rcases List.mem_cons.1 hq' with rfl | hq'
      · exact sub_one_lt _
      · exact (sub_one_lt _).trans (hclock.1 q' hq')
  obtain ⟨τ, hτ⟩ := hτ
  obtain ⟨τ1, h1⟩ := key qs [] [] τ hq hclock hτ (fun τ' _ => ⟨by simp [PyDict.keys], by simp [PyDict.keys], by simp, by simp, by simp, by simp⟩) hfound
  have h2 := (h1 (τ1 + 1) (lt_add_one _)).mem k
  rw [List.nil_append] at h2
  rw [← h2, ← PyDict.get?_isSome, Option.isSome_iff_exists]
  constructor
  · rintro ⟨t, info, time, h3⟩
    exact ⟨_, h3⟩
  · rintro ⟨e, he⟩
    exact ⟨e.tensor, e.info, e.time, he⟩

/-- **C130** (unreadable files). A request that memory does not answer raises `FileNotFoundError` if a file before the first one that
lists the batch has no metadata, or that one has no data. -/
theorem C130_missing (q : Req R) (c : ReadCache R) (hb : q.bufs = []) (hc : PyDict.get? c (q.dt, q.b / cfg.chunkSize) = none)
    (pre post : List Path) (p : Path) (hls : findChunks q.fs.listing q.dt = pre ++ p :: post)
    (hpre : ∀ r ∈ pre, ∃ info, q.fs.metaFile r = some info ∧ q.b ∉ info.map Info.idx)
    (hp : q.fs.metaFile p = none ∨ ∃ info, q.fs.metaFile p = some info ∧ q.b ∈ info.map Info.idx ∧ q.fs.dataFile p = none) :
    (retrieve cfg q.bufs q.fs q.now q.dt q.b c).1 = .error .fileNotFoundError := by
  have hs : search q.fs q.b (pre ++ p :: post) = .error .fileNotFoundError := by
    clear hls
    induction pre with
    | nil =>
      rw [List.nil_append]
      unfold search
      rcases hp with hp | ⟨info, h1, h2, h3⟩
      · rw [hp]
      · rw [h1]
        simp only
        rw [if_pos, h3]
        obtain ⟨i, hi, hib⟩ := List.mem_map.1 h2
        exact List.any_eq_true.2 ⟨i, hi, by simpa using hib⟩
    | cons r pre ih =>
      obtain ⟨info, h1, h2⟩ := hpre r (by simp)
      rw [List.cons_append]
      unfold search
      rw [h1]
      simp only
      rw [if_neg]
      · exact ih fun r hr => hpre r (List.mem_cons_of_mem _ hr)
      · intro hany
        obtain ⟨i, hi, hib⟩ := List.any_eq_true.1 hany
        exact h2 (List.mem_map.2 ⟨i, hi, by simpa using hib⟩)
  have hg : PyDict.get? c (q.dt, chunkId cfg q.b) = none := hc
  have ht : touch (q.dt, chunkId cfg q.b) q.now c = c := by
    unfold touch
    rw [hg]
  unfold retrieve
  simp only [hb, PyDict.get?, Option.bind_none, ht, hg, hls, hs]

/-- A run that stores the only batch of its range; the writers have not started yet. -/
def pendActs (rows : List R) : List (Act R) := [.callStart 0 1, .callStore .gradients 0 rows, .prod, .prod, .prod]

/-- **C130** (pending writes). A batch that was stored but whose chunk waits for a writer is in no buffer, cache or file: although the store
call has returned, a request returns empty tensors, without an exception. -/
theorem C130_pending (hc : 0 < cfg.chunkSize) (hq : 0 < cfg.queueCap) (rows : List R) (h2 : rows ≠ []) (h3 : rows.length ≤ cfg.maxRows)
    (now : ℚ) :
    ∃ st, exec cfg (St.init (fun _ => none) (fun _ => none)) (pendActs rows) = some st ∧
      Ev.stored (.gradients, 0) 0 rows ∈ st.ev ∧ (∀ e, Ev.raised e ∉ st.ev) ∧ st.pc = .idle ∧ (∀ p, st.metaFile p = none) ∧
      (retrieve cfg st.buffers ⟨st.dataFile, st.metaFile, []⟩ now .gradients 0 []).1 = .ok none := by
  have hm : min cfg.chunkSize 1 = 1 := Nat.min_eq_right hc
  refine ⟨{ buffers := [], pending := [(.gradients, 0)], queue := [⟨(.gradients, 0), rows, [⟨0, 0, rows.length⟩]⟩], busy := [],
            dataFile := fun _ => none, metaFile := fun _ => none, range := some (0, 1), pc := .idle,
            ev := [.flushed (.gradients, 0), .stored (.gradients, 0) 0 rows, .started 0 1] }, ?_, by simp, by simp, rfl, fun _ => rfl, ?_⟩
  · have n4 : ¬ cfg.maxRows < rows.length := by omega
    have n5 : ¬ cfg.chunkSize = 0 := by omega
    simp [exec, pendActs, St.init, step, startRange, store, storeIn, openBuffer, append, beginFlush,
      isComplete, prodStep, chunkId, hm, PyDict.get?, PyDict.set, PyDict.erase, h2, n4, n5, hq]
  · simp [retrieve, PyDict.get?, touch, search, findChunks]

/-- **C130** (left-over files). Let batch 0 be listed by a new file and, with batch 1, by one of an earlier run (`C97_left_over`). Without any
change of the files, reading batches 0, 1 and 0 returns the new rows for batch 0 the first time and the old ones the second. -/
theorem C130_left_over (hc : 2 ≤ cfg.chunkSize) (old0 old1 new : List R) (t1 t2 t3 : ℚ) :
    let p : Path := ⟨.gradients, 0, 0⟩
    let q : Path := ⟨.gradients, 0, 1⟩
    let fs : Files R := ⟨put (put (fun _ => none) q (old0 ++ old1)) p new,
      put (put (fun _ => none) q [⟨0, 0, old0.length⟩, ⟨1, old0.length, old0.length + old1.length⟩]) p [⟨0, 0, new.length⟩], [p, q]⟩
    (retrieveAll cfg [] [⟨t1, .gradients, 0, [], fs⟩, ⟨t2, .gradients, 1, [], fs⟩, ⟨t3, .gradients, 0, [], fs⟩]).1 =
      [.ok (some new), .ok (some old1), .ok (some old0)] := by
  intro p q fs
  have hf : findChunks fs.listing .gradients = [p, q] := by
    have : fs.listing.filter (fun r => decide (r.dt = .gradients)) = [p, q] := rfl
    unfold findChunks
    rw [this]
    exact List.mergeSort_of_pairwise (by simp [p, q])
  have h0 : chunkId cfg 0 = 0 := by simp [chunkId]
  have h1 : chunkId cfg 1 = 0 := Nat.div_eq_of_lt (by omega)
  have mp : fs.metaFile p = some [⟨0, 0, new.length⟩] := by simp [fs, put]
  have dp : fs.dataFile p = some new := by simp [fs, put]
  have mq : fs.metaFile q = some [⟨0, 0, old0.length⟩, ⟨1, old0.length, old0.length + old1.length⟩] := by simp [fs, put, p, q]
  have dq : fs.dataFile q = some (old0 ++ old1) := by simp [fs, put, p, q]
  have s0 : search fs 0 [p, q] = .ok (some (new, [⟨0, 0, new.length⟩])) := by simp [search, mp, dp]
  have s1 : search fs 1 [p, q] = .ok (some (old0 ++ old1, [⟨0, 0, old0.length⟩, ⟨1, old0.length, old0.length + old1.length⟩])) := by
    simp [search, mp, mq, dq]
  simp [retrieveAll, retrieve, PyDict.get?, PyDict.set, touch, h0, h1, hf, s0, s1, loadSlice, evict]

/-- A chunk read once, then written again with other rows: the second request returns the old rows (`C130_stale` with one chunk). -/
example : (retrieveAll exCfg []
    [⟨0, .gradients, 1, [], ⟨fun _ => some [10, 11, 12], fun _ => some [⟨0, 0, 2⟩, ⟨1, 2, 3⟩], [⟨.gradients, 0, 1⟩]⟩⟩,
     ⟨1, .gradients, 0, [], ⟨fun _ => some [20, 21, 22], fun _ => some [⟨0, 0, 2⟩, ⟨1, 2, 3⟩], [⟨.gradients, 0, 1⟩]⟩⟩]).1 =
    [.ok (some [12]), .ok (some [10, 11])] := by
  have hf : findChunks [⟨.gradients, 0, 1⟩] .gradients = [⟨.gradients, 0, 1⟩] := by simp [findChunks]
  simp [retrieveAll, retrieve, PyDict.get?, PyDict.set, touch, chunkId, exCfg, hf, search, loadSlice, evict]

/-- Two found requests; the chunk is in memory afterwards (`C130_lru`). -/
example : ∃ t info, Holds (retrieveAll exCfg []
    [⟨0, .gradients, 1, [], ⟨fun _ => some [10, 11, 12], fun _ => some [⟨0, 0, 2⟩, ⟨1, 2, 3⟩], [⟨.gradients, 0, 1⟩]⟩⟩,
     ⟨1, .gradients, 0, [], ⟨fun _ => some [20, 21, 22], fun _ => some [⟨0, 0, 2⟩, ⟨1, 2, 3⟩], [⟨.gradients, 0, 1⟩]⟩⟩]).2
    (.gradients, 0) t info := by
  refine (C130_lru _ (by simp) (by simp) ?_ _).2 (by simp [exCfg])
  have hf : findChunks [⟨.gradients, 0, 1⟩] .gradients = [⟨.gradients, 0, 1⟩] := by simp [findChunks]
  simp [retrieveAll, retrieve, PyDict.get?, PyDict.set, touch, chunkId, exCfg, hf, search, loadSlice, evict]

/-- A file without metadata. -/
example : (retrieve (R := ℕ) exCfg [] ⟨fun _ => none, fun _ => none, [⟨.gradients, 0, 1⟩]⟩ 0 .gradients 0 []).1 = .error .fileNotFoundError :=
  C130_missing ⟨0, .gradients, 0, [], ⟨fun _ => none, fun _ => none, [⟨.gradients, 0, 1⟩]⟩⟩ [] rfl rfl [] [] ⟨.gradients, 0, 1⟩ (by simp [findChunks]) (by simp)
    (Or.inl rfl)

end Verif.Disk
