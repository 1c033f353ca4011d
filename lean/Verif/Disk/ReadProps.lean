import Verif.Disk.ReadModel
import Verif.Base.Blocks

/-!
# Reading a range of batches from a chunk (C66)
-/

namespace Verif.Disk

variable {R : Type}

/-- Specification: the rows `[s, e)` of a tensor. -/
def slice (t : List R) (s e : ℕ) : List R := (t.drop s).take (e - s)

/-- Specification: what a reader gets out of an item, batch by batch. -/
def readPairs (x : Item R) : List (ℕ × List R) := x.2.map fun e => (e.1, slice x.1 e.2.1 e.2.2)

/-- Specification: what a chunk contains, batch by batch. -/
def entries (info : List Info) (tensor : List R) : List (ℕ × List R) :=
  info.map fun i => (i.idx, slice tensor i.start i.stop)

/-- Every entry of the chunk lies inside the tensor. -/
def Fits (info : List Info) (tensor : List R) : Prop :=
  ∀ i ∈ info, i.start ≤ i.stop ∧ i.stop ≤ tensor.length

/-! ### Selecting rows -/

theorem selectRows_ok (t : List R) (is : List ℕ) (xs : List R) :
    selectRows t is = .ok xs ↔ is.map (fun i => t[i]?) = xs.map some := by
  induction is generalizing xs with
  | nil => cases xs <;> simp [selectRows]
  | cons i r ih =>
    unfold selectRows
    cases h : t[i]? with
    | none => cases xs <;> simp [h]
    | some x =>
      simp only
      cases h2 : selectRows t r with
      | error e =>
        simp only [reduceCtorEq, false_iff]
        intro h3
        cases xs with
        | nil => simp at h3
        | cons y ys =>
          simp only [List.map_cons, List.cons.injEq] at h3
          rw [(ih ys).2 h3.2] at h2; cases h2
      | ok ys =>
        have := (ih ys).1 h2
        cases xs with
        | nil => simp
        | cons y zs =>
          simp only [Except.ok.injEq, List.cons.injEq, List.map_cons, h, Option.some.injEq]
          rw [this]
          constructor
          · rintro ⟨rfl, rfl⟩; exact ⟨rfl, rfl⟩
          · rintro ⟨rfl, h4⟩
            exact ⟨rfl, List.map_injective_iff.2 (Option.some_injective _) h4⟩

theorem selectRows_error (t : List R) (is : List ℕ) :
    selectRows t is = .error .indexError ↔ ∃ i ∈ is, t.length ≤ i := by
  induction is with
  | nil => simp [selectRows]
  | cons i r ih =>
    unfold selectRows
    cases h : t[i]? with
    | none => simp [List.getElem?_eq_none_iff.1 h]
    | some x =>
      have hi : ¬ t.length ≤ i := by
        obtain ⟨h1, _⟩ := List.getElem?_eq_some_iff.1 h; omega
      simp only [List.mem_cons, exists_eq_or_imp, hi, false_or]
      rw [← ih]
      cases selectRows t r <;> simp

theorem slice_length {t : List R} {s e : ℕ} (h1 : s ≤ e) (h2 : e ≤ t.length) :
    (slice t s e).length = e - s := by
  rw [slice, List.length_take, List.length_drop]; omega

theorem map_range_slice {t : List R} {s e : ℕ} (h1 : s ≤ e) (h2 : e ≤ t.length) :
    ((List.range (e - s)).map fun j => s + j).map (fun i => t[i]?) = (slice t s e).map some := by
  apply List.ext_getElem?
  intro n
  simp only [List.getElem?_map, List.map_map, slice, List.getElem?_take, List.getElem?_drop]
  by_cases hn : n < e - s
  · rw [if_pos hn, List.getElem?_eq_getElem (by simpa using hn)]
    have : s + n < t.length := by omega
    simp [List.getElem?_eq_getElem this]
  · rw [if_neg hn, List.getElem?_eq_none (by simpa using hn)]
    rfl

theorem slice_prefix (a t b : List R) : slice (a ++ (t ++ b)) a.length (a.length + t.length) = t := by
  rw [slice, List.drop_left, Nat.add_sub_cancel_left, List.take_left]

/-! ### The loop -/

/-- Consecutive row ranges of entries. -/
def layout (off : ℕ) : List Info → List (ℕ × (ℕ × ℕ))
  | [] => []
  | i :: r => (i.idx, (off, off + (i.stop - i.start))) :: layout (off + (i.stop - i.start)) r

/-- Row numbers of an entry. -/
def rowNumbers (i : Info) : List ℕ := (List.range (i.stop - i.start)).map fun j => i.start + j

/-- Total size of entries. -/
def total (is : List Info) : ℕ := (is.map fun i => i.stop - i.start).sum

theorem set_fresh {κ α : Type} [DecidableEq κ] {k : κ} {v : α} {m : List (κ × α)}
    (h : k ∉ PyDict.keys m) : PyDict.set k v m = m ++ [(k, v)] := by
  induction m with
  | nil => rfl
  | cons p r ih =>
    simp only [PyDict.keys, List.map_cons, List.mem_cons, not_or] at h
    unfold PyDict.set
    rw [if_neg (fun h' => h.1 h'.symm), ih h.2]; rfl

theorem foldl_rangeStep (r : ℕ × ℕ) (info : List Info) (acc : List ℕ × List (ℕ × (ℕ × ℕ)) × ℕ) :
    (info.foldl (rangeStep r) acc).1 =
        acc.1 ++ (info.filter fun i => inRange r i.idx).flatMap rowNumbers ∧
      (info.foldl (rangeStep r) acc).2.2 = acc.2.2 + total (info.filter fun i => inRange r i.idx) := by
  induction info generalizing acc with
  | nil => simp [total]
  | cons i t ih =>
    rw [List.foldl_cons]
    obtain ⟨h1, h2⟩ := ih (rangeStep r acc i)
    rw [h1, h2]
    unfold rangeStep
    by_cases hi : inRange r i.idx = true
    · rw [if_pos hi, List.filter_cons_of_pos (by simpa using hi)]
      simp [total, rowNumbers, Nat.add_assoc]
    · rw [if_neg hi, List.filter_cons_of_neg (by simpa using hi)]
      simp

/-- With distinct batch indices the mapping is the list of consecutive ranges. -/
theorem foldl_mapping (r : ℕ × ℕ) (info : List Info) (acc : List ℕ × List (ℕ × (ℕ × ℕ)) × ℕ)
    (hn : (info.map Info.idx).Nodup) (hd : ∀ i ∈ info, i.idx ∉ PyDict.keys acc.2.1) :
    (info.foldl (rangeStep r) acc).2.1 =
      acc.2.1 ++ layout acc.2.2 (info.filter fun i => inRange r i.idx) := by
  induction info generalizing acc with
  | nil => simp [layout]
  | cons i t ih =>
    rw [List.map_cons, List.nodup_cons] at hn
    rw [List.foldl_cons, ih _ hn.2]
    · unfold rangeStep
      by_cases hi : inRange r i.idx = true
      · rw [if_pos hi, List.filter_cons_of_pos (by simpa using hi),
          set_fresh (hd i List.mem_cons_self)]
        simp [layout]
      · rw [if_neg hi, List.filter_cons_of_neg (by simpa using hi)]
    · intro j hj
      unfold rangeStep
      by_cases hi : inRange r i.idx = true
      · rw [if_pos hi]
        simp only [PyDict.mem_keys_set, not_or]
        refine ⟨?_, hd j (List.mem_cons_of_mem _ hj)⟩
        intro h
        exact hn.1 (List.mem_map.2 ⟨j, hj, h⟩)
      · rw [if_neg hi]; exact hd j (List.mem_cons_of_mem _ hj)

/-- Rows of entries, concatenated. -/
theorem select_entries {t : List R} {is : List Info} (h : Fits is t) :
    selectRows t (is.flatMap rowNumbers) = .ok (is.flatMap fun i => slice t i.start i.stop) := by
  rw [selectRows_ok]
  induction is with
  | nil => rfl
  | cons i r ih =>
    rw [List.flatMap_cons, List.flatMap_cons, List.map_append, List.map_append,
      ih fun j hj => h j (List.mem_cons_of_mem _ hj)]
    obtain ⟨h1, h2⟩ := h i List.mem_cons_self
    rw [rowNumbers, map_range_slice h1 h2]

/-- Reading the consecutive ranges out of the concatenation gives the entries back. -/
theorem layout_read {t : List R} {is : List Info} (h : Fits is t) (pre : List R) :
    (layout pre.length is).map (fun e => (e.1, slice (pre ++ is.flatMap fun i => slice t i.start i.stop)
      e.2.1 e.2.2)) = entries is t := by
  induction is generalizing pre with
  | nil => rfl
  | cons i r ih =>
    obtain ⟨h1, h2⟩ := h i List.mem_cons_self
    have hl := slice_length h1 h2
    rw [layout, List.map_cons, entries, List.map_cons, List.flatMap_cons]
    congr 1
    · rw [← hl, slice_prefix]
    · have := ih (fun j hj => h j (List.mem_cons_of_mem _ hj)) (pre ++ slice t i.start i.stop)
      rw [List.length_append, hl, List.append_assoc] at this
      exact this

/-! ### The property -/

/-- Loading a range (in the words of the model; see `C66_range`). -/
theorem range_load {info : List Info} {t : List R} (hf : Fits info t)
    (hn : (info.map Info.idx).Nodup) (r : ℕ × ℕ) :
    ∃ x, loadRange info t (some r) = .ok x ∧
      x.1 = ((entries info t).filter fun e => inRange r e.1).flatMap Prod.snd ∧
      (x.1 ≠ [] → readPairs x = (entries info t).filter fun e => inRange r e.1) ∧
      (x.1 = [] → x.2 = []) := by
  have hf' : Fits (info.filter fun i => inRange r i.idx) t := fun i hi => hf i (List.mem_of_mem_filter hi)
  have hent : (entries info t).filter (fun e => inRange r e.1) =
      entries (info.filter fun i => inRange r i.idx) t := by
    simp only [entries, List.filter_map]; rfl
  have hflat : (entries (info.filter fun i => inRange r i.idx) t).flatMap Prod.snd =
      (info.filter fun i => inRange r i.idx).flatMap fun i => slice t i.start i.stop := by
    simp only [entries, List.flatMap_map]
  obtain ⟨h1, h2⟩ := foldl_rangeStep r info ([], [], 0)
  have h3 := foldl_mapping r info ([], [], 0) hn (by simp [PyDict.keys])
  have hsel := select_entries hf'
  have hread := layout_read hf' []
  rw [hent, hflat]
  simp only [loadRange]
  rw [List.nil_append] at h1 h3
  rw [h1, h3]
  by_cases he : (info.filter fun i => inRange r i.idx).flatMap rowNumbers = []
  · rw [if_pos he]
    rw [he] at hsel
    have h0 : ((info.filter fun i => inRange r i.idx).flatMap fun i => slice t i.start i.stop) = [] := by
      simp only [selectRows, Except.ok.injEq] at hsel; exact hsel.symm
    refine ⟨_, rfl, by rw [h0], fun h => absurd rfl h, fun _ => rfl⟩
  · rw [if_neg he, hsel]
    refine ⟨_, rfl, rfl, fun _ => ?_, ?_⟩
    · simpa [readPairs] using hread
    · intro h0
      exfalso
      apply he
      have := (selectRows_ok _ _ _).1 hsel
      simp only at h0
      rw [h0] at this
      exact List.map_eq_nil_iff.1 this

/-- **C66** (the whole chunk).  Without a range the tensor is the file's and the mapping is that of the
metadata. -/
theorem C66_whole {info : List Info} {t : List R} (hn : (info.map Info.idx).Nodup) :
    ∃ x, loadRange info t none = .ok x ∧ x.1 = t ∧ readPairs x = entries info t := by
  refine ⟨_, rfl, rfl, ?_⟩
  have key : ∀ (l : List Info) (m : List (ℕ × (ℕ × ℕ))), (l.map Info.idx).Nodup →
      (∀ i ∈ l, i.idx ∉ PyDict.keys m) →
      l.foldl (fun m i => PyDict.set i.idx (i.start, i.stop) m) m =
        m ++ l.map fun i => (i.idx, (i.start, i.stop)) := by
    intro l
    induction l with
    | nil => intro m _ _; simp
    | cons i r ih =>
      intro m h1 h2
      rw [List.map_cons, List.nodup_cons] at h1
      rw [List.foldl_cons, ih _ h1.2, set_fresh (h2 i List.mem_cons_self)]
      · simp
      · intro j hj
        simp only [PyDict.mem_keys_set, not_or]
        exact ⟨fun h => h1.1 (List.mem_map.2 ⟨j, hj, h⟩), h2 j (List.mem_cons_of_mem _ hj)⟩
  unfold readPairs
  simp only [key info [] hn (by simp [PyDict.keys]), List.nil_append]
  simp [entries]

/-- Rejected chunks (in the words of the model; see `C66_rejects`). -/
theorem range_rejects (info : List Info) (t : List R) (r : ℕ × ℕ) :
    ((∃ e, loadRange info t (some r) = .error e) ↔
      ∃ i ∈ info, inRange r i.idx = true ∧ i.start < i.stop ∧ t.length < i.stop) ∧
    ∀ e, loadRange info t (some r) = .error e → e = .indexError := by
  obtain ⟨h1, -⟩ := foldl_rangeStep r info ([], [], 0)
  rw [List.nil_append] at h1
  have hrows : (∃ j ∈ (info.filter fun i => inRange r i.idx).flatMap rowNumbers, t.length ≤ j) ↔
      ∃ i ∈ info, inRange r i.idx = true ∧ i.start < i.stop ∧ t.length < i.stop := by
    simp only [List.mem_flatMap, List.mem_filter, rowNumbers, List.mem_map, List.mem_range]
    constructor
    · rintro ⟨j, ⟨i, ⟨h2, h3⟩, k, h4, rfl⟩, h5⟩
      exact ⟨i, h2, h3, by omega, by omega⟩
    · rintro ⟨i, h2, h3, h4, h5⟩
      exact ⟨i.stop - 1, ⟨i, ⟨h2, h3⟩, i.stop - 1 - i.start, by omega, by omega⟩, by omega⟩
  simp only [loadRange, h1]
  by_cases he : (info.filter fun i => inRange r i.idx).flatMap rowNumbers = []
  · rw [if_pos he]
    rw [he] at hrows
    refine ⟨⟨(by rintro ⟨e, h⟩; cases h), fun h => ?_⟩, (by intro e h; cases h)⟩
    obtain ⟨j, hj, -⟩ := hrows.2 h
    cases hj
  · rw [if_neg he, ← hrows, ← selectRows_error]
    have hall : ∀ (is : List ℕ) e, selectRows t is = .error e → e = .indexError := by
      intro is
      induction is with
      | nil => intro e h; cases h
      | cons a s ih =>
        intro e h
        unfold selectRows at h
        cases h3 : t[a]? with
        | none => rw [h3] at h; cases h; rfl
        | some x =>
          rw [h3] at h
          simp only at h
          cases h4 : selectRows t s with
          | error e' => rw [h4] at h; cases h; exact ih _ h4
          | ok ys => rw [h4] at h; cases h
    cases hs : selectRows t ((info.filter fun i => inRange r i.idx).flatMap rowNumbers) with
    | error e =>
      have := hall _ _ hs
      subst this
      simp
    | ok xs => simp

theorem mapping_get (r : ℕ × ℕ) (info : List Info) (acc : List ℕ × List (ℕ × (ℕ × ℕ)) × ℕ) (b : ℕ)
    (h : ∀ i ∈ info, i.idx ≠ b) :
    PyDict.get? (info.foldl (rangeStep r) acc).2.1 b = PyDict.get? acc.2.1 b := by
  induction info generalizing acc with
  | nil => rfl
  | cons i t ih =>
    rw [List.foldl_cons, ih _ fun j hj => h j (List.mem_cons_of_mem _ hj)]
    unfold rangeStep
    split_ifs
    · simp only [PyDict.get?_set]
      rw [if_neg (fun he => h i List.mem_cons_self he.symm)]
    · rfl

/-- A batch recorded twice (in the words of the model; see `C66_last_entry_wins`). -/
theorem range_last_entry {l l' : List Info} {i : Info} {t : List R} (hf : Fits (l ++ i :: l') t)
    (r : ℕ × ℕ) (hr : inRange r i.idx = true) (hpos : i.start < i.stop)
    (hlast : ∀ j ∈ l', j.idx ≠ i.idx) :
    ∃ x a e, loadRange (l ++ i :: l') t (some r) = .ok x ∧
      x.1 = ((entries (l ++ i :: l') t).filter fun e => inRange r e.1).flatMap Prod.snd ∧
      PyDict.get? x.2 i.idx = some (a, e) ∧ slice x.1 a e = slice t i.start i.stop := by
  obtain ⟨h1, -⟩ := foldl_rangeStep r (l ++ i :: l') ([], [], 0)
  rw [List.nil_append] at h1
  obtain ⟨-, h2⟩ := foldl_rangeStep r l ([], [], 0)
  have hf' : Fits ((l ++ i :: l').filter fun i => inRange r i.idx) t :=
    fun j hj => hf j (List.mem_of_mem_filter hj)
  have hsel := select_entries hf'
  have hent : (entries (l ++ i :: l') t).filter (fun e => inRange r e.1) =
      entries ((l ++ i :: l').filter fun i => inRange r i.idx) t := by
    simp only [entries, List.filter_map]; rfl
  have hflat : (entries ((l ++ i :: l').filter fun i => inRange r i.idx) t).flatMap Prod.snd =
      ((l ++ i :: l').filter fun i => inRange r i.idx).flatMap fun i => slice t i.start i.stop := by
    simp only [entries, List.flatMap_map]
  have hne : ((l ++ i :: l').filter fun i => inRange r i.idx).flatMap rowNumbers ≠ [] := by
    intro h0
    have hmem : i.start ∈ ((l ++ i :: l').filter fun i => inRange r i.idx).flatMap rowNumbers := by
      simp only [List.mem_flatMap, List.mem_filter, rowNumbers, List.mem_map, List.mem_range]
      exact ⟨i, ⟨by simp, hr⟩, 0, by omega, by omega⟩
    rw [h0] at hmem; cases hmem
  rw [hent, hflat]
  simp only [loadRange, h1]
  rw [if_neg hne, hsel]
  refine ⟨_, (l.foldl (rangeStep r) ([], [], 0)).2.2,
    (l.foldl (rangeStep r) ([], [], 0)).2.2 + (i.stop - i.start), rfl, rfl, ?_, ?_⟩
  · rw [List.foldl_append, List.foldl_cons, mapping_get _ _ _ _ hlast]
    unfold rangeStep
    rw [if_pos hr]
    simp only [PyDict.get?_set, if_true]
  · simp only [h2, Nat.zero_add]
    rw [List.filter_append, List.filter_cons_of_pos (by simpa using hr), List.flatMap_append,
      List.flatMap_cons]
    obtain ⟨h5, h6⟩ := hf i (by simp)
    have hlen : ∀ is : List Info, Fits is t →
        (is.flatMap fun i => slice t i.start i.stop).length = total is := by
      intro is
      induction is with
      | nil => intro _; rfl
      | cons j s ih =>
        intro hj
        rw [List.flatMap_cons, List.length_append, ih fun k hk => hj k (List.mem_cons_of_mem _ hk)]
        obtain ⟨h7, h8⟩ := hj j List.mem_cons_self
        rw [slice_length h7 h8]; simp [total]
    rw [← hlen _ fun j hj => hf j (List.mem_append_left _ (List.mem_of_mem_filter hj)),
      ← slice_length h5 h6]
    exact slice_prefix _ _ _

/-- **C66** (one batch).  `load_batch_slice` returns the rows of the first entry of the batch, and `None`
exactly if the chunk does not list it. -/
theorem C66_slice (info : List Info) (t : List R) (b : ℕ) :
    (loadSlice info t b = none ↔ ∀ i ∈ info, i.idx ≠ b) ∧
    ∀ l i l', info = l ++ i :: l' → (∀ j ∈ l, j.idx ≠ b) → i.idx = b →
      loadSlice info t b = some (slice t i.start i.stop) := by
  constructor
  · simp [loadSlice]
  · rintro l i l' rfl h1 h2
    have : (l ++ i :: l').find? (fun i => decide (i.idx = b)) = some i := by
      rw [List.find?_append, List.find?_eq_none.2 (by simpa using h1), List.find?_cons_of_pos (by simpa using h2)]
      rfl
    simp only [loadSlice, this, Option.map_some]
    rfl

theorem inRange_iff (r : ℕ × ℕ) (b : ℕ) : inRange r b = true ↔ r.1 ≤ b ∧ b < r.2 := by
  unfold inRange
  simp

theorem inRange_decide (r : ℕ × ℕ) (b : ℕ) : inRange r b = decide (r.1 ≤ b ∧ b < r.2) := by
  rw [Bool.eq_iff_iff, inRange_iff, decide_eq_true_iff]

/-- **C66** For every chunk whose entries lie inside its tensor, with distinct batch indices, and every
range: loading succeeds; the tensor is the concatenation of the rows of the batches in the range (the
upper end not included), in the order of the chunk; and reading through the returned mapping gives exactly
those batches, each with its rows.  (If none of them has a row the mapping is empty as well.) -/
theorem C66_range {info : List Info} {t : List R} (hf : Fits info t)
    (hn : (info.map Info.idx).Nodup) (r : ℕ × ℕ) :
    ∃ x, loadRange info t (some r) = .ok x ∧
      x.1 = ((entries info t).filter fun e => r.1 ≤ e.1 ∧ e.1 < r.2).flatMap Prod.snd ∧
      (x.1 ≠ [] → readPairs x = (entries info t).filter fun e => r.1 ≤ e.1 ∧ e.1 < r.2) ∧
      (x.1 = [] → x.2 = []) := by
  have := range_load hf hn r
  simp only [inRange_decide] at this
  exact this

/-- **C66** (rejected chunks).  A range load raises, with `IndexError`, exactly when some batch of the
range has a row beyond the end of the tensor. -/
theorem C66_rejects (info : List Info) (t : List R) (r : ℕ × ℕ) :
    ((∃ e, loadRange info t (some r) = .error e) ↔
      ∃ i ∈ info, (r.1 ≤ i.idx ∧ i.idx < r.2) ∧ i.start < i.stop ∧ t.length < i.stop) ∧
    ∀ e, loadRange info t (some r) = .error e → e = .indexError := by
  have := range_rejects info t r
  simp only [inRange_iff] at this
  exact this

/-- **C66** (a batch recorded twice).  If a chunk lists the same batch more than once, the rows of all its
entries are returned, and the mapping points to the rows of the last entry. -/
theorem C66_last_entry_wins {l l' : List Info} {i : Info} {t : List R} (hf : Fits (l ++ i :: l') t)
    (r : ℕ × ℕ) (hr : r.1 ≤ i.idx ∧ i.idx < r.2) (hpos : i.start < i.stop)
    (hlast : ∀ j ∈ l', j.idx ≠ i.idx) :
    ∃ x a e, loadRange (l ++ i :: l') t (some r) = .ok x ∧
      x.1 = ((entries (l ++ i :: l') t).filter fun e => r.1 ≤ e.1 ∧ e.1 < r.2).flatMap Prod.snd ∧
      PyDict.get? x.2 i.idx = some (a, e) ∧ slice x.1 a e = slice t i.start i.stop := by
  have := range_last_entry hf r ((inRange_iff _ _).2 hr) hpos hlast
  simp only [inRange_decide] at this
  exact this

/-- A chunk of four batches, one of them stored out of order. -/
example :
    Fits [⟨4, 0, 2⟩, ⟨6, 2, 3⟩, ⟨5, 3, 5⟩, ⟨7, 5, 6⟩] [10, 11, 12, 13, 14, 15] ∧
    (([⟨4, 0, 2⟩, ⟨6, 2, 3⟩, ⟨5, 3, 5⟩, ⟨7, 5, 6⟩] : List Info).map Info.idx).Nodup ∧
    loadRange [⟨4, 0, 2⟩, ⟨6, 2, 3⟩, ⟨5, 3, 5⟩, ⟨7, 5, 6⟩] [10, 11, 12, 13, 14, 15] (some (5, 7)) =
      .ok ([12, 13, 14], [(6, (0, 1)), (5, (1, 3))]) := by
  refine ⟨by simp [Fits], by simp, rfl⟩

/-- A chunk in which batch 4 is recorded twice, and one that is too short. -/
example :
    loadRange [⟨4, 0, 2⟩, ⟨4, 2, 3⟩] [10, 11, 12] (some (0, 9)) = .ok ([10, 11, 12], [(4, (2, 3))]) ∧
    loadRange [⟨4, 0, 2⟩, ⟨5, 2, 4⟩] [10, 11, 12] (some (5, 6)) = .error .indexError ∧
    loadRange [⟨4, 0, 2⟩, ⟨5, 2, 4⟩] [10, 11, 12] (some (4, 5)) = .ok ([10, 11], [(4, (0, 2))]) :=
  ⟨rfl, rfl, rfl⟩

end Verif.Disk
