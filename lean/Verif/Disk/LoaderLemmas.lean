import Verif.Disk.ReadProps

/-!
# Collating and loading whole data sets
-/

namespace Verif.Disk

variable {R : Type}

/-- Is the batch wanted: always, without a range. -/
def inRng (rng : Option (ℕ × ℕ)) (b : ℕ) : Bool :=
  match rng with
  | none => true
  | some r => decide (r.1 ≤ b ∧ b < r.2)

/-- The ranges of an item lie inside its tensor. -/
def Item.Bounds (x : Item R) : Prop := ∀ e ∈ x.2, e.2.1 ≤ e.2.2 ∧ e.2.2 ≤ x.1.length

theorem slice_left {t : List R} {s e : ℕ} (h : e ≤ t.length) (more : List R) :
    slice (t ++ more) s e = slice t s e := by
  by_cases hs : s ≤ e
  · rw [slice, slice, List.drop_append_of_le_length (by omega),
      List.take_append_of_le_length (by rw [List.length_drop]; omega)]
  · rw [slice, slice, Nat.sub_eq_zero_of_le (by omega), List.take_zero, List.take_zero]

theorem slice_right (pre t : List R) (s e : ℕ) :
    slice (pre ++ t) (pre.length + s) (pre.length + s + (e - s)) = slice t s e := by
  rw [slice, slice, Nat.add_sub_cancel_left, List.drop_append, List.drop_eq_nil_of_le (by omega),
    Nat.add_sub_cancel_left, List.nil_append]

theorem keys_readPairs (x : Item R) : (readPairs x).map Prod.fst = PyDict.keys x.2 := by
  unfold readPairs PyDict.keys
  rw [List.map_map]; rfl

theorem shiftInto_fresh (off : ℕ) (new m : List (ℕ × (ℕ × ℕ)))
    (h : (PyDict.keys m ++ PyDict.keys new).Nodup) :
    shiftInto off m new =
      m ++ new.map fun e => (e.1, (off + e.2.1, off + e.2.1 + (e.2.2 - e.2.1))) := by
  unfold shiftInto
  induction new generalizing m with
  | nil => simp
  | cons e t ih =>
    have hk : PyDict.keys (e :: t) = e.1 :: PyDict.keys t := rfl
    rw [hk] at h
    have hf : e.1 ∉ PyDict.keys m := by
      intro h1
      exact (List.nodup_append.1 h).2.2 _ h1 _ List.mem_cons_self rfl
    rw [List.foldl_cons, set_fresh hf, ih]
    · simp
    · have : PyDict.keys (m ++ [(e.1, (off + e.2.1, off + e.2.1 + (e.2.2 - e.2.1)))]) =
          PyDict.keys m ++ [e.1] := by simp [PyDict.keys]
      rw [this, List.append_assoc]
      exact h

theorem collate_fold (xs : List (Item R)) (acc : Item R) (hb : ∀ x ∈ xs, x.Bounds) (ha : acc.Bounds)
    (hn : (PyDict.keys acc.2 ++ xs.flatMap fun x => PyDict.keys x.2).Nodup) :
    let y := xs.foldl (fun acc x => (acc.1 ++ x.1, shiftInto acc.1.length acc.2 x.2)) acc
    readPairs y = readPairs acc ++ xs.flatMap readPairs ∧ y.1 = acc.1 ++ xs.flatMap Prod.fst := by
  induction xs generalizing acc with
  | nil => simp
  | cons x t ih =>
    simp only
    rw [List.flatMap_cons, ← List.append_assoc] at hn
    have hs := shiftInto_fresh acc.1.length x.2 acc.2 (List.nodup_append.1 hn).1
    have hbx := hb x List.mem_cons_self
    rw [List.foldl_cons, hs]
    obtain ⟨h1, h2⟩ := ih (acc.1 ++ x.1, acc.2 ++ x.2.map fun e =>
      (e.1, (acc.1.length + e.2.1, acc.1.length + e.2.1 + (e.2.2 - e.2.1))))
      (fun z hz => hb z (List.mem_cons_of_mem _ hz)) (by
        intro e he
        simp only [List.length_append]
        rcases List.mem_append.1 he with h | h
        · have := ha e h; exact ⟨this.1, by omega⟩
        · obtain ⟨e', h', rfl⟩ := List.mem_map.1 h
          have := hbx e' h'
          simp only
          omega) (by
        have : PyDict.keys (acc.2 ++ x.2.map fun e =>
            (e.1, (acc.1.length + e.2.1, acc.1.length + e.2.1 + (e.2.2 - e.2.1)))) =
            PyDict.keys acc.2 ++ PyDict.keys x.2 := by
          simp [PyDict.keys, Function.comp_def]
        rw [this]; exact hn)
    refine ⟨?_, ?_⟩
    · rw [h1, List.flatMap_cons, ← List.append_assoc]
      congr 1
      unfold readPairs
      rw [List.map_append, List.map_map]
      congr 1
      · refine List.map_congr_left ?_
        intro e he
        rw [slice_left (ha e he).2]
      · refine List.map_congr_left ?_
        intro e he
        simp only [Function.comp, slice_right]
    · rw [h2, List.flatMap_cons, List.append_assoc]

/-- Collating keeps every batch of every item. -/
theorem collate_read (xs : List (Item R)) (hb : ∀ x ∈ xs, x.Bounds)
    (hn : (xs.flatMap fun x => PyDict.keys x.2).Nodup) :
    readPairs (collateItems xs) = xs.flatMap readPairs := by
  have h := (collate_fold xs ([], []) hb (by intro e he; cases he) (by simpa [PyDict.keys] using hn)).1
  match xs, h with
  | [], _ => rfl
  | [x], _ => simp [collateItems]
  | x :: y :: t, h =>
    unfold collateItems
    rw [h]
    rfl

/-- Collating concatenates the tensors. -/
theorem collate_rows (xs : List (Item R)) : (collateItems xs).1 = xs.flatMap Prod.fst := by
  have h : ∀ (xs : List (Item R)) (acc : Item R),
      (xs.foldl (fun acc x => (acc.1 ++ x.1, shiftInto acc.1.length acc.2 x.2)) acc).1 =
        acc.1 ++ xs.flatMap Prod.fst := by
    intro xs
    induction xs with
    | nil => simp
    | cons x t ih => intro acc; rw [List.foldl_cons, ih]; simp
  match xs with
  | [] => rfl
  | [x] => simp [collateItems]
  | x :: y :: t => unfold collateItems; rw [h]; rfl

/-- A pass of the loader, whatever the number of chunks per item. -/
theorem loader_read {g : ℕ} (hg : 0 < g) (items : List (Item R)) (hb : ∀ x ∈ items, x.Bounds)
    (hn : (items.flatMap fun x => PyDict.keys x.2).Nodup) :
    (loaderPass g items).flatMap readPairs = items.flatMap readPairs := by
  have key : ∀ bs : List (List (Item R)), (∀ x ∈ bs.flatten, x.Bounds) →
      (bs.flatten.flatMap fun x => PyDict.keys x.2).Nodup →
      (bs.map collateItems).flatMap readPairs = bs.flatten.flatMap readPairs := by
    intro bs
    induction bs with
    | nil => intro _ _; rfl
    | cons a t ih =>
      intro h1 h2
      rw [List.flatten_cons, List.flatMap_append] at h2
      rw [List.map_cons, List.flatMap_cons, List.flatten_cons, List.flatMap_append,
        collate_read a (fun x hx => h1 x (by rw [List.flatten_cons]; exact List.mem_append_left _ hx))
          (List.nodup_append.1 h2).1,
        ih (fun x hx => h1 x (by rw [List.flatten_cons]; exact List.mem_append_right _ hx))
          (List.nodup_append.1 h2).2.1]
  have := key (Verif.batches g items) (by rw [Verif.flatten_batches g hg]; exact hb)
    (by rw [Verif.flatten_batches g hg]; exact hn)
  rw [Verif.flatten_batches g hg] at this
  exact this

/-! ### One file -/

theorem layout_bounds {t : List R} {is : List Info} (h : Fits is t) (off : ℕ) :
    ∀ e ∈ layout off is, e.2.1 ≤ e.2.2 ∧
      e.2.2 ≤ off + (is.flatMap fun i => slice t i.start i.stop).length := by
  induction is generalizing off with
  | nil => intro e he; cases he
  | cons i r ih =>
    obtain ⟨h1, h2⟩ := h i List.mem_cons_self
    have hl := slice_length h1 h2
    intro e he
    rw [List.flatMap_cons, List.length_append, hl]
    rcases List.mem_cons.1 he with rfl | he
    · exact ⟨by simp only; omega, by simp only; omega⟩
    · have := ih (fun j hj => h j (List.mem_cons_of_mem _ hj)) _ e he
      exact ⟨this.1, by omega⟩

/-- A chunk whose entries have rows inside the tensor and distinct batch indices. -/
structure Proper (info : List Info) (t : List R) : Prop where
  fits : ∀ i ∈ info, i.start < i.stop ∧ i.stop ≤ t.length
  nd : (info.map Info.idx).Nodup

theorem loadRange_proper {info : List Info} {t : List R} (h : Proper info t) (rng : Option (ℕ × ℕ)) :
    ∃ x, loadRange info t rng = .ok x ∧ x.Bounds ∧
      readPairs x = (entries info t).filter fun e => inRng rng e.1 := by
  have hf : Fits info t := fun i hi => ⟨(h.fits i hi).1.le, (h.fits i hi).2⟩
  cases rng with
  | none =>
    obtain ⟨x, h1, h2, h3⟩ := C66_whole (t := t) h.nd
    refine ⟨x, h1, ?_, ?_⟩
    · have key : ∀ (l : List Info) (m : List (ℕ × (ℕ × ℕ))), (∀ i ∈ l, i.start ≤ i.stop ∧ i.stop ≤ t.length) →
          (∀ e ∈ m, e.2.1 ≤ e.2.2 ∧ e.2.2 ≤ t.length) →
          ∀ e ∈ l.foldl (fun m i => PyDict.set i.idx (i.start, i.stop) m) m,
            e.2.1 ≤ e.2.2 ∧ e.2.2 ≤ t.length := by
        intro l
        induction l with
        | nil => intro m _ hm; exact hm
        | cons i r ih =>
          intro m hl hm
          rw [List.foldl_cons]
          refine ih _ (fun j hj => hl j (List.mem_cons_of_mem _ hj)) ?_
          have hset : ∀ m : List (ℕ × (ℕ × ℕ)), (∀ e ∈ m, e.2.1 ≤ e.2.2 ∧ e.2.2 ≤ t.length) →
              ∀ e ∈ PyDict.set i.idx (i.start, i.stop) m, e.2.1 ≤ e.2.2 ∧ e.2.2 ≤ t.length := by
            intro m
            induction m with
            | nil =>
              intro _ e he
              simp only [PyDict.set, List.mem_singleton] at he
              subst he
              exact hl i List.mem_cons_self
            | cons p q ihq =>
              intro hm e he
              unfold PyDict.set at he
              split_ifs at he
              · rcases List.mem_cons.1 he with rfl | he
                · exact hl i List.mem_cons_self
                · exact hm e (List.mem_cons_of_mem _ he)
              · rcases List.mem_cons.1 he with rfl | he
                · exact hm _ List.mem_cons_self
                · exact ihq (fun e he => hm e (List.mem_cons_of_mem _ he)) e he
          exact hset m hm
      unfold loadRange at h1
      cases h1
      exact key info [] hf (by simp)
    · rw [h3, List.filter_eq_self.2]
      intro a _; rfl
  | some r =>
    obtain ⟨x, h1, h2, h3, h4⟩ := range_load hf h.nd r
    refine ⟨x, h1, ?_, ?_⟩
    · obtain ⟨e1, e2⟩ := foldl_rangeStep r info ([], [], 0)
      have e3 := foldl_mapping r info ([], [], 0) h.nd (by simp [PyDict.keys])
      rw [List.nil_append] at e1 e3
      have hf' : Fits (info.filter fun i => inRange r i.idx) t :=
        fun i hi => hf i (List.mem_of_mem_filter hi)
      simp only [loadRange] at h1
      rw [e1, e3] at h1
      split_ifs at h1
      · cases h1; intro e he; cases he
      · rw [select_entries hf'] at h1
        cases h1
        intro e he
        have := layout_bounds hf' 0 e he
        exact ⟨this.1, by simpa using this.2⟩
    · by_cases hx : x.1 = []
      · have hx2 := h4 hx
        unfold readPairs
        rw [hx2, List.map_nil]
        symm
        rw [List.filter_eq_nil_iff]
        intro e he hin
        rw [hx] at h2
        have hin' : inRange r e.1 = true := (inRange_iff _ _).2 (of_decide_eq_true hin)
        have h5 : e.2 = [] := by
          have : e ∈ (entries info t).filter fun e => inRange r e.1 := List.mem_filter.2 ⟨he, hin'⟩
          have h6 : ∀ y ∈ e.2, y ∈ ([] : List R) := by
            intro y hy
            rw [h2]
            exact List.mem_flatMap.2 ⟨e, this, hy⟩
          exact List.eq_nil_iff_forall_not_mem.2 fun y hy => by cases h6 y hy
        obtain ⟨i, hi, rfl⟩ := List.mem_map.1 he
        have := h.fits i hi
        have hl := slice_length this.1.le this.2
        simp only at h5
        rw [h5] at hl
        simp at hl
        omega
      · exact (h3 hx).trans (by simp only [inRange_decide]; rfl)

/-! ### A data set -/

/-- What a file contains, batch by batch. -/
def fileEntries (fs : Files R) (p : Path) : List (ℕ × List R) :=
  match fs.metaFile p, fs.dataFile p with
  | some info, some t => entries info t
  | _, _ => []

/-- What the files of a data type contain, batch by batch. -/
def contents (fs : Files R) (dt : DT) : List (ℕ × List R) :=
  (fs.listing.filter fun p => decide (p.dt = dt)).flatMap (fileEntries fs)

/-- Every listed chunk of the data type is readable and proper. -/
def Sound (fs : Files R) (dt : DT) : Prop :=
  ∀ p ∈ fs.listing, p.dt = dt → ∃ info t, fs.metaFile p = some info ∧ fs.dataFile p = some t ∧
    Proper info t

theorem flatMap_filter_of_nil {α β : Type} (l : List α) (q : α → Bool) (f : α → List β)
    (h : ∀ a ∈ l, q a = false → f a = []) : (l.filter q).flatMap f = l.flatMap f := by
  induction l with
  | nil => rfl
  | cons a t ih =>
    have ih := ih fun b hb => h b (List.mem_cons_of_mem _ hb)
    cases hq : q a with
    | true => rw [List.filter_cons_of_pos hq, List.flatMap_cons, List.flatMap_cons, ih]
    | false =>
      rw [List.filter_cons_of_neg (by rw [hq]; simp), List.flatMap_cons, ih, h a List.mem_cons_self hq,
        List.nil_append]

theorem filter_flatMap' {α β : Type} (l : List α) (f : α → List β) (q : β → Bool) :
    (l.flatMap f).filter q = l.flatMap fun a => (f a).filter q := by
  induction l with
  | nil => rfl
  | cons a t ih => rw [List.flatMap_cons, List.filter_append, ih, List.flatMap_cons]

theorem mapM_loads {fs : Files R} {rng : Option (ℕ × ℕ)} (ps : List Path)
    (h : ∀ p ∈ ps, ∃ info t, fs.metaFile p = some info ∧ fs.dataFile p = some t ∧ Proper info t) :
    ∃ items, ps.mapM (loadFile fs rng) = .ok items ∧ (∀ x ∈ items, x.Bounds) ∧
      items.flatMap readPairs = ps.flatMap fun p => (fileEntries fs p).filter fun e => inRng rng e.1 := by
  induction ps with
  | nil => exact ⟨[], rfl, by simp, rfl⟩
  | cons p t ih =>
    obtain ⟨items, h1, h2, h3⟩ := ih fun q hq => h q (List.mem_cons_of_mem _ hq)
    obtain ⟨info, d, e1, e2, e3⟩ := h p List.mem_cons_self
    obtain ⟨x, f1, f2, f3⟩ := loadRange_proper e3 rng
    refine ⟨x :: items, ?_, ?_, ?_⟩
    · rw [List.mapM_cons]
      have : loadFile fs rng p = .ok x := by unfold loadFile; rw [e1, e2]; exact f1
      rw [this, h1]; rfl
    · intro y hy
      rcases List.mem_cons.1 hy with rfl | hy
      · exact f2
      · exact h2 y hy
    · rw [List.flatMap_cons, List.flatMap_cons, h3, f3]
      congr 2
      unfold fileEntries
      rw [e1, e2]

theorem chunkInfo_perm (fs : Files R) (dt : DT) (rng : Option (ℕ × ℕ)) :
    (chunkInfo fs dt rng).Perm ((fs.listing.filter fun p => decide (p.dt = dt)).filter (wanted fs rng)) := by
  unfold chunkInfo findChunks
  refine (List.mergeSort_perm _ _).trans ?_
  exact (List.mergeSort_perm _ _).filter _

/-- Reading a whole data set: every load succeeds, and the loader yields the batches of the range that
the files contain, each with its rows, whatever the number of chunks per item. -/
theorem dataset_read {fs : Files R} {dt : DT} (hs : Sound fs dt)
    (hn : ((contents fs dt).map Prod.fst).Nodup) (rng : Option (ℕ × ℕ)) :
    ∃ items, (chunkInfo fs dt rng).mapM (loadFile fs rng) = .ok items ∧
      (∀ g, 0 < g → (loaderPass g items).flatMap readPairs = items.flatMap readPairs) ∧
      (items.flatMap readPairs).Perm ((contents fs dt).filter fun e => inRng rng e.1) := by
  have hp := chunkInfo_perm fs dt rng
  have hmem : ∀ p ∈ chunkInfo fs dt rng, ∃ info t, fs.metaFile p = some info ∧
      fs.dataFile p = some t ∧ Proper info t := by
    intro p h
    have := List.mem_of_mem_filter (hp.mem_iff.1 h)
    obtain ⟨h1, h2⟩ := List.mem_filter.1 this
    exact hs p h1 (by simpa using h2)
  obtain ⟨items, h1, h2, h3⟩ := mapM_loads (rng := rng) _ hmem
  have hperm : (items.flatMap readPairs).Perm ((contents fs dt).filter fun e => inRng rng e.1) := by
    rw [h3, contents, filter_flatMap']
    refine (hp.flatMap_right _).trans ?_
    rw [flatMap_filter_of_nil]
    intro p hpl hw
    obtain ⟨e1, e2⟩ := List.mem_filter.1 hpl
    obtain ⟨info, t, f1, f2, f3⟩ := hs p e1 (by simpa using e2)
    unfold wanted at hw
    rw [f1] at hw
    cases rng with
    | none => cases hw
    | some r =>
      unfold fileEntries
      rw [f1, f2, List.filter_eq_nil_iff]
      intro e he hin
      obtain ⟨i, hi, rfl⟩ := List.mem_map.1 he
      simp only [List.any_eq_false] at hw
      exact hw i hi ((inRange_iff _ _).2 (of_decide_eq_true hin))
  refine ⟨items, h1, ?_, hperm⟩
  intro g hg
  refine loader_read hg items h2 ?_
  have e1 : (items.flatMap fun x => PyDict.keys x.2) = (items.flatMap readPairs).map Prod.fst := by
    rw [List.map_flatMap]
    exact List.flatMap_congr fun x _ => (keys_readPairs x).symm
  rw [e1]
  refine ((hperm.map Prod.fst).nodup_iff).2 ?_
  exact (List.filter_sublist.map _).nodup hn

end Verif.Disk
