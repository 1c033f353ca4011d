import Verif.Disk.WaitModel
import Mathlib.Data.List.Basic
import Mathlib.Tactic.Linarith

/-!
# C175: what `ensure_chunk_written` guarantees

The specification speaks of times: the number of steps the writer has made, `0` to `n + 4` for a chunk of `n` rows.
-/

namespace Verif.Disk.Wait

open Verif

variable {R : Type} [Zero R]

/-! ### Helper lemmas -/

/-- The files at each time of a write. -/
theorem at_zero (s : FS R) (ops : List (Op R)) : at' s ops 0 = s := rfl

theorem at_succ (s : FS R) (o : Op R) (ops : List (Op R)) (t : ℕ) : at' s (o :: ops) (t + 1) = at' (o.run s) ops t := rfl

theorem at_append (s : FS R) (a b : List (Op R)) (t : ℕ) : at' s (a ++ b) (a.length + t) = at' (at' s a a.length) b t := by
  unfold at'
  rw [List.take_length_add_append, List.foldl_append, List.take_length]

theorem at_append_le (s : FS R) (a b : List (Op R)) (t : ℕ) (h : t ≤ a.length) : at' s (a ++ b) t = at' s a t := by
  unfold at'
  rw [List.take_append_of_le_length h]

omit [Zero R] in
theorem set_mid (pre : List R) (x y : R) (post : List R) : (pre ++ x :: post).set pre.length y = pre ++ y :: post := by
  induction pre with
  | nil => rfl
  | cons a l ih => simp [ih]

/-- After `k` of the rows the file holds them, then zeros. -/
theorem rows_written (info : Option (Option ℕ)) (rows : List R) : ∀ (pre : List R) (k : ℕ), k ≤ rows.length →
    at' ⟨some (pre ++ List.replicate rows.length 0), info⟩ ((rows.zipIdx pre.length).map fun p => Op.row p.2 p.1) k =
      ⟨some (pre ++ rows.take k ++ List.replicate (rows.length - k) 0), info⟩ := by
  induction rows with
  | nil => intro pre k hk; simp at hk; subst hk; simp [at']
  | cons r rows ih =>
    intro pre k hk
    cases k with
    | zero => simp [at']
    | succ k =>
      have h := ih (pre ++ [r]) k (by simpa using hk)
      rw [List.zipIdx_cons, List.map_cons, at_succ]
      simp only [Op.run, Option.map_some, List.length_cons, List.replicate_succ, set_mid]
      rw [show (pre ++ [r]).length = pre.length + 1 by simp] at h
      rw [show pre ++ r :: List.replicate rows.length 0 = (pre ++ [r]) ++ List.replicate rows.length 0 by simp, h]
      simp

theorem data_phase (s : FS R) (rows : List R) (k : ℕ) (hk : k ≤ rows.length) :
    at' s (writeChunk rows) (2 + k) = ⟨some (rows.take k ++ List.replicate (rows.length - k) 0), s.info⟩ := by
  have h := rows_written s.info rows [] k hk
  simp only [List.length_nil, List.nil_append] at h
  rw [← h]
  unfold writeChunk
  rw [List.append_assoc, show 2 + k = ([.truncate, .extend rows.length] : List (Op R)).length + k from rfl, at_append,
    at_append_le _ _ _ _ (by simpa using hk)]
  simp [at', Op.run]

theorem info_phase (s : FS R) (rows : List R) (j : ℕ) :
    at' s (writeChunk rows) (rows.length + 2 + j) = at' ⟨some rows, s.info⟩ [.metaOpen, .metaDone rows.length] j := by
  have h : ([.truncate, .extend rows.length] ++ (rows.zipIdx.map fun p => Op.row p.2 p.1) : List (Op R)).length = rows.length + 2 := by
    simp
  have h2 := data_phase s rows rows.length le_rfl
  unfold writeChunk at h2 ⊢
  rw [← h, at_append]
  congr 1
  rw [h, ← at_append_le _ _ [.metaOpen, .metaDone rows.length] _ h.ge, Nat.add_comm, h2]
  simp

/-- The files of a write, by time. -/
theorem files_at (s : FS R) (rows : List R) (t : ℕ) :
    (t = 1 → at' s (writeChunk rows) t = ⟨some [], s.info⟩) ∧
    (2 ≤ t → t ≤ rows.length + 2 → at' s (writeChunk rows) t = ⟨some (rows.take (t - 2) ++ List.replicate (rows.length - (t - 2)) 0), s.info⟩) ∧
    (t = rows.length + 3 → at' s (writeChunk rows) t = ⟨some rows, some none⟩) ∧
    (rows.length + 4 ≤ t → at' s (writeChunk rows) t = ⟨some rows, some (some rows.length)⟩) := by
  refine ⟨?_, ?_, ?_, ?_⟩
  · rintro rfl; rfl
  · intro h1 h2
    obtain ⟨k, rfl⟩ := Nat.exists_eq_add_of_le h1
    rw [data_phase s rows k (by omega), Nat.add_sub_cancel_left]
  · rintro rfl
    exact info_phase s rows 1
  · intro h
    obtain ⟨j, rfl⟩ := Nat.exists_eq_add_of_le h
    rw [show rows.length + 4 + j = rows.length + 2 + (j + 2) by omega, info_phase]
    unfold at'
    rw [List.take_of_length_le (by simp)]
    rfl

/-! ### The property -/

/-- In each turn the reader looks in order: existence, metadata, size. -/
def Ordered (ps : List (ℕ × ℕ × ℕ)) : Prop := ∀ p ∈ ps, p.1 ≤ p.2.1 ∧ p.2.1 ≤ p.2.2

/-- A turn for a new chunk: decided by the time at which the metadata is read. -/
theorem C175_new_turn (rows : List R) (t₀ t₁ t₂ : ℕ) (h1 : t₀ ≤ t₁) (h2 : t₁ ≤ t₂) :
    turn (at' ⟨none, none⟩ (writeChunk rows) t₀) (at' ⟨none, none⟩ (writeChunk rows) t₁) (at' ⟨none, none⟩ (writeChunk rows) t₂) =
      if t₀ < rows.length + 3 then .again else if t₁ = rows.length + 3 then .raised .valueError else .done := by
  have early : ∀ t, t < rows.length + 3 → (at' (⟨none, none⟩ : FS R) (writeChunk rows) t).info = none := by
    intro t ht
    rcases Nat.lt_or_ge t 2 with h | h
    · rcases Nat.eq_zero_or_pos t with h0 | h0
      · subst h0; rfl
      · rw [(files_at _ rows t).1 (by omega)]
    · rw [(files_at _ rows t).2.1 h (by omega)]
  unfold turn
  by_cases h0 : t₀ < rows.length + 3
  · rw [early t₀ h0, if_pos h0]
    simp
  · rw [if_neg h0]
    have e0 : (at' (⟨none, none⟩ : FS R) (writeChunk rows) t₀).data.isSome = true ∧ (at' (⟨none, none⟩ : FS R) (writeChunk rows) t₀).info.isSome = true := by
      rcases Nat.lt_or_ge t₀ (rows.length + 4) with h | h
      · rw [(files_at _ rows t₀).2.2.1 (by omega)]; exact ⟨rfl, rfl⟩
      · rw [(files_at _ rows t₀).2.2.2 h]; exact ⟨rfl, rfl⟩
    rw [e0.1, e0.2]
    simp only [Bool.and_self, if_true]
    split_ifs with h3
    · rw [(files_at _ rows t₁).2.2.1 h3]
    · rw [(files_at _ rows t₁).2.2.2 (by omega), (files_at _ rows t₂).2.2.2 (by omega)]
      simp

/-- **C175** (a new chunk).  If the files did not exist before, the answer `True` is reliable: from then on the data file holds all rows.  The call raises
`ValueError` exactly if the first turn that finds both files reads the metadata while it is being written, and answers `False` exactly if no turn finds
both files. -/
theorem C175_new (rows : List R) (ps : List (ℕ × ℕ × ℕ)) (ho : Ordered ps) :
    ((∀ p ∈ ps, p.1 < rows.length + 3) ↔ ensureWritten ⟨none, none⟩ (writeChunk rows) ps = .ok false) ∧
    (∀ a p b, ps = a ++ p :: b → (∀ q ∈ a, q.1 < rows.length + 3) → rows.length + 3 ≤ p.1 →
      (p.2.1 = rows.length + 3 → ensureWritten ⟨none, none⟩ (writeChunk rows) ps = .error .valueError) ∧
      (p.2.1 ≠ rows.length + 3 → ensureWritten ⟨none, none⟩ (writeChunk rows) ps = .ok true ∧
        ∀ t, p.2.2 ≤ t → (at' ⟨none, none⟩ (writeChunk rows) t).data = some rows)) := by
  have key : ∀ (a : List (ℕ × ℕ × ℕ)) (b : List (ℕ × ℕ × ℕ)), (∀ q ∈ a, q.1 ≤ q.2.1 ∧ q.2.1 ≤ q.2.2) → (∀ q ∈ a, q.1 < rows.length + 3) →
      ensureWritten ⟨none, none⟩ (writeChunk rows) (a ++ b) = ensureWritten ⟨none, none⟩ (writeChunk rows) b := by
    intro a b h1 h2
    induction a with
    | nil => rfl
    | cons q a ih =>
      rw [List.cons_append, ensureWritten, C175_new_turn rows _ _ _ (h1 q List.mem_cons_self).1 (h1 q List.mem_cons_self).2,
        if_pos (h2 q List.mem_cons_self)]
      exact ih (fun q hq => h1 q (List.mem_cons_of_mem _ hq)) fun q hq => h2 q (List.mem_cons_of_mem _ hq)
  have second : ∀ a p b, ps = a ++ p :: b → (∀ q ∈ a, q.1 < rows.length + 3) → rows.length + 3 ≤ p.1 →
      (p.2.1 = rows.length + 3 → ensureWritten ⟨none, none⟩ (writeChunk rows) ps = .error .valueError) ∧
      (p.2.1 ≠ rows.length + 3 → ensureWritten ⟨none, none⟩ (writeChunk rows) ps = .ok true ∧
        ∀ t, p.2.2 ≤ t → (at' ⟨none, none⟩ (writeChunk rows) t).data = some rows) := by
    rintro a p b rfl ha hp
    have h1 := ho p (by simp)
    have e := key a (p :: b) (fun q hq => ho q (by simp [hq])) ha
    rw [e, ensureWritten, C175_new_turn rows _ _ _ h1.1 h1.2, if_neg (by omega)]
    constructor
    · intro h; rw [if_pos h]
    · intro h
      rw [if_neg h]
      refine ⟨rfl, fun t ht => ?_⟩
      rw [(files_at _ rows t).2.2.2 (by omega)]
  refine ⟨⟨fun h => ?_, fun h => ?_⟩, second⟩
  · have := key ps [] ho h
    rw [List.append_nil] at this
    rw [this]; rfl
  · by_contra hc
    push Not at hc
    obtain ⟨p, hp, hp'⟩ := hc
    -- the first turn that finds both files
    have : ∀ l : List (ℕ × ℕ × ℕ), (∃ p ∈ l, rows.length + 3 ≤ p.1) → ∃ a p b, l = a ++ p :: b ∧ (∀ q ∈ a, q.1 < rows.length + 3) ∧ rows.length + 3 ≤ p.1 := by
      intro l
      induction l with
      | nil => simp
      | cons x l ih =>
        intro hx
        by_cases hx1 : rows.length + 3 ≤ x.1
        · exact ⟨[], x, l, rfl, by simp, hx1⟩
        · obtain ⟨p, hp, hp'⟩ := hx
          rcases List.mem_cons.1 hp with rfl | hp
          · exact absurd hp' hx1
          · obtain ⟨a, p, b, rfl, ha, hp⟩ := ih ⟨p, hp, hp'⟩
            refine ⟨x :: a, p, b, rfl, ?_, hp⟩
            intro q hq
            rcases List.mem_cons.1 hq with rfl | hq
            · omega
            · exact ha q hq
    obtain ⟨a, p, b, e, ha, hp⟩ := this ps ⟨p, hp, hp'⟩
    obtain ⟨s1, s2⟩ := second a p b e ha hp
    by_cases h3 : p.2.1 = rows.length + 3
    · rw [s1 h3] at h; cases h
    · rw [(s2 h3).1] at h; cases h

/-- **C175 (disagreement: a chunk written again).**  If the chunk already existed with at most as many rows, a reader that looks after the file got its
new length and before the metadata is rewritten is told `True`, although the file then holds only the first rows of the new data followed by zeros. -/
theorem C175_rewrite (old rows : List R) (hl : old.length ≤ rows.length) (k : ℕ) (hk : k ≤ rows.length) (ps : List (ℕ × ℕ × ℕ)) :
    ensureWritten ⟨some old, some (some old.length)⟩ (writeChunk rows) ((2 + k, 2 + k, 2 + k) :: ps) = .ok true ∧
      (at' ⟨some old, some (some old.length)⟩ (writeChunk rows) (2 + k)).data = some (rows.take k ++ List.replicate (rows.length - k) 0) := by
  have h := data_phase (⟨some old, some (some old.length)⟩ : FS R) rows k hk
  constructor
  · rw [ensureWritten]
    simp only [h, turn]
    have : old.length ≤ (rows.take k ++ List.replicate (rows.length - k) (0 : R)).length := by
      simp only [List.length_append, List.length_take, List.length_replicate]; omega
    simp only [Option.isSome_some, Bool.and_self, if_true, if_pos this]
  · rw [h]

/-- **C175 (disagreement: metadata being written).**  During every write of a chunk, new or not, a reader that looks while the metadata is written gets a
`ValueError` although the chunk is there a moment later. -/
theorem C175_raises (s : FS R) (rows : List R) (ps : List (ℕ × ℕ × ℕ)) :
    ensureWritten s (writeChunk rows) ((rows.length + 3, rows.length + 3, rows.length + 3) :: ps) = .error .valueError ∧
      at' s (writeChunk rows) (rows.length + 4) = ⟨some rows, some (some rows.length)⟩ := by
  refine ⟨?_, (files_at s rows _).2.2.2 le_rfl⟩
  rw [ensureWritten]
  simp [(files_at s rows (rows.length + 3)).2.2.1 rfl, turn]

omit [Zero R] in
/-- **C175** (whatever other processes do to the files between the looks).  A turn ends the waiting with success only if both files were there, the metadata read was
complete and the data file looked at afterwards had at least the announced rows; with an exception only if the metadata read was cut off; files that vanished between the
looks count as not yet written. -/
theorem C175_any_files (s₀ s₁ s₂ : FS R) :
    (turn s₀ s₁ s₂ = .done ↔ (s₀.data ≠ none ∧ s₀.info ≠ none) ∧ ∃ n l, s₁.info = some (some n) ∧ s₂.data = some l ∧ n ≤ l.length) ∧
    (∀ e, turn s₀ s₁ s₂ = .raised e ↔ (s₀.data ≠ none ∧ s₀.info ≠ none) ∧ s₁.info = some none ∧ e = .valueError) ∧
    ((s₁.info = none ∨ (s₂.data = none ∧ s₁.info ≠ some none)) → turn s₀ s₁ s₂ = .again) := by
  unfold turn
  rcases s₀ with ⟨_ | d0, _ | i0⟩ <;> rcases s₁ with ⟨d1, _ | _ | n⟩ <;> rcases s₂ with ⟨_ | l, i2⟩ <;> simp [eq_comm]
  all_goals by_cases h : n ≤ l.length <;> simp [h]

/-- A chunk of two rows: looking at times 0 and 4 finds nothing, at time 6 everything. -/
example : ensureWritten (R := ℕ) ⟨none, none⟩ (writeChunk [7, 8]) [(0, 0, 0), (4, 4, 4), (6, 6, 6)] = .ok true := by decide

/-- Rewriting the rows 1, 2 with 7, 8: `True` while the file holds 7, 0. -/
example : ensureWritten (R := ℕ) ⟨some [1, 2], some (some 2)⟩ (writeChunk [7, 8]) [(3, 3, 3)] = .ok true ∧
    (at' (R := ℕ) ⟨some [1, 2], some (some 2)⟩ (writeChunk [7, 8]) 3).data = some [7, 0] :=
  C175_rewrite [1, 2] [7, 8] le_rfl 1 (by decide) []

end Verif.Disk.Wait
