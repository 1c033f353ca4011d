import Mathlib.Data.List.GetD
import Mathlib.Data.List.Nodup
import Mathlib.Tactic.Ring
import Mathlib.Tactic.Linarith
import Verif.Bench.Windows

/-!
# C74, C75: windows and blocks of sequences
-/

namespace Verif.Windows

/-! ### C74 -/

/-- C74: every item is a window of the piece with its successor tokens: for some start, input position `k` is
token `start + k` of the piece and target position `k` the token after it, where after the last token of the
piece comes END, and everything further is padding. -/
theorem C74_aligned {raw : List ℕ} (h0 : raw ≠ []) (maxSeq : ℕ) (randomSeq : Bool) (offset draw : ℕ)
    (ho : offset = 0 ∨ raw.length < maxSeq + 1 ∨ offset + maxSeq + 1 ≤ raw.length)
    (hd : raw.length < maxSeq + 1 ∨ draw + maxSeq + 1 ≤ raw.length) :
    ∃ x y start, processMidi raw maxSeq randomSeq offset draw = (x, y) ∧ x.length = maxSeq ∧ y.length = maxSeq ∧
      (raw.length ≤ maxSeq → start = 0) ∧ (maxSeq < raw.length → start + maxSeq < raw.length) ∧
      (maxSeq < raw.length →
        start = if offset ≠ 0 then offset else if randomSeq then draw else 0) ∧
      ∀ k < maxSeq, x[k]? = some (raw.getD (start + k) PAD) ∧
        y[k]? = some (raw.getD (start + k + 1) (if start + k + 1 = raw.length then END else PAD)) := by
  have hl : raw.length ≠ 0 := by simpa using h0
  unfold processMidi
  rw [if_neg hl]
  by_cases hs : raw.length < maxSeq + 1
  · rw [if_pos hs]
    refine ⟨_, _, 0, rfl, ?_, ?_, fun _ => rfl, fun h => absurd h (by omega), fun h => absurd h (by omega), ?_⟩
    · simp; omega
    · simp; omega
    · intro k hk
      constructor
      · by_cases hk' : k < raw.length
        · rw [List.getElem?_append_left hk', List.getElem?_eq_getElem hk', Nat.zero_add,
            List.getD_eq_getElem _ _ hk']
        · rw [List.getElem?_append_right (by omega), List.getElem?_replicate, if_pos (by omega), Nat.zero_add,
            List.getD_eq_default _ _ (by omega)]
      · by_cases hk' : k + 1 < raw.length
        · rw [List.append_assoc, List.getElem?_append_left (by simp; omega), List.getElem?_drop, Nat.add_comm 1 k,
            List.getElem?_eq_getElem hk', Nat.zero_add, List.getD_eq_getElem _ _ hk']
        · rw [List.getD_eq_default _ _ (by omega)]
          by_cases hk2 : k + 1 = raw.length
          · rw [if_pos (by omega), List.getElem?_append_left (by simp; omega),
              List.getElem?_append_right (by simp; omega), List.length_drop,
              show k - (raw.length - 1) = 0 by omega]
            rfl
          · rw [if_neg (by omega), List.getElem?_append_right (by simp; omega), List.getElem?_replicate,
              if_pos (by simp; omega)]
  · rw [if_neg hs]
    set start := if offset ≠ 0 then offset else if randomSeq then draw else 0 with hst
    have hb : start + maxSeq + 1 ≤ raw.length := by
      rw [hst]; split_ifs <;> omega
    have hlen : ((raw.drop start).take (maxSeq + 1)).length = maxSeq + 1 := by simp; omega
    refine ⟨_, _, start, rfl, by simp; omega, by simp; omega, fun h => absurd h (by omega), fun _ => by omega,
      fun _ => rfl, ?_⟩
    intro k hk
    constructor
    · rw [List.getElem?_take_of_lt hk, List.getElem?_take_of_lt (by omega), List.getElem?_drop,
        List.getElem?_eq_getElem (by omega), List.getD_eq_getElem _ _ (by omega)]
    · rw [List.getElem?_drop, List.getElem?_take_of_lt (by omega), List.getElem?_take_of_lt (by omega),
        List.getElem?_drop, List.getElem?_eq_getElem (by omega), List.getD_eq_getElem _ _ (by omega)]
      congr 2
      omega

/-- C74: the two special tokens are 388 and 389. A piece of events (codes below 388, C70) of at most `maxSeq` tokens gives an input without 388, padded with 389, and a
target that has 388 exactly once, right after the last event; an empty piece gives padding only. -/
theorem C74_tokens {raw : List ℕ} {maxSeq : ℕ} (hr : ∀ t ∈ raw, t < 388) (hs : raw.length ≤ maxSeq) (randomSeq : Bool) (offset draw : ℕ) :
    ∃ x y, processMidi raw maxSeq randomSeq offset draw = (x, y) ∧ x = raw ++ List.replicate (maxSeq - raw.length) 389 ∧
      388 ∉ x ∧ (raw = [] → y = List.replicate maxSeq 389) ∧
      (raw ≠ [] → y = raw.drop 1 ++ 388 :: List.replicate (maxSeq - raw.length) 389 ∧ y.count 388 = 1) := by
  have hn : ∀ l : List ℕ, (∀ t ∈ l, t < 388) → 388 ∉ l := fun l h hm => absurd (h _ hm) (lt_irrefl _)
  have hx : 388 ∉ raw ++ List.replicate (maxSeq - raw.length) 389 := by
    rw [List.mem_append]
    rintro (h | h)
    · exact hn raw hr h
    · have := List.eq_of_mem_replicate h
      omega
  unfold processMidi
  by_cases h0 : raw = []
  · subst h0
    exact ⟨_, _, rfl, rfl, hx, fun _ => rfl, fun h => absurd rfl h⟩
  · rw [if_neg (by simpa using h0), if_pos (by omega)]
    refine ⟨_, _, rfl, rfl, hx, fun h => absurd h h0, fun _ => ⟨by rw [List.append_assoc]; rfl, ?_⟩⟩
    have h1 : (raw.drop 1).count 388 = 0 := List.count_eq_zero.2 (hn _ fun t ht => hr t (List.mem_of_mem_drop ht))
    have h2 : (List.replicate (maxSeq - raw.length) PAD).count 388 = 0 := List.count_eq_zero.2 fun h =>
      absurd (List.eq_of_mem_replicate h) (by decide)
    rw [List.count_append, List.count_append, h1, h2]
    rfl

/-- Three events and two places of padding. -/
example : processMidi [5, 6, 7] 5 true 0 0 = ([5, 6, 7, 389, 389], [6, 7, 388, 389, 389]) := by decide

theorem pyRange_eq {step : ℕ} (hs : 0 < step) (n : ℕ) : pyRange n step = (List.range (ceilDiv n step)).map (· * step) := by
  unfold pyRange ceilDiv
  induction n with
  | zero =>
    rw [Nat.div_eq_of_lt (by omega)]; rfl
  | succ n ih =>
    rw [List.range_succ, List.filter_append, ih]
    have hdiv := Nat.div_add_mod n step
    have hmod := Nat.mod_lt n hs
    by_cases h : n % step = 0
    · have e1 : (n + step - 1) / step = n / step := by
        rw [Nat.div_eq_iff hs]
        constructor
        · rw [Nat.mul_comm]; omega
        · rw [Nat.mul_comm]; omega
      have e2 : (n + 1 + step - 1) / step = n / step + 1 := by
        rw [show n + 1 + step - 1 = n + step by omega, Nat.add_div_right _ hs]
      rw [e1, e2, List.range_succ, List.map_append]
      congr 1
      simp only [List.filter_cons, List.filter_nil, h, decide_true, if_true, List.map_cons, List.map_nil]
      rw [Nat.div_mul_cancel (Nat.dvd_of_mod_eq_zero h)]
    · have e1 : (n + step - 1) / step = n / step + 1 := by
        rw [Nat.div_eq_iff hs]
        constructor
        · rw [Nat.add_mul, Nat.one_mul, Nat.mul_comm]; omega
        · rw [Nat.add_mul, Nat.one_mul, Nat.mul_comm]; omega
      have e2 : (n + 1 + step - 1) / step = n / step + 1 := by
        rw [show n + 1 + step - 1 = n + step by omega, Nat.add_div_right _ hs]
      rw [e1, e2]
      simp [h]

theorem mem_pyRange {n step k : ℕ} : k ∈ pyRange n step ↔ k < n ∧ step ∣ k := by
  unfold pyRange
  rw [List.mem_filter, List.mem_range, decide_eq_true_iff, Nat.dvd_iff_mod_eq_zero]

/-- C74: with a positive stride the table of windows is built without an error (the assertion holds), lists no
window twice, and consists of exactly the windows that start at a multiple of the stride and whose targets
end inside their piece. -/
theorem C74_table (files : List (List ℕ)) (maxSeq : ℕ) {stride : ℕ} (hs : 0 < stride) :
    ∃ table, windowTable files maxSeq stride = .ok table ∧ table.Nodup ∧
      ∀ f o, (f, o) ∈ table ↔ ∃ raw, files[f]? = some raw ∧ stride ∣ o ∧ o + maxSeq + 1 ≤ raw.length := by
  unfold windowTable
  rw [if_neg (by omega)]
  simp only
  have hlen : (files.map fun raw => ceilDiv (raw.length - maxSeq) stride).sum =
      ((List.range files.length).flatMap fun f =>
        (pyRange ((files.getD f []).length - maxSeq) stride).map fun o => (f, o)).length := by
    rw [List.length_flatMap]
    congr 1
    apply List.ext_getElem
    · simp
    · intro k h1 h2
      have hk : k < files.length := by simpa using h1
      simp only [List.getElem_map, List.getElem_range, List.length_map, pyRange_eq hs, List.length_range]
      rw [List.getD_eq_getElem _ _ hk]
  rw [if_pos hlen]
  refine ⟨_, rfl, ?_, ?_⟩
  · rw [List.nodup_flatMap]
    constructor
    · intro f _
      refine List.Nodup.map (fun a b h => by simpa using h) ?_
      exact List.Nodup.filter _ List.nodup_range
    · refine List.Pairwise.imp ?_ (List.pairwise_lt_range (n := files.length))
      intro a b hab
      simp only [Function.onFun, List.disjoint_left, List.mem_map]
      rintro ⟨f, o⟩ ⟨o1, _, h1⟩ ⟨o2, _, h2⟩
      cases h1; cases h2; omega
  · intro f o
    simp only [List.mem_flatMap, List.mem_range, List.mem_map, mem_pyRange, Prod.mk.injEq]
    constructor
    · rintro ⟨f', hf, o', ⟨h1, h2⟩, rfl, rfl⟩
      rw [List.getD_eq_getElem _ _ hf] at h1
      exact ⟨files[f'], List.getElem?_eq_getElem hf, h2, by omega⟩
    · rintro ⟨raw, hf, h1, h2⟩
      obtain ⟨hf', rfl⟩ := List.getElem?_eq_some_iff.1 hf
      refine ⟨f, hf', o, ⟨?_, h1⟩, rfl, rfl⟩
      rw [List.getD_eq_getElem _ _ hf']
      omega

theorem flatMap_chunks {α : Type} (l : List α) (b m : ℕ) :
    ((List.range m).flatMap fun k => (l.drop (k * b)).take b) = l.take (m * b) := by
  induction m with
  | zero => simp
  | succ m ih =>
    rw [List.range_succ, List.flatMap_append, ih, Nat.succ_mul, List.take_add]
    simp

/-- C74: in the full version with non-overlapping windows and `random_seq` off, the inputs of the windows of a
piece of `n` tokens join to its first `max_seq * ((n - 1) / max_seq)` tokens, and the targets to as many
tokens from the second on. -/
theorem C74_cover {raw : List ℕ} {maxSeq : ℕ} (hm : 0 < maxSeq) (draw : ℕ) :
    ((pyRange (raw.length - maxSeq) maxSeq).flatMap fun o => (processMidi raw maxSeq false o draw).1) =
      raw.take ((raw.length - 1) / maxSeq * maxSeq) ∧
    ((pyRange (raw.length - maxSeq) maxSeq).flatMap fun o => (processMidi raw maxSeq false o draw).2) =
      (raw.drop 1).take ((raw.length - 1) / maxSeq * maxSeq) := by
  by_cases hs : raw.length ≤ maxSeq
  · have e1 : raw.length - maxSeq = 0 := by omega
    have e2 : (raw.length - 1) / maxSeq = 0 := Nat.div_eq_of_lt (by omega)
    rw [e1, e2]
    simp [pyRange]
  · have e : ceilDiv (raw.length - maxSeq) maxSeq = (raw.length - 1) / maxSeq := by
      unfold ceilDiv
      congr 1
      omega
    have hk : ∀ k ∈ List.range ((raw.length - 1) / maxSeq), k * maxSeq + maxSeq + 1 ≤ raw.length := by
      intro k hk
      have h1 : k + 1 ≤ (raw.length - 1) / maxSeq := List.mem_range.1 hk
      have h2 := (Nat.le_div_iff_mul_le hm).1 h1
      rw [Nat.add_mul, Nat.one_mul] at h2
      omega
    have hp : ∀ k ∈ List.range ((raw.length - 1) / maxSeq),
        processMidi raw maxSeq false (k * maxSeq) draw =
          ((raw.drop (k * maxSeq)).take maxSeq, ((raw.drop 1).drop (k * maxSeq)).take maxSeq) := by
      intro k hk'
      have := hk k hk'
      unfold processMidi
      rw [if_neg (by omega), if_neg (by omega)]
      have hst : (if k * maxSeq ≠ 0 then k * maxSeq else if false = true then draw else 0) = k * maxSeq := by
        by_cases h : k * maxSeq = 0 <;> simp [h]
      simp only [hst]
      rw [List.take_take, Nat.min_eq_left (by omega), List.take_take, Nat.min_self, List.drop_take, List.drop_drop,
        List.drop_drop, Nat.add_sub_cancel, Nat.add_comm 1]
    rw [pyRange_eq hm, e, List.flatMap_map, List.flatMap_map]
    constructor
    · rw [← flatMap_chunks raw maxSeq]
      exact List.flatMap_congr fun k hk' => by rw [hp k hk']
    · rw [← flatMap_chunks (raw.drop 1) maxSeq]
      exact List.flatMap_congr fun k hk' => by rw [hp k hk']

/-- C74: in the full version with `random_seq` left on, the window at offset 0 of a piece starts wherever the draw
says, although the documentation says that `random_seq` is ignored; the other windows are as listed. -/
theorem C74_first_window_random {files : List (List ℕ)} {maxSeq stride : ℕ} {table : List (ℕ × ℕ)}
    (hs : 0 < stride) (ht : windowTable files maxSeq stride = .ok table) {idx f o draw : ℕ} {raw : List ℕ}
    (hi : table[idx]? = some (f, o)) (hf : files[f]? = some raw) (hd : draw + maxSeq + 1 ≤ raw.length) :
    fullItem files table maxSeq true idx draw =
      .ok ((raw.drop (if o = 0 then draw else o)).take maxSeq,
        (raw.drop ((if o = 0 then draw else o) + 1)).take maxSeq) ∧
    fullItem files table maxSeq false idx draw = .ok ((raw.drop o).take maxSeq, (raw.drop (o + 1)).take maxSeq) := by
  obtain ⟨table', ht', _, hmem⟩ := C74_table files maxSeq hs
  rw [ht] at ht'
  cases ht'
  obtain ⟨raw', hf', _, ho⟩ := (hmem f o).1 (List.mem_of_getElem? hi)
  rw [hf] at hf'
  cases hf'
  have hg : files.getD f [] = raw := by
    rw [List.getD_eq_getElem?_getD, hf]; rfl
  have key : ∀ (r : Bool) (s : ℕ), (if o ≠ 0 then o else if r = true then draw else 0) = s →
      processMidi raw maxSeq r o draw = ((raw.drop s).take maxSeq, (raw.drop (s + 1)).take maxSeq) := by
    intro r s hs'
    unfold processMidi
    rw [if_neg (by omega), if_neg (by omega)]
    simp only [hs']
    rw [List.take_take, Nat.min_eq_left (by omega), List.take_take, Nat.min_self, List.drop_take, List.drop_drop,
      Nat.add_sub_cancel]
  unfold fullItem
  rw [hi]
  simp only [hg]
  refine ⟨?_, ?_⟩
  · rw [key true (if o = 0 then draw else o) (by by_cases h : o = 0 <;> simp [h])]
  · rw [key false o (by by_cases h : o = 0 <;> simp [h])]

example : processMidi [5, 6, 7] 5 true 0 0 = ([5, 6, 7, PAD, PAD], [6, 7, END, PAD, PAD]) := by decide
example : windowTable [[1, 2, 3, 4, 5, 6, 7], [1, 2]] 2 2 = .ok [(0, 0), (0, 2), (0, 4)] := by decide
/-- The first window of the piece is the same as another one, for an admissible draw. -/
example : fullItem [[1, 2, 3, 4, 5, 6, 7]] [(0, 0), (0, 2), (0, 4)] 2 true 0 2 =
    fullItem [[1, 2, 3, 4, 5, 6, 7]] [(0, 0), (0, 2), (0, 4)] 2 true 1 0 := by decide

/-! ### C75 -/

/-- C75: the inputs of all items join to the longest prefix of the corpus whose length is a multiple of the block
size; the targets join to as many tokens of the corpus from the second on, where a zero follows the corpus. -/
theorem C75_blocks {data : List ℕ} {block m : ℕ} (h : blockCount data block = .ok m) :
    ((List.range m).flatMap fun i => (blockItem data block i).1) = data.take (data.length / block * block) ∧
    ((List.range m).flatMap fun i => (blockItem data block i).2) =
      (data.drop 1 ++ [0]).take (data.length / block * block) ∧
    (∀ i < m, (blockItem data block i).1.length = block ∧ (blockItem data block i).2.length = block) := by
  unfold blockCount at h
  split_ifs at h with hb
  cases h
  have hle : ∀ i < data.length / block, i * block + block ≤ data.length := by
    intro i hi
    have := (Nat.le_div_iff_mul_le (Nat.pos_of_ne_zero hb)).1 (Nat.succ_le_of_lt hi)
    rwa [Nat.succ_mul] at this
  have hy : ∀ i < data.length / block, (blockItem data block i).2 =
      ((data.drop 1 ++ [0]).drop (i * block)).take block := by
    intro i hi
    have h1 := hle i hi
    unfold blockItem
    simp only
    rw [List.drop_append, List.drop_drop, Nat.add_comm 1 (i * block), List.take_append]
    split_ifs with hlt
    · simp only [List.length_take, List.length_drop] at hlt ⊢
      have he : data.length = i * block + block := by omega
      congr 1
      rw [show block - min block (data.length - (i * block + 1)) = 1 by omega,
        show i * block - (data.length - 1) = 0 by omega, show block - (data.length - (i * block + 1)) = 1 by omega]
      rfl
    · simp only [List.length_take, List.length_drop] at hlt
      simp only [List.length_drop]
      rw [show block - (data.length - (i * block + 1)) = 0 by omega]
      simp
  refine ⟨?_, ?_, ?_⟩
  · rw [← flatMap_chunks data block]
    rfl
  · rw [← flatMap_chunks (data.drop 1 ++ [0]) block]
    exact List.flatMap_congr fun i hi => hy i (List.mem_range.1 hi)
  · intro i hi
    have h1 := hle i hi
    constructor
    · simp [blockItem]; omega
    · rw [hy i hi]
      simp
      omega

/-- C75: the filling zero is used exactly in the last block of a corpus whose length is a multiple of the block
size; all other targets are the tokens after the inputs. -/
theorem C75_padding {data : List ℕ} {block i k : ℕ} (hi : i < data.length / block) (hk : k < block) :
    (blockItem data block i).2[k]? = some (data.getD (i * block + k + 1) 0) ∧
    (data.length ≤ i * block + k + 1 ↔ data.length % block = 0 ∧ i + 1 = data.length / block ∧ k + 1 = block) := by
  have hb : 0 < block := by omega
  have h1 : i * block + block ≤ data.length := by
    have := (Nat.le_div_iff_mul_le hb).1 (Nat.succ_le_of_lt hi)
    rwa [Nat.succ_mul] at this
  constructor
  · unfold blockItem
    simp only
    by_cases hlt : i * block + k + 1 < data.length
    · have : ((data.drop (i * block + 1)).take block)[k]? = some (data.getD (i * block + k + 1) 0) := by
        rw [List.getElem?_take_of_lt hk, List.getElem?_drop,
          show i * block + 1 + k = i * block + k + 1 by omega, List.getElem?_eq_getElem hlt,
          List.getD_eq_getElem _ _ hlt]
      split_ifs
      · rw [List.getElem?_append_left (by simp; omega), this]
      · exact this
    · rw [List.getD_eq_default _ _ (by omega), if_pos (by simp; omega), List.getElem?_append_right (by simp; omega),
        List.getElem?_replicate, if_pos (by simp; omega)]
  · constructor
    · intro h
      have he : data.length = i * block + block := by omega
      refine ⟨?_, ?_, by omega⟩
      · rw [he, ← Nat.succ_mul]; exact Nat.mul_mod_left _ _
      · rw [he, ← Nat.succ_mul, Nat.mul_div_cancel _ hb]
    · rintro ⟨h2, h3, h4⟩
      have := Nat.div_add_mod data.length block
      rw [h2, ← h3, Nat.mul_add, Nat.mul_comm, Nat.mul_one] at this
      omega

/-- C75: the index after the last block gives the tokens left over, with zeros after the targets. -/
theorem C75_rest {data : List ℕ} {block : ℕ} (hb : 0 < block) :
    blockItem data block (data.length / block) =
      (data.drop (data.length / block * block),
        data.drop (data.length / block * block + 1) ++
          List.replicate (block - (data.length - (data.length / block * block + 1))) 0) := by
  have h2 := Nat.div_add_mod data.length block
  have h3 := Nat.mod_lt data.length hb
  rw [Nat.mul_comm] at h2
  have h4 : (data.drop (data.length / block * block)).length ≤ block := by rw [List.length_drop]; omega
  have h5 : (data.drop (data.length / block * block + 1)).length < block := by rw [List.length_drop]; omega
  unfold blockItem
  simp only [List.take_of_length_le h4, List.take_of_length_le h5.le]
  rw [if_pos h5, List.length_drop]

/-- C75: the data set never raises an index error: further past its end it returns an empty input and a target of
zeros, so a plain loop over it does not end. -/
theorem C75_no_end {data : List ℕ} {block i : ℕ} (hb : 0 < block) (hi : data.length / block < i) :
    blockItem data block i = ([], List.replicate block 0) := by
  have h1 : data.length ≤ i * block := by
    have h2 := Nat.div_add_mod data.length block
    have h3 := Nat.mod_lt data.length hb
    have h4 : block * (data.length / block + 1) ≤ block * i := Nat.mul_le_mul_left _ hi
    rw [Nat.mul_add, Nat.mul_one] at h4
    rw [Nat.mul_comm i]
    omega
  unfold blockItem
  rw [List.drop_eq_nil_of_le h1, List.drop_eq_nil_of_le (by omega : data.length ≤ i * block + 1)]
  simp [hb]

/-- C75: taking a subset raises exactly if it is empty or has two items with different numbers of input tokens, item `i` having the
tokens from `i * block` on, at most `block`. -/
theorem C75_subset_fails (data : List ℕ) (block : ℕ) (indices : List ℕ) :
    blockSubset data block indices = .error .runtimeError ↔
      indices = [] ∨ ∃ i ∈ indices, ∃ j ∈ indices, min block (data.length - i * block) ≠ min block (data.length - j * block) := by
  have hlen : ∀ i, (blockItem data block i).1.length = min block (data.length - i * block) := by
    intro i; simp [blockItem]
  unfold blockSubset
  cases indices with
  | nil => simp
  | cons a l =>
    simp only [List.map_cons]
    split
    · rename_i h
      simp only [reduceCtorEq, false_iff, not_or, not_exists, not_and, not_not]
      refine ⟨by simp, fun i hi j hj => ?_⟩
      have key : ∀ i ∈ a :: l, min block (data.length - i * block) = min block (data.length - a * block) := by
        intro i hi
        have := h (blockItem data block i) (by rw [← List.map_cons]; exact List.mem_map_of_mem hi)
        rwa [hlen, hlen] at this
      rw [key i hi, key j hj]
    · rename_i h
      simp only [true_iff]
      right
      push Not at h
      obtain ⟨it, hit, hne⟩ := h
      rw [← List.map_cons, List.mem_map] at hit
      obtain ⟨i, hi, rfl⟩ := hit
      rw [hlen, hlen] at hne
      exact ⟨i, hi, a, by simp, hne⟩

/-- C75: a subset of items in range is the list of these items. -/
theorem C75_subset {data : List ℕ} {block : ℕ} {indices : List ℕ} (h0 : indices ≠ [])
    (h : ∀ i ∈ indices, i < data.length / block) :
    blockSubset data block indices =
      .ok (indices.map fun i => (blockItem data block i).1, indices.map fun i => (blockItem data block i).2) := by
  obtain ⟨a, l, rfl⟩ := List.exists_cons_of_ne_nil h0
  have hb : block ≠ 0 := by
    rintro rfl
    have := h a (by simp)
    rw [Nat.div_zero] at this
    cases this
  have hlen := (C75_blocks (data := data) (block := block) (m := data.length / block) (by simp [blockCount, hb])).2.2
  unfold blockSubset
  simp only [List.map_cons]
  rw [if_pos]
  · simp [Function.comp_def]
  · intro it hit
    rw [← List.map_cons (f := blockItem data block), List.mem_map] at hit
    obtain ⟨i, hi, rfl⟩ := hit
    rw [(hlen i (h i hi)).1, (hlen a (h a (by simp))).1]

example : blockCount [1, 2, 3, 4, 5, 6] 3 = .ok 2 ∧ blockItem [1, 2, 3, 4, 5, 6] 3 0 = ([1, 2, 3], [2, 3, 4]) ∧
    blockItem [1, 2, 3, 4, 5, 6] 3 1 = ([4, 5, 6], [5, 6, 0]) := by decide
example : blockItem [1, 2, 3, 4, 5] 3 1 = ([4, 5], [5, 0, 0]) := C75_rest (by decide)
example : blockItem [1, 2, 3, 4, 5, 6] 3 7 = ([], [0, 0, 0]) := C75_no_end (by decide) (by decide)

end Verif.Windows
