import Verif.Bench.CharModel
import Mathlib.Data.List.Sort
import Mathlib.Data.Finset.Card
import Mathlib.Tactic.Linarith
import Mathlib.Tactic.NormNum
import Mathlib.Tactic.Positivity
import Mathlib.Tactic.FieldSimp

/-!
# C188: character data sets
-/

namespace Verif.Chars

variable {α : Type} [LinearOrder α]

/-! ### Helper lemmas -/

theorem chars_mem (data : List α) (c : α) : c ∈ chars data ↔ c ∈ data := by
  unfold chars
  rw [(List.mergeSort_perm _ _).mem_iff, List.mem_dedup]

theorem chars_nodup (data : List α) : (chars data).Nodup := (List.mergeSort_perm _ _).nodup_iff.2 (List.nodup_dedup data)

theorem chars_lt (data : List α) : (chars data).Pairwise (· < ·) := by
  have h1 : (chars data).Pairwise (· ≤ ·) := by
    have := List.pairwise_mergeSort (le := fun a b : α => decide (a ≤ b)) (by intro a b c; simpa using le_trans) (by intro a b; simpa using le_total a b) data.dedup
    exact this.imp (by simp)
  exact (h1.and (chars_nodup data)).imp fun h => lt_of_le_of_ne h.1 h.2

theorem lookup_zipIdx (l : List α) (k : ℕ) (c : α) : (l.zipIdx k).lookup c = if c ∈ l then some (l.idxOf c + k) else none := by
  induction l generalizing k with
  | nil => simp
  | cons a l ih =>
    rw [List.zipIdx_cons, List.lookup_cons]
    by_cases h : c = a
    · subst h
      simp
    · have hb : (c == a) = false := by simpa using h
      rw [hb]
      simp only [ih, List.mem_cons, h, false_or]
      by_cases hc : c ∈ l
      · simp only [hc, if_true]
        rw [List.idxOf_cons_ne _ (Ne.symm h)]
        congr 1
        omega
      · simp [hc]

theorem stoi_eq (data : List α) (c : α) : stoi data c = if c ∈ data then .ok ((chars data).idxOf c) else .error .keyError := by
  unfold stoi
  rw [lookup_zipIdx]
  by_cases h : c ∈ data
  · simp [chars_mem, h]
  · simp [chars_mem, h]

theorem encode_ok (data s : List α) (h : ∀ c ∈ s, c ∈ data) : encode data s = .ok (s.map fun c => (chars data).idxOf c) := by
  unfold encode
  induction s with
  | nil => rfl
  | cons a s ih =>
    rw [List.mapM_cons, stoi_eq, if_pos (h a (by simp)), ih fun c hc => h c (by simp [hc])]
    rfl

theorem encode_error (data s : List α) (h : ¬ ∀ c ∈ s, c ∈ data) : encode data s = .error .keyError := by
  unfold encode
  induction s with
  | nil => simp at h
  | cons a s ih =>
    rw [List.mapM_cons, stoi_eq]
    by_cases ha : a ∈ data
    · rw [if_pos ha, ih fun h' => h (by simpa [ha] using h')]
      rfl
    · rw [if_neg ha]
      rfl

theorem decode_map (data s : List α) (h : ∀ c ∈ s, c ∈ data) : decode data (s.map fun c => (chars data).idxOf c) = .ok s := by
  unfold decode
  induction s with
  | nil => rfl
  | cons a s ih =>
    have ha : (chars data)[(chars data).idxOf a]? = some a := by
      have hlt : (chars data).idxOf a < (chars data).length := List.idxOf_lt_length_iff.2 ((chars_mem data a).2 (h a (by simp)))
      rw [List.getElem?_eq_getElem hlt, List.getElem_idxOf hlt]
    rw [List.map_cons, List.mapM_cons, ih fun c hc => h c (by simp [hc])]
    simp only [itos, ha]
    rfl

/-- The position in a strictly increasing list is the number of smaller elements. -/
theorem idxOf_lt (l : List α) (hl : l.Pairwise (· < ·)) (c : α) (hc : c ∈ l) : l.idxOf c = (l.toFinset.filter (· < c)).card := by
  induction l with
  | nil => simp at hc
  | cons a l ih =>
    rw [List.pairwise_cons] at hl
    by_cases h : c = a
    · subst h
      rw [List.idxOf_cons_self, eq_comm, Finset.card_eq_zero, Finset.filter_eq_empty_iff]
      intro x hx
      rw [List.mem_toFinset, List.mem_cons] at hx
      rcases hx with rfl | hx
      · exact lt_irrefl _
      · exact not_lt.2 (hl.1 x hx).le
    · have hcl : c ∈ l := by simpa [h] using hc
      have hac := hl.1 c hcl
      rw [List.idxOf_cons_ne _ (Ne.symm h), ih hl.2 hcl, List.toFinset_cons, Finset.filter_insert, if_pos hac, Finset.card_insert_of_notMem]
      intro hx
      rw [Finset.mem_filter, List.mem_toFinset] at hx
      exact lt_irrefl _ (hl.1 a hx.1)

/-! ### C188 -/

/-- **C188** (numbers). A character of the text has as its number the number of smaller characters in the text; other characters are a `KeyError`. -/
theorem C188_number (data : List α) (c : α) :
    (c ∈ data → stoi data c = .ok ((data.toFinset.filter (· < c)).card)) ∧ (c ∉ data → stoi data c = .error .keyError) := by
  refine ⟨fun h => ?_, fun h => by rw [stoi_eq, if_neg h]⟩
  rw [stoi_eq, if_pos h, idxOf_lt _ (chars_lt data) c ((chars_mem data c).2 h)]
  have : (chars data).toFinset = data.toFinset := by
    ext x
    simp [chars_mem]
  rw [this]

/-- **C188** (round trip). Encoding succeeds exactly for strings of characters of the text, gives one number below the number of distinct characters for each, and
decoding gives the string back. -/
theorem C188_round_trip (data s : List α) :
    (∀ ids, encode data s = .ok ids → (∀ c ∈ s, c ∈ data) ∧ ids.length = s.length ∧ (∀ i ∈ ids, i < data.toFinset.card) ∧ decode data ids = .ok s) ∧
      ((∀ c ∈ s, c ∈ data) → ∃ ids, encode data s = .ok ids) ∧ ((∃ c ∈ s, c ∉ data) → encode data s = .error .keyError) := by
  refine ⟨fun ids h => ?_, fun h => ⟨_, encode_ok data s h⟩, fun h => encode_error data s (by push Not; exact h)⟩
  by_cases hs : ∀ c ∈ s, c ∈ data
  · rw [encode_ok data s hs] at h
    injection h with h
    subst h
    refine ⟨hs, by simp, ?_, decode_map data s hs⟩
    intro i hi
    rw [List.mem_map] at hi
    obtain ⟨c, hc, rfl⟩ := hi
    have : (chars data).length = data.toFinset.card := by
      rw [← List.toFinset_card_of_nodup (chars_nodup data)]
      congr 1
      ext x
      simp [chars_mem]
    rw [← this]
    exact List.idxOf_lt_length_iff.2 ((chars_mem data c).2 (hs c hc))
  · rw [encode_error data s hs] at h
    cases h

/-- **C188** (the cut). In double precision, with any choice between two nearest doubles, `int(n*0.9)` is nine tenths of `n` rounded down, for every `n` below
`2^49`. -/
theorem C188_cut (r : ℚ → ℤ) (hr : ∀ y, |(r y : ℚ) - y| ≤ 1 / 2) (n : ℕ) (hn : n < 2 ^ 49) : cut r n = 9 * n / 10 := by
  unfold cut
  rcases Nat.eq_zero_or_pos n with rfl | hpos
  · simp
  rw [if_neg hpos.ne']
  set p : ℚ := n * nineTenths with hp
  have hn1 : (1 : ℚ) ≤ n := by exact_mod_cast hpos
  have hn2 : (n : ℚ) < (562949953421312 : ℚ) := by exact_mod_cast (by simpa using hn : n < 562949953421312)
  have hp0 : 0 < p := by rw [hp, nineTenths]; positivity
  have hpe : p = 9 * n / 10 + n / (5 * 2 ^ 53) := by rw [hp, nineTenths]; ring
  have hp53 : p < 2 ^ 53 := by
    rw [hpe]
    norm_num1
    linarith
  set e := Int.log 2 p with he
  have he1 : (2 : ℚ) ^ e ≤ p := by
    have := Int.zpow_log_le_self (R := ℚ) (b := 2) (by norm_num) hp0
    exact_mod_cast this
  have he52 : e ≤ 52 := by
    by_contra hc
    have h53 : (2 : ℚ) ^ (53 : ℤ) ≤ 2 ^ e := zpow_le_zpow_right₀ (by norm_num) (by omega)
    have : (2 : ℚ) ^ (53 : ℤ) = 2 ^ 53 := by norm_num
    linarith
  obtain ⟨k, hk⟩ : ∃ k : ℕ, (k : ℤ) = 52 - e := ⟨(52 - e).toNat, by omega⟩
  have hu : (2 : ℚ) ^ (e - 52) = 1 / 2 ^ k := by
    rw [show e - 52 = -(k : ℤ) by omega, zpow_neg, zpow_natCast, one_div]
  have hue : (2 : ℚ) ^ (e - 52) = 2 ^ e / 2 ^ 52 := by
    rw [zpow_sub₀ (by norm_num)]
    norm_num
  have hu0 : (0 : ℚ) < 2 ^ (e - 52) := zpow_pos (by norm_num) _
  set u : ℚ := 2 ^ (e - 52) with hudef
  have hup : u ≤ p / 2 ^ 52 := by
    rw [hue]
    exact div_le_div_of_nonneg_right he1 (by positivity)
  set q := 9 * n / 10 with hq
  have hq1 : 10 * q ≤ 9 * n := Nat.mul_div_le _ _
  have hq2 : 9 * n ≤ 10 * q + 9 := by omega
  have hq1' : (10 : ℚ) * q ≤ 9 * n := by exact_mod_cast hq1
  have hq2' : (9 : ℚ) * n ≤ 10 * q + 9 := by exact_mod_cast hq2
  have hround := abs_le.1 (hr (p / u))
  have hfl : toDouble r p = r (p / u) * u := rfl
  have hlow : (q : ℚ) ≤ toDouble r p := by
    have h1 : ((q * 2 ^ k : ℕ) : ℚ) ≤ p / u := by
      rw [hu, div_div_eq_mul_div, div_one]
      push_cast
      refine mul_le_mul_of_nonneg_right ?_ (by positivity)
      rw [hpe]
      have : (0 : ℚ) ≤ n / (5 * 2 ^ 53) := by positivity
      linarith
    have h2 : ((q * 2 ^ k : ℕ) : ℤ) ≤ r (p / u) := by
      have h3 : (((q * 2 ^ k : ℕ) : ℤ) : ℚ) < (r (p / u) : ℚ) + 1 := by
        rw [Int.cast_natCast]
        linarith [hround.1]
      have h4 : ((q * 2 ^ k : ℕ) : ℤ) < r (p / u) + 1 := by exact_mod_cast h3
      omega
    have h5 : ((q * 2 ^ k : ℕ) : ℚ) ≤ (r (p / u) : ℚ) := by exact_mod_cast h2
    calc (q : ℚ) = ((q * 2 ^ k : ℕ) : ℚ) * u := by rw [hu]; push_cast; field_simp
      _ ≤ r (p / u) * u := mul_le_mul_of_nonneg_right h5 hu0.le
      _ = toDouble r p := hfl.symm
  have hhigh : toDouble r p < q + 1 := by
    have h1 : toDouble r p ≤ p + u / 2 := by
      rw [hfl]
      have h2 : (r (p / u) : ℚ) ≤ p / u + 1 / 2 := by linarith [hround.2]
      calc (r (p / u) : ℚ) * u ≤ (p / u + 1 / 2) * u := mul_le_mul_of_nonneg_right h2 hu0.le
        _ = p + u / 2 := by field_simp
    have h3 : p + u / 2 ≤ p * (1 + 1 / 2 ^ 53) := by
      have : p * (1 + 1 / 2 ^ 53) = p + p / 2 ^ 52 / 2 := by ring
      rw [this]
      linarith
    refine (h1.trans h3).trans_lt ?_
    rw [hpe]
    norm_num1
    linarith
  have hfloor : ⌊toDouble r p⌋ = (q : ℤ) := Int.floor_eq_iff.2 ⟨by exact_mod_cast hlow, by exact_mod_cast hhigh⟩
  rw [hfloor, Int.toNat_natCast]

theorem toUInt16_some (ids : List ℕ) (h : ∀ i ∈ ids, i < 65536) : toUInt16 ids = some ids := if_pos h

/-- **C188** (the files). For a text of fewer than `2^49` characters the script never fails on a `KeyError`; if there are at most 65536 distinct characters, the two
files hold numbers that decode to the first nine tenths (rounded down) of the text and to the rest; otherwise some number does not fit into its sixteen bits. -/
theorem C188_files (r : ℚ → ℤ) (hr : ∀ y, |(r y : ℚ) - y| ≤ 1 / 2) (data : List α) (hn : data.length < 2 ^ 49) :
    (data.toFinset.card ≤ 65536 → ∃ t v, prepare r data = .ok (some (t, v)) ∧ decode data t = .ok (data.take (9 * data.length / 10)) ∧
      decode data v = .ok (data.drop (9 * data.length / 10)) ∧ t.length = 9 * data.length / 10 ∧ t.length + v.length = data.length ∧ ∀ i ∈ t ++ v, i < 65536) ∧
      (65536 < data.toFinset.card → prepare r data = .ok none) := by
  have ht : ∀ c ∈ data.take (9 * data.length / 10), c ∈ data := fun c hc => List.mem_of_mem_take hc
  have hv : ∀ c ∈ data.drop (9 * data.length / 10), c ∈ data := fun c hc => List.mem_of_mem_drop hc
  have hlen : (chars data).length = data.toFinset.card := by
    rw [← List.toFinset_card_of_nodup (chars_nodup data)]
    congr 1
    ext x
    simp [chars_mem]
  have hid : ∀ c ∈ data, (chars data).idxOf c < data.toFinset.card := fun c hc => by
    rw [← hlen]
    exact List.idxOf_lt_length_iff.2 ((chars_mem data c).2 hc)
  have hprep : prepare r data = .ok ((toUInt16 ((data.take (9 * data.length / 10)).map fun c => (chars data).idxOf c)).bind fun t =>
      (toUInt16 ((data.drop (9 * data.length / 10)).map fun c => (chars data).idxOf c)).map fun v => (t, v)) := by
    unfold prepare
    simp only [C188_cut r hr data.length hn]
    rw [encode_ok data _ ht, encode_ok data _ hv]
    rfl
  refine ⟨fun hc => ?_, fun hc => ?_⟩
  · have h1 : ∀ s : List α, (∀ c ∈ s, c ∈ data) → ∀ i ∈ s.map (fun c => (chars data).idxOf c), i < 65536 := by
      intro s hs i hi
      rw [List.mem_map] at hi
      obtain ⟨c, hc', rfl⟩ := hi
      exact (hid c (hs c hc')).trans_le hc
    refine ⟨_, _, ?_, decode_map data _ ht, decode_map data _ hv, ?_, ?_, ?_⟩
    · rw [hprep, toUInt16_some _ (h1 _ ht), toUInt16_some _ (h1 _ hv)]
      rfl
    · rw [List.length_map, List.length_take]
      omega
    · rw [List.length_map, List.length_map, List.length_take, List.length_drop]
      omega
    · intro i hi
      rcases List.mem_append.1 hi with h | h
      · exact h1 _ ht i h
      · exact h1 _ hv i h
  · rw [hprep]
    congr 1
    have hlt : 65536 < (chars data).length := hlen ▸ hc
    have hmem : (chars data)[65536] ∈ data := (chars_mem data _).1 (List.getElem_mem hlt)
    have hidx : (chars data).idxOf (chars data)[65536] = 65536 := (chars_nodup data).idxOf_getElem 65536 hlt
    have hbig : ∀ s : List α, (chars data)[65536] ∈ s → toUInt16 (s.map fun c => (chars data).idxOf c) = none := by
      intro s hs
      refine if_neg fun h => ?_
      have := h _ (List.mem_map_of_mem hs)
      rw [hidx] at this
      omega
    have hsplit : ∀ c ∈ data, c ∈ data.take (9 * data.length / 10) ∨ c ∈ data.drop (9 * data.length / 10) := fun c h => by
      rwa [← List.mem_append, List.take_append_drop]
    rcases hsplit _ hmem with h | h
    · rw [hbig _ h]
      rfl
    · rw [hbig _ h]
      cases toUInt16 ((data.take (9 * data.length / 10)).map fun c => (chars data).idxOf c) <;> rfl

/-- **C188** (opening). The files can be opened as data sets exactly if the text has at least two characters; otherwise a `ValueError` is raised. -/
theorem C188_open (r : ℚ → ℤ) (hr : ∀ y, |(r y : ℚ) - y| ≤ 1 / 2) (data : List α) (hn : data.length < 2 ^ 49) (t v : List ℕ)
    (h : prepare r data = .ok (some (t, v))) :
    (2 ≤ data.length → openBoth t v = .ok (t, v)) ∧ (data.length < 2 → openBoth t v = .error .valueError) := by
  obtain ⟨h1, h2⟩ := C188_files r hr data hn
  rcases Nat.lt_or_ge 65536 data.toFinset.card with hc | hc
  · rw [h2 hc] at h
    cases h
  obtain ⟨t', v', h', -, -, hl, hs, -⟩ := h1 hc
  rw [h'] at h
  injection h with h
  injection h with h
  obtain ⟨rfl, rfl⟩ := Prod.mk.inj h
  unfold openBoth memmap
  refine ⟨fun h3 => ?_, fun h3 => ?_⟩
  · have ht : t' ≠ [] := by
      rintro rfl
      simp at hl
      omega
    have hv : v' ≠ [] := by
      rintro rfl
      simp at hs
      omega
    rw [if_neg hv, if_neg ht]
    rfl
  · have ht : t' = [] := by
      apply List.eq_nil_of_length_eq_zero
      omega
    subst ht
    by_cases hv : v' = []
    · rw [if_pos hv]
      rfl
    · rw [if_neg hv]
      rfl

theorem decode_take_drop (data : List α) (l : List ℕ) (s : List α) (h : decode data l = .ok s) (a b : ℕ) :
    decode data ((l.drop a).take b) = .ok ((s.drop a).take b) := by
  have key : ∀ (l : List ℕ) (s : List α), decode data l = .ok s ↔ List.Forall₂ (fun i c => itos data i = .ok c) l s := by
    intro l
    induction l with
    | nil =>
      intro s
      cases s with
      | nil => simp [decode, pure, Except.pure]
      | cons c s => simp [decode, pure, Except.pure]
    | cons i l ih =>
      intro s
      unfold decode at ih ⊢
      rw [List.mapM_cons]
      cases hi : itos data i with
      | error e =>
        cases s with
        | nil => simp [bind, Except.bind]
        | cons c s => simp [bind, Except.bind, hi]
      | ok c' =>
        cases hl : l.mapM (itos data) with
        | error e =>
          cases s with
          | nil => simp [bind, Except.bind]
          | cons c s =>
            have := ih s
            rw [hl] at this
            simp only [bind, Except.bind, List.forall₂_cons, ← this]
            simp
        | ok s' =>
          cases s with
          | nil => simp [bind, Except.bind, pure, Except.pure]
          | cons c s =>
            have := ih s
            rw [hl] at this
            simp only [bind, Except.bind, pure, Except.pure, List.forall₂_cons, ← this, hi]
            simp
  rw [key] at h ⊢
  exact List.forall₂_take b (List.forall₂_drop a h)

/-- **C188** (the samples). Input number `i` of a data set decodes to the block of its text starting at `i * block`; if the text goes on after this block, the labels
decode to the block starting one character later. -/
theorem C188_items (data : List α) (t : List ℕ) (text : List α) (h : decode data t = .ok text) (block i : ℕ) (hlen : t.length = text.length) :
    decode data (Verif.Windows.blockItem t block i).1 = .ok ((text.drop (i * block)).take block) ∧
      ((i + 1) * block < text.length → decode data (Verif.Windows.blockItem t block i).2 = .ok ((text.drop (i * block + 1)).take block)) := by
  refine ⟨decode_take_drop data t text h _ _, fun hlt => ?_⟩
  have hl : ¬ ((t.drop (i * block + 1)).take block).length < block := by
    rw [List.length_take, List.length_drop, hlen]
    have : (i + 1) * block = i * block + block := by ring
    omega
  simp only [Verif.Windows.blockItem, if_neg hl]
  exact decode_take_drop data t text h _ _

example : ∀ y : ℚ, |((round y : ℤ) : ℚ) - y| ≤ 1 / 2 := fun y => by rw [abs_sub_comm]; exact abs_sub_round y
example : stoi [2, 7, 2, 5] 5 = .ok 1 ∧ stoi [2, 7, 2, 5] 3 = .error .keyError := by
  refine ⟨?_, (C188_number [2, 7, 2, 5] 3).2 (by decide)⟩
  rw [(C188_number [2, 7, 2, 5] 5).1 (by decide)]
  rfl
example : (2 ^ 16 < 2 ^ 49) ∧ ([2, 7, 2, 5] : List ℕ).toFinset.card ≤ 65536 := by decide
example : 9 * 1115394 / 10 = 1003854 := by norm_num

end Verif.Chars
