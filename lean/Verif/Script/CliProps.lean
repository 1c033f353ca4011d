import Verif.Metric.LooProps
import Verif.Metric.RetrainProps2
import Verif.Script.CliLemmas

/-!
# C116, C117: arguments of the retraining command line
-/

namespace Verif.Cli

open Verif.Retrain

/-! ## C116: what `--partition` accepts -/

/-- Specification: a blank. -/
def Blank (c : Char) : Prop := c.toNat = 32 ∨ c.toNat = 9 ∨ c.toNat = 10 ∨ c.toNat = 11 ∨ c.toNat = 12 ∨ c.toNat = 13

/-- Specification: `s` is the decimal spelling of `z`, with an optional sign and blanks around. -/
def IntText (s : List Char) (z : ℤ) : Prop :=
  ∃ (l r sign : List Char) (ds : List ℕ), s = l ++ (sign ++ ds.map fun d => Char.ofNat (48 + d)) ++ r ∧
    (∀ c ∈ l, Blank c) ∧ (∀ c ∈ r, Blank c) ∧ ds ≠ [] ∧ (∀ d ∈ ds, d < 10) ∧
    ((sign = [] ∨ sign = ['+']) ∧ z = (Nat.ofDigits 10 ds.reverse : ℕ) ∨ sign = ['-'] ∧ z = -(Nat.ofDigits 10 ds.reverse : ℕ))

/-- Specification: one entry of the partition: the word "none" in any case, or an integer. -/
def FieldText (s : List Char) : Option ℤ → Prop
  | none => s.map Char.toLower = ['n', 'o', 'n', 'e']
  | some z => IntText s z

lemma isBlank_iff (c : Char) : isBlank c = true ↔ Blank c := by
  unfold isBlank Blank
  rw [Bool.or_eq_true, decide_eq_true_iff, Bool.and_eq_true, decide_eq_true_iff, decide_eq_true_iff]
  have h : c = ' ' ↔ c.toNat = 32 := by
    constructor
    · rintro rfl; rfl
    · intro h
      rw [← Char.ofNat_toNat c, h]
  rw [h]; omega

lemma foldl_ofDigits (ds : List ℕ) : ds.foldl (fun a d => 10 * a + d) 0 = Nat.ofDigits 10 ds.reverse := by
  induction ds using List.reverseRecOn with
  | nil => rfl
  | append_singleton ds d ih =>
    rw [List.foldl_append, List.foldl_cons, List.foldl_nil, ih, List.reverse_append]
    simp only [List.reverse_cons, List.reverse_nil, List.nil_append, List.cons_append, Nat.ofDigits_cons]
    omega

lemma pyInt_iff (s : List Char) (z : ℤ) : pyInt s = .ok z ↔ IntText s z := by
  constructor
  · intro h
    obtain ⟨l, r, hs, hl, hr⟩ := strip_split s
    have key : ∃ (sign t : List Char) (n : ℕ), strip s = sign ++ t ∧ parseNat t = .ok n ∧
        ((sign = [] ∨ sign = ['+']) ∧ z = n ∨ sign = ['-'] ∧ z = -(n : ℤ)) := by
      unfold pyInt at h
      split at h
      · rename_i t heq
        cases hp : parseNat t with
        | error e => rw [hp] at h; exact absurd h (by simp [Except.map])
        | ok n => rw [hp] at h; exact ⟨['-'], t, n, heq, hp, Or.inr ⟨rfl, (Except.ok.inj h).symm⟩⟩
      · rename_i t heq
        cases hp : parseNat t with
        | error e => rw [hp] at h; exact absurd h (by simp [Except.map])
        | ok n => rw [hp] at h; exact ⟨['+'], t, n, heq, hp, Or.inl ⟨Or.inr rfl, (Except.ok.inj h).symm⟩⟩
      · cases hp : parseNat (strip s) with
        | error e => rw [hp] at h; exact absurd h (by simp [Except.map])
        | ok n => rw [hp] at h; exact ⟨[], _, n, rfl, hp, Or.inl ⟨Or.inl rfl, (Except.ok.inj h).symm⟩⟩
    obtain ⟨sign, t, n, h1, h2, h3⟩ := key
    obtain ⟨ds, hne, hd, ht, hn⟩ := (parseNat_ok_iff t n).1 h2
    refine ⟨l, r, sign, ds, ?_, fun c hc => (isBlank_iff c).1 (hl c hc), fun c hc => (isBlank_iff c).1 (hr c hc), hne, hd, ?_⟩
    · rw [h1, ht] at hs; exact hs
    · rw [← foldl_ofDigits, ← hn]; exact h3
  · rintro ⟨l, r, sign, ds, rfl, hl, hr, hne, hd, hz⟩
    have hp : parseNat (ds.map fun d => Char.ofNat (48 + d)) = .ok (Nat.ofDigits 10 ds.reverse) :=
      (parseNat_ok_iff _ _).2 ⟨ds, hne, hd, rfl, (foldl_ofDigits ds).symm⟩
    have hdig : ∀ c ∈ ds.map (fun d => Char.ofNat (48 + d)), 48 ≤ c.toNat ∧ c.toNat ≤ 57 := by
      intro c hc
      obtain ⟨d, hdm, rfl⟩ := List.mem_map.1 hc
      have := digitChar_toNat (hd d hdm)
      unfold digitChar at this
      have := hd d hdm
      omega
    obtain ⟨d, ds', hds⟩ : ∃ d ds', (ds.map fun d => Char.ofNat (48 + d)) = d :: ds' := by
      cases ds with
      | nil => exact absurd rfl hne
      | cons a as => exact ⟨_, _, rfl⟩
    rw [hds] at hp hdig ⊢
    have hlast : ∀ c, (sign ++ d :: ds').getLast? = some c → isBlank c = false := by
      intro c hc
      rw [List.getLast?_append_of_ne_nil _ (by simp)] at hc
      exact digit_not_blank (hdig c (List.mem_of_getLast? hc)).1
    have hhead : ∀ c, (sign ++ d :: ds').head? = some c → isBlank c = false := by
      intro c hc
      rcases hz with ⟨h | h, _⟩ | ⟨h, _⟩ <;> subst h
      · simp only [List.nil_append, List.head?_cons, Option.some.injEq] at hc
        subst hc
        exact digit_not_blank (hdig _ List.mem_cons_self).1
      · simp only [List.cons_append, List.head?_cons, Option.some.injEq] at hc
        subst hc; decide
      · simp only [List.cons_append, List.head?_cons, Option.some.injEq] at hc
        subst hc; decide
    unfold pyInt
    rw [strip_pad l (sign ++ d :: ds') r (fun c hc => (isBlank_iff c).2 (hl c hc)) (fun c hc => (isBlank_iff c).2 (hr c hc)) (by simp)
      hhead hlast]
    rcases hz with ⟨h | h, hz⟩ | ⟨h, hz⟩ <;> subst h <;> subst hz
    · have hd1 := (hdig d List.mem_cons_self).1
      rw [List.nil_append]
      split
      · rename_i heq
        have := (List.cons.inj heq).1
        subst this
        exact absurd hd1 (by decide)
      · rename_i heq
        have := (List.cons.inj heq).1
        subst this
        exact absurd hd1 (by decide)
      · rw [hp]; rfl
    · show (parseNat (d :: ds')).map (fun n => (n : ℤ)) = _
      rw [hp]; rfl
    · show (parseNat (d :: ds')).map (fun n => -(n : ℤ)) = _
      rw [hp]; rfl

lemma pyInt_err (s : List Char) (e : Err) (h : pyInt s = .error e) : e = .valueError := by
  have hn : ∀ t e, parseNat t = .error e → e = .valueError := by
    intro t e h
    unfold parseNat at h
    split_ifs at h
    exact (Except.error.inj h).symm
  unfold pyInt at h
  split at h
  all_goals
    revert h
    generalize hp : parseNat _ = q
    intro h
    cases q with
    | ok n => exact absurd h (by simp [Except.map])
    | error e' =>
      have : e' = e := Except.error.inj h
      exact this ▸ hn _ _ hp

lemma none_not_int (s : List Char) (h : s.map Char.toLower = ['n', 'o', 'n', 'e']) (z : ℤ) : ¬ IntText s z := by
  rintro ⟨l, r, sign, ds, rfl, -, -, hne, hd, -⟩
  cases ds with
  | nil => exact hne rfl
  | cons d ds =>
    have hm : Char.toLower (Char.ofNat (48 + d)) ∈ ['n', 'o', 'n', 'e'] := by
      rw [← h]
      exact List.mem_map_of_mem (by simp)
    have := hd d List.mem_cons_self
    interval_cases d <;> revert hm <;> decide

lemma field_iff (s : List Char) (v : Option ℤ) : field s = .ok v ↔ FieldText s v := by
  unfold field
  split_ifs with h
  · cases v with
    | none => exact ⟨fun _ => h, fun _ => rfl⟩
    | some z => exact ⟨fun h' => absurd h' (by simp), fun h' => absurd h' (none_not_int s h z)⟩
  · cases v with
    | none =>
      refine ⟨fun h' => ?_, fun h' => absurd h' h⟩
      cases hp : pyInt s <;> rw [hp] at h' <;> exact absurd h' (by simp [Except.map])
    | some z =>
      rw [FieldText, ← pyInt_iff]
      cases hp : pyInt s with
      | error e => simp [Except.map]
      | ok n => simp [Except.map]

lemma field_err (s : List Char) (e : Err) (h : field s = .error e) : e = .valueError := by
  unfold field at h
  split_ifs at h
  cases hp : pyInt s with
  | ok n => rw [hp] at h; exact absurd h (by simp [Except.map])
  | error e' =>
    rw [hp] at h
    have : e' = e := Except.error.inj h
    exact this ▸ pyInt_err s e' hp

/-- Characters of an entry. -/
lemma field_chars (s : List Char) (v : Option ℤ) (h : FieldText s v) (c : Char) (hc : c ∈ s) : c ≠ ',' ∧ c ≠ '[' ∧ c ≠ '.' := by
  cases v with
  | none =>
    have hm : Char.toLower c ∈ ['n', 'o', 'n', 'e'] := by rw [← show _ = _ from h]; exact List.mem_map_of_mem hc
    refine ⟨?_, ?_, ?_⟩ <;> rintro rfl <;> revert hm <;> decide
  | some z =>
    obtain ⟨l, r, sign, ds, rfl, hl, hr, hne, hd, hz⟩ := h
    have hb : ∀ c, Blank c → c ≠ ',' ∧ c ≠ '[' ∧ c ≠ '.' := by
      intro c h
      refine ⟨?_, ?_, ?_⟩ <;> rintro rfl <;> revert h <;> unfold Blank <;> decide
    rw [List.mem_append, List.mem_append, List.mem_append] at hc
    rcases hc with (hc | hc | hc) | hc
    · exact hb c (hl c hc)
    · rcases hz with ⟨h | h, _⟩ | ⟨h, _⟩ <;> subst h <;> simp at hc <;> subst hc <;> decide
    · obtain ⟨d, hdm, rfl⟩ := List.mem_map.1 hc
      have := hd d hdm
      interval_cases d <;> decide
    · exact hb c (hr c hc)

/-- **C116** (accepted texts). `--partition` accepts exactly three comma-separated entries, each an integer or the word "none" in any case, and the
result is what the entries say. -/
theorem C116_accepts (s : List Char) (p : Partition) :
    partitionType s = .ok p ↔
      ∃ a b c : List Char, s = a ++ ',' :: (b ++ ',' :: c) ∧ FieldText a p.start ∧ FieldText b p.stop ∧ FieldText c p.total := by
  have key : partitionType s = .ok p ↔ (split ',' s).mapM field = .ok [p.start, p.stop, p.total] := by
    unfold partitionType
    cases (split ',' s).mapM field with
    | error e => simp [bind, Except.bind]
    | ok r =>
      simp only [bind, Except.bind]
      split
      · rename_i a b c
        rw [Except.ok.injEq, Except.ok.injEq]
        constructor
        · rintro rfl; rfl
        · intro h
          cases p
          simp only [List.cons.injEq, and_true] at h
          rw [h.1, h.2.1, h.2.2]
      · rename_i hne
        constructor
        · intro h; exact absurd h (by simp)
        · intro h
          exact absurd (Except.ok.inj h) (hne _ _ _)
  rw [key, mapM_ok_iff]
  constructor
  · intro h
    generalize hsp : split ',' s = parts at h
    rcases h with _ | ⟨ha, h⟩
    rcases h with _ | ⟨hb, h⟩
    rcases h with _ | ⟨hc, h⟩
    cases h
    rename_i a b c
    obtain ⟨s', hs', rfl⟩ := split_more hsp
    obtain ⟨s'', hs'', rfl⟩ := split_more hs'
    exact ⟨a, b, c, by rw [split_one hs''], (field_iff _ _).1 ha, (field_iff _ _).1 hb, (field_iff _ _).1 hc⟩
  · rintro ⟨a, b, c, rfl, ha, hb, hc⟩
    have nc : ∀ {t v}, FieldText t v → ',' ∉ t := fun {t v} h hm => (field_chars t v h ',' hm).1 rfl
    rw [split_append _ _ _ (nc ha), split_append _ _ _ (nc hb), split_plain _ _ (nc hc)]
    exact .cons ((field_iff _ _).2 ha) (.cons ((field_iff _ _).2 hb) (.cons ((field_iff _ _).2 hc) .nil))

/-- **C116** (rejected texts). Every other text is a `ValueError`. -/
theorem C116_rejects (s : List Char) (h : ∀ p, partitionType s ≠ .ok p) : partitionType s = .error .valueError := by
  cases hp : partitionType s with
  | ok p => exact absurd hp (h p)
  | error e =>
    congr 1
    unfold partitionType at hp
    cases hm : (split ',' s).mapM field with
    | ok r =>
      rw [hm] at hp
      simp only [bind, Except.bind] at hp
      split at hp
      · exact absurd hp (by simp)
      · exact (Except.error.inj hp).symm
    | error e' =>
      rw [hm] at hp
      have he : e' = e := Except.error.inj hp
      rw [← he]
      clear hp he h
      generalize split ',' s = parts at hm
      induction parts with
      | nil => exact absurd hm (by simp [pure, Except.pure])
      | cons t ts ih =>
        rw [List.mapM_cons] at hm
        cases hf : field t with
        | error e2 =>
          rw [hf] at hm
          have : e2 = e' := Except.error.inj hm
          exact this ▸ field_err t e2 hf
        | ok v =>
          rw [hf] at hm
          cases hr : ts.mapM field with
          | error e2 =>
            rw [hr] at hm
            have : e2 = e' := Except.error.inj hm
            exact ih (this ▸ hr)
          | ok r => rw [hr] at hm; exact absurd hm (by simp [bind, Except.bind, pure, Except.pure])

/-- **C116** (documented format). The format shown in the help text and in the error message, a list in brackets, is rejected. -/
theorem C116_brackets (s : List Char) : partitionType ('[' :: s) = .error .valueError := by
  apply C116_rejects
  intro p hp
  obtain ⟨a, b, c, hs, ha, -, -⟩ := (C116_accepts _ _).1 hp
  cases a with
  | nil => exact absurd (List.cons.inj hs).1 (by decide)
  | cons x xs =>
    have := (List.cons.inj hs).1
    exact (field_chars _ _ ha x List.mem_cons_self).2.1 this.symm

/-- **C116** (round trip). Numbers written in the ordinary way are read back. -/
lemma fieldText_strInt (z : ℤ) : FieldText (strInt z) (some z) := by
  have hs : ∀ n : ℕ, ∃ ds : List ℕ, ds ≠ [] ∧ (∀ d ∈ ds, d < 10) ∧ str n = ds.map digitChar ∧ n = Nat.ofDigits 10 ds.reverse := by
    intro n
    obtain ⟨ds, h1, h2, h3, h4⟩ := (parseNat_ok_iff _ _).1 (parseNat_str n)
    exact ⟨ds, h1, h2, h3, by rw [← foldl_ofDigits]; exact h4⟩
  obtain ⟨ds, h1, h2, h3, h4⟩ := hs z.natAbs
  unfold strInt
  split_ifs with h
  · refine ⟨[], [], ['-'], ds, ?_, by simp, by simp, h1, h2, Or.inr ⟨rfl, ?_⟩⟩
    · rw [h3]; simp [digitChar]
    · rw [← h4]; omega
  · refine ⟨[], [], [], ds, ?_, by simp, by simp, h1, h2, Or.inl ⟨Or.inl rfl, ?_⟩⟩
    · rw [h3]; simp [digitChar]
    · rw [← h4]; omega

theorem C116_round_trip (a b c : ℤ) :
    partitionType (strInt a ++ ',' :: (strInt b ++ ',' :: strInt c)) = .ok ⟨some a, some b, some c⟩ :=
  (C116_accepts _ _).2 ⟨_, _, _, rfl, fieldText_strInt a, fieldText_strInt b, fieldText_strInt c⟩

/-- Blanks and any case are accepted, brackets are not. -/
example : partitionType "0, 10,None".toList = .ok ⟨some 0, some 10, none⟩ ∧
    partitionType "[0,10,100]".toList = .error .valueError ∧ partitionType "0,10".toList = .error .valueError := by decide +kernel

/-! ## C117: `--extra_param` -/

/-- **C117** (pairs). A text with exactly one `=` is a pair of the text before it and the value after it: a number if the value consists of
decimal digits only, otherwise the text itself. Any other text is a `ValueError`. -/
theorem C117_pair (s : List Char) :
    (∀ k v : List Char, s = k ++ '=' :: v → '=' ∉ k → '=' ∉ v →
      (∀ ds : List ℕ, ds ≠ [] → (∀ d ∈ ds, d < 10) → v = (ds.map fun d => Char.ofNat (48 + d)) →
        keyValuePair s = .ok (k, .int (Nat.ofDigits 10 ds.reverse))) ∧
      ((v = [] ∨ ∃ c ∈ v, c.toNat < 48 ∨ 57 < c.toNat) → keyValuePair s = .ok (k, .str v))) ∧
    (s.count '=' ≠ 1 → keyValuePair s = .error .valueError) := by
  constructor
  · rintro k v rfl hk hv
    have hsp : split '=' (k ++ '=' :: v) = [k, v] := by rw [split_append _ _ _ hk, split_plain _ _ hv]
    constructor
    · rintro ds hne hd rfl
      unfold keyValuePair
      rw [hsp]
      simp only
      have hp : parseNat (ds.map fun d => Char.ofNat (48 + d)) = .ok (Nat.ofDigits 10 ds.reverse) :=
        (parseNat_ok_iff _ _).2 ⟨ds, hne, hd, rfl, (foldl_ofDigits ds).symm⟩
      rw [hp]
    · intro hbad
      unfold keyValuePair
      rw [hsp]
      simp only
      cases hp : parseNat v with
      | error e => rfl
      | ok n =>
        exfalso
        obtain ⟨ds, hne, hd, rfl, -⟩ := (parseNat_ok_iff _ _).1 hp
        rcases hbad with h | ⟨c, hc, h⟩
        · exact hne (by simpa using h)
        · obtain ⟨d, hdm, rfl⟩ := List.mem_map.1 hc
          have h1 := hd d hdm
          have h2 := digitChar_toNat h1
          omega
  · intro hcount
    unfold keyValuePair
    split
    · rename_i key value heq
      exfalso
      obtain ⟨s', h1, rfl⟩ := split_more heq
      have h2 := split_one h1
      subst h2
      apply hcount
      rw [List.count_append, List.count_cons_self, List.count_eq_zero.2 (split_no_sep _ _ _ (by rw [heq]; simp)),
        List.count_eq_zero.2 (split_no_sep _ _ _ (by rw [heq]; simp))]
    · rfl

/-- The value of the last `--extra_param` with the given name. -/
def lastExtra (extra : List (List Char × Val)) (k : List Char) : Option Val := (extra.reverse.find? fun p => p.1 = k).map Prod.snd

lemma lastExtra_of {extra l r : List (List Char × Val)} {k : List Char} {v : Val} (he : extra = l ++ (k, v) :: r) (hr : ∀ p ∈ r, p.1 ≠ k) :
    lastExtra extra k = some v := by
  unfold lastExtra
  rw [he, List.reverse_append, List.reverse_cons, List.append_assoc, List.find?_append, List.find?_eq_none.2, Option.none_or,
    List.singleton_append, List.find?_cons_of_pos (by simp)]
  · rfl
  · intro p hp
    simpa using hr p (List.mem_reverse.1 hp)

lemma get_foldl (extra : List (List Char × Val)) (base : List (List Char × Kw)) (k : List Char) :
    PyDict.get? (extra.foldl (fun m p => PyDict.set p.1 (Kw.extra p.2) m) base) k =
      match lastExtra extra k with
      | some v => some (.extra v)
      | none => PyDict.get? base k := by
  induction extra using List.reverseRecOn with
  | nil => rfl
  | append_singleton l p ih =>
    rw [List.foldl_append, List.foldl_cons, List.foldl_nil, PyDict.get?_set, ih]
    unfold lastExtra
    rw [List.reverse_append, List.reverse_singleton, List.singleton_append]
    by_cases h : p.1 = k
    · rw [List.find?_cons_of_pos (by simpa using h), if_pos (by rw [h])]
      rfl
    · rw [List.find?_cons_of_neg (by simpa using h), if_neg (fun e => h e.symm)]

lemma mem_keys_foldl (extra : List (List Char × Val)) (base : List (List Char × Kw)) (k : List Char) :
    k ∈ PyDict.keys (extra.foldl (fun m p => PyDict.set p.1 (Kw.extra p.2) m) base) ↔ k ∈ PyDict.keys base ∨ k ∈ extra.map Prod.fst := by
  induction extra generalizing base with
  | nil => simp
  | cons p l ih =>
    rw [List.foldl_cons, ih, PyDict.mem_keys_set, List.map_cons, List.mem_cons]
    tauto

/-- The keyword arguments before the extra parameters. -/
def baseKw (a : Args) (dataLen : ℕ) (start : ℤ) : List (List Char × Kw) :=
  match a.mode with
  | .lds => [("num_subsets".toList, .num (a.partition.stop.getD 100 - start)), ("total_num_subsets".toList, .num (a.partition.total.getD 100)),
      ("start_id".toList, .num start)]
  | .loo => [("indices".toList, .indices (pyRange start (a.partition.stop.getD dataLen)))]

lemma kwargs_eq (a : Args) (dataLen : ℕ) (start : ℤ) (hs : a.partition.start = some start) :
    kwargs a dataLen = .ok (a.extra.foldl (fun m p => PyDict.set p.1 (Kw.extra p.2) m) (baseKw a dataLen start)) := by
  unfold kwargs baseKw
  rw [hs]
  cases hm : a.mode <;> rfl

lemma call_eq (a : Args) (dataLen : ℕ) (start : ℤ) (hs : a.partition.start = some start) :
    call a dataLen = if ∃ p ∈ a.extra, p.1 ∈ reserved then .error .typeError
      else .ok (a.extra.foldl (fun m p => PyDict.set p.1 (Kw.extra p.2) m) (baseKw a dataLen start)) := by
  unfold call
  rw [kwargs_eq a dataLen start hs]
  simp only [bind, Except.bind]
  have hb : ∀ k ∈ PyDict.keys (baseKw a dataLen start), k ∉ reserved := by
    intro k hk
    unfold baseKw at hk
    cases hm : a.mode <;> rw [hm] at hk <;> simp only [PyDict.keys, List.map_cons, List.map_nil, List.mem_cons, List.not_mem_nil,
      or_false] at hk
    · subst hk; decide
    · rcases hk with rfl | rfl | rfl <;> decide
  congr 1
  rw [eq_iff_iff, List.any_eq_true]
  constructor
  · rintro ⟨p, hp, hr⟩
    have hk : p.1 ∈ PyDict.keys (a.extra.foldl (fun m p => PyDict.set p.1 (Kw.extra p.2) m) (baseKw a dataLen start)) :=
      List.mem_map_of_mem hp
    have hr' : p.1 ∈ reserved := by simpa using hr
    rcases (mem_keys_foldl _ _ _).1 hk with h | h
    · exact absurd hr' (hb _ h)
    · obtain ⟨q, hq, he⟩ := List.mem_map.1 h
      exact ⟨q, hq, by rw [he]; exact hr'⟩
  · rintro ⟨p, hp, hr⟩
    have hk := (mem_keys_foldl a.extra (baseKw a dataLen start) p.1).2 (Or.inr (List.mem_map_of_mem hp))
    obtain ⟨q, hq, he⟩ := List.mem_map.1 hk
    exact ⟨q, hq, by rw [he]; simpa using hr⟩

/-- **C117** (names). With a start, the call of the helper is reached iff no extra parameter is called `train_func`, `dataloader`, `path` or
`seed`; every extra parameter then reaches the helper under its name, with the value given last. Without a start the script raises `TypeError`. -/
theorem C117_names (a : Args) (dataLen : ℕ) :
    (a.partition.start = none → call a dataLen = .error .typeError) ∧
    (∀ start, a.partition.start = some start → (∃ p ∈ a.extra, p.1 ∈ ["train_func".toList, "dataloader".toList, "path".toList, "seed".toList]) →
      call a dataLen = .error .typeError) ∧
    (∀ start, a.partition.start = some start →
      (∀ p ∈ a.extra, p.1 ∉ ["train_func".toList, "dataloader".toList, "path".toList, "seed".toList]) →
      ∃ kw, call a dataLen = .ok kw ∧ ∀ k v, (∃ l r, a.extra = l ++ (k, v) :: r ∧ ∀ p ∈ r, p.1 ≠ k) →
        PyDict.get? kw k = some (.extra v)) := by
  refine ⟨?_, ?_, ?_⟩
  · intro h
    unfold call kwargs
    rw [h]
    rfl
  · intro start hs h
    rw [call_eq a dataLen start hs, if_pos (show ∃ p ∈ a.extra, p.1 ∈ reserved from h)]
  · intro start hs h
    refine ⟨_, by rw [call_eq a dataLen start hs, if_neg (by rintro ⟨p, hp, hr⟩; exact h p hp hr)], ?_⟩
    rintro k v ⟨l, r, he, hr⟩
    rw [get_foldl]
    rw [lastExtra_of he hr]

variable {M ρ : Type}

/-- **C117** (fractions). A ratio with a decimal point never gets through: with `--extra_param subset_ratio=0.5` (the default value, spelled
out) the script retrains nothing, because the value arrives as a text. -/
theorem C117_ratio (choice : ℕ → ℕ → ℕ → List ℕ) (train : List ℕ → ℕ → M) (root : ρ) (a : Args) (dataLen seed : ℕ) (s : List Char)
    (hdot : '.' ∈ s) (l r : List (List Char × Val)) (he : a.extra = l ++ ("subset_ratio".toList, .str s) :: r)
    (hr : ∀ p ∈ r, p.1 ≠ "subset_ratio".toList) (out : List (Write ρ M) × Except Err Unit) :
    mainLds choice train root a dataLen seed ≠ .ok (some out) := by
  intro h
  have hlen : ∀ n z, subsetLength n (some (.str s)) ≠ .ok z := by
    intro n z hz
    have hz' := (pyInt_iff _ _).1 (show pyInt _ = .ok z from hz)
    cases n with
    | zero =>
      obtain ⟨l, r, sign, ds, h1, -, -, hne, -⟩ := hz'
      have h2 : (ds.map fun d => Char.ofNat (48 + d)).length = 0 := by
        have := congrArg List.length h1
        simp only [List.replicate_zero, List.flatten_nil, List.length_nil, List.length_append] at this
        omega
      exact hne (by simpa using h2)
    | succ n =>
      refine (field_chars _ (some z) hz' '.' ?_).2.2 rfl
      rw [List.replicate_succ, List.flatten_cons]
      exact List.mem_append_left _ hdot
  unfold mainLds at h
  cases hs : a.partition.start with
  | none =>
    rw [(C117_names a dataLen).1 hs] at h
    exact absurd h (by simp [bind, Except.bind])
  | some start =>
    rw [call_eq a dataLen start hs] at h
    split_ifs at h with hres
    · exact absurd h (by simp [bind, Except.bind])
    · have hlast := lastExtra_of he hr
      simp only [bind, Except.bind, get_foldl, hlast] at h
      split at h
      · cases hsl : subsetLength (samplerLen a dataLen) (some (.str s)) with
        | ok z => exact hlen _ _ hsl
        | error e =>
          rw [hsl] at h
          split_ifs at h
          exact absurd h (by simp)
      · exact absurd h (by simp)

example : keyValuePair "subset_ratio=0.5".toList = .ok ("subset_ratio".toList, .str "0.5".toList) ∧
    keyValuePair "num_runs_per_subset=3".toList = .ok ("num_runs_per_subset".toList, .int 3) ∧
    keyValuePair "a=b=c".toList = .error .valueError := by decide +kernel

end Verif.Cli
