import Verif.Script.ConfigModel
import Mathlib.Data.List.Induction
import Mathlib.Data.List.Count

/-! # C183: settings of the nanoGPT training script -/

namespace Verif.Script.Config

/-! ## Specification -/

/-- The argument `--key=val`. -/
def opt (key val : Name) : Name := ['-', '-'] ++ key ++ '=' :: val

/-- What a text means as a value: the literal, or itself. -/
def Means (lit : Name → Lit) (val : Name) (v : Val) : Prop := lit val = .value v ∨ (lit val = .malformed ∧ v = .str val)

/-! ## Lemmas -/

variable (lit : Name → Lit) (exec : Name → Env → Except Err Env)

lemma step_opt (g : Env) (key val : Name) (hk : '=' ∉ key) (hv : '=' ∉ val) : step lit exec g (opt key val) = override lit g key val := by
  have h1 : '=' ∈ opt key val := by simp [opt]
  have h2 : dashed (opt key val) = true := by simp [dashed, opt]
  have h3 : (opt key val).count '=' = 1 := by
    simp [opt, List.count_append, List.count_eq_zero_of_not_mem hk, List.count_eq_zero_of_not_mem hv]
  have hpre : ∀ x ∈ ['-', '-'] ++ key, decide (x ≠ '=') = true := by
    intro x hx
    simp only [decide_eq_true_eq]
    rintro rfl
    simp [hk] at hx
  have h4 : (opt key val).takeWhile (· ≠ '=') = ['-', '-'] ++ key := by
    unfold opt
    rw [List.takeWhile_append_of_pos hpre]
    simp
  have h5 : (opt key val).dropWhile (· ≠ '=') = '=' :: val := by
    unfold opt
    rw [List.dropWhile_append_of_pos hpre]
    simp
  unfold step
  rw [if_neg (not_not.2 h1), h2, if_neg (by simp), if_neg (by simp [h3]), h4, h5]
  rfl

lemma override_ok (g g' : Env) (key val : Name) :
    override lit g key val = .ok g' ↔ ∃ old v, g key = some old ∧ Means lit val v ∧ v.type = old.type ∧ g' = g.set key v := by
  unfold override attempt Means
  cases hg : g key with
  | none => simp
  | some old =>
    cases hl : lit val with
    | value v =>
      by_cases h : v.type = old.type
      · simp [h, eq_comm]
      · simp [h]
    | malformed =>
      by_cases h : (Val.str val).type = old.type
      · simp [h, eq_comm]
      · simp [h]
    | raises e => simp

/-! ## C183 -/

/-- **C183.** An argument `--key=val` is accepted exactly if the setting exists and the value has exactly the type of the present one; then only this setting changes. -/
theorem C183_option (g g' : Env) (key val : Name) (hk : '=' ∉ key) (hv : '=' ∉ val) :
    run lit exec g [opt key val] = .ok g' ↔
      ∃ old v, g key = some old ∧ Means lit val v ∧ v.type = old.type ∧ g' key = some v ∧ ∀ k, k ≠ key → g' k = g k := by
  have : run lit exec g [opt key val] = step lit exec g (opt key val) := by simp [run]
  rw [this, step_opt lit exec g key val hk hv, override_ok]
  constructor
  · rintro ⟨old, v, h1, h2, h3, rfl⟩
    exact ⟨old, v, h1, h2, h3, by simp [Env.set], fun k hk => by simp [Env.set, hk]⟩
  · rintro ⟨old, v, h1, h2, h3, h4, h5⟩
    refine ⟨old, v, h1, h2, h3, funext fun k => ?_⟩
    by_cases hk : k = key
    · subst hk; simp [Env.set, h4]
    · simp [Env.set, hk, h5 k hk]

/-- **C183.** What is rejected, and how: a flag without value; an assignment without the dashes; a value containing `=`; an unknown setting; a value of another type. -/
theorem C183_rejected (g : Env) :
    (∀ s : Name, '=' ∉ s → run lit exec g [['-', '-'] ++ s] = .error .assertionError) ∧
    (∀ s : Name, '=' ∈ s → s.take 2 ≠ ['-', '-'] → run lit exec g [s] = .error .assertionError) ∧
    (∀ key val : Name, '=' ∈ key ++ val → run lit exec g [opt key val] = .error .valueError) ∧
    (∀ key val : Name, '=' ∉ key → '=' ∉ val → g key = none → run lit exec g [opt key val] = .error .valueError) ∧
    (∀ key val : Name, ∀ old v, '=' ∉ key → '=' ∉ val → g key = some old → Means lit val v → v.type ≠ old.type →
      run lit exec g [opt key val] = .error .assertionError) := by
  have one : ∀ a, run lit exec g [a] = step lit exec g a := fun a => by simp [run]
  refine ⟨fun s hs => ?_, fun s hs hd => ?_, fun key val h => ?_, fun key val hk hv h => ?_, fun key val old v hk hv h hm ht => ?_⟩
  · rw [one]
    unfold step
    rw [if_pos (by simp [hs]), if_pos (by simp [dashed])]
  · rw [one]
    unfold step
    rw [if_neg (not_not.2 hs), if_pos (by simpa [dashed] using hd)]
  · rw [one]
    unfold step
    have h2 : dashed (opt key val) = true := by simp [dashed, opt]
    have hc : 0 < (key ++ val).count '=' := List.count_pos_iff.2 h
    have h3 : (opt key val).count '=' ≠ 1 := by
      rw [List.count_append] at hc
      simp only [opt, List.count_append, List.count_cons_self]
      omega
    rw [if_neg (not_not.2 (by simp [opt])), h2, if_neg (by simp), if_pos h3]
  · rw [one, step_opt lit exec g key val hk hv]
    simp [override, h]
  · rw [one, step_opt lit exec g key val hk hv]
    unfold override attempt
    rcases hm with hm | ⟨hm, rfl⟩ <;> simp [h, hm, ht]

/-- The value is of the same kind as the present one: two integers, two decimal numbers, two truth values, two texts, or two other objects of one type. -/
def SameKind (v old : Val) : Prop :=
  (∃ a b, v = .int a ∧ old = .int b) ∨ (∃ a b, v = .float a ∧ old = .float b) ∨ (∃ a b, v = .bool a ∧ old = .bool b) ∨
    (∃ a b, v = .str a ∧ old = .str b) ∨ ∃ t a b, v = .other t a ∧ old = .other t b

/-- **C183** (types). A value for an existing setting is accepted exactly if it is of the same kind; in particular an integer is no decimal number and a truth value no
integer. -/
theorem C183_types (g : Env) (key val : Name) (hk : '=' ∉ key) (hv : '=' ∉ val) (old v : Val) (hg : g key = some old) (hm : Means lit val v) :
    ((∃ g', run lit exec g [opt key val] = .ok g') ↔ SameKind v old) ∧ (¬ SameKind v old → run lit exec g [opt key val] = .error .assertionError) := by
  have hty : v.type = old.type ↔ SameKind v old := by
    cases v <;> cases old <;> simp [Val.type, SameKind, eq_comm]
  have hno : ¬ SameKind v old → run lit exec g [opt key val] = .error .assertionError := fun h =>
    (C183_rejected lit exec g).2.2.2.2 key val old v hk hv hg hm fun h' => h (hty.1 h')
  refine ⟨⟨?_, fun h => ⟨g.set key v, ?_⟩⟩, hno⟩
  · rintro ⟨g', h⟩
    by_contra hc
    rw [hno hc] at h
    cases h
  · rw [C183_option lit exec g _ key val hk hv]
    exact ⟨old, v, hg, hm, hty.2 h, by simp [Env.set], fun k hk => by simp [Env.set, hk]⟩

/-- **C183.** Arguments without configuration files: afterwards the same settings exist, with the same types, and each has the value of the last argument that names it, or
its value from before. -/
theorem C183_options (kvs : List (Name × Name)) (hk : ∀ kv ∈ kvs, '=' ∉ kv.1 ∧ '=' ∉ kv.2) (g g' : Env)
    (h : run lit exec g (kvs.map fun kv => opt kv.1 kv.2) = .ok g') (k : Name) :
    (g' k).map Val.type = (g k).map Val.type ∧
    ((∀ kv ∈ kvs, kv.1 ≠ k) → g' k = g k) ∧
    ∀ l r val, kvs = l ++ (k, val) :: r → (∀ kv ∈ r, kv.1 ≠ k) → ∃ v, Means lit val v ∧ g' k = some v := by
  induction kvs using List.reverseRecOn generalizing g' with
  | nil =>
    simp only [run, List.map_nil, List.foldlM_nil] at h
    cases h
    exact ⟨rfl, fun _ => rfl, fun l r val he => by simp at he⟩
  | append_singleton kvs kv ih =>
    obtain ⟨g1, h1, h2⟩ : ∃ g1, run lit exec g (kvs.map fun kv => opt kv.1 kv.2) = .ok g1 ∧ step lit exec g1 (opt kv.1 kv.2) = .ok g' := by
      rw [List.map_append, run, List.foldlM_append] at h
      cases hr : List.foldlM (step lit exec) g (kvs.map fun kv => opt kv.1 kv.2) with
      | error e => rw [hr] at h; cases h
      | ok g1 =>
        rw [hr] at h
        refine ⟨g1, hr, ?_⟩
        cases hs : step lit exec g1 (opt kv.1 kv.2) with
        | error e => simp [bind, Except.bind, hs] at h
        | ok g2 => simpa [bind, Except.bind, hs, pure, Except.pure] using h
    obtain ⟨a1, a2, a3⟩ := ih (fun kv hkv => hk kv (by simp [hkv])) g1 h1
    obtain ⟨e1, e2⟩ := hk kv (by simp)
    rw [step_opt lit exec g1 _ _ e1 e2, override_ok] at h2
    obtain ⟨old, v, b1, b2, b3, rfl⟩ := h2
    by_cases hkk : k = kv.1
    · subst hkk
      refine ⟨?_, fun hn => absurd rfl (hn kv (by simp)), fun l r val he hr => ?_⟩
      · rw [← a1, b1]; simp [Env.set, b3]
      · rcases List.eq_nil_or_concat r with rfl | ⟨r', x, rfl⟩
        · have := List.append_inj_right' he rfl
          simp only [List.cons.injEq, and_true] at this
          rw [this] at b2
          exact ⟨v, b2, by simp [Env.set]⟩
        · rw [List.concat_eq_append] at he hr
          have : kvs ++ [kv] = (l ++ (kv.1, val) :: r') ++ [x] := by rw [he]; simp
          have := List.append_inj_right' this rfl
          simp only [List.cons.injEq, and_true] at this
          exact absurd (by rw [← this]) (hr x (by simp))
    · have hs : g1.set kv.1 v k = g1 k := by simp [Env.set, hkk]
      rw [hs]
      refine ⟨a1, fun hn => a2 fun kv hkv => hn kv (by simp [hkv]), fun l r val he hr => ?_⟩
      rcases List.eq_nil_or_concat r with rfl | ⟨r', x, rfl⟩
      · have := List.append_inj_right' he rfl
        simp only [List.cons.injEq, and_true] at this
        exact absurd (by rw [this]) hkk
      · rw [List.concat_eq_append] at he hr
        have : kvs ++ [kv] = (l ++ (k, val) :: r') ++ [x] := by rw [he]; simp
        exact a3 l r' val (List.append_inj_left' this rfl) fun y hy => hr y (by simp [hy])

/-- **C183.** Order: a configuration file is executed with the settings made by the arguments before it, so it overrides them, and arguments after it override it. -/
theorem C183_order (g : Env) (pre post : List Name) (file : Name) (h1 : '=' ∉ file) (h2 : file.take 2 ≠ ['-', '-']) :
    run lit exec g (pre ++ file :: post) = (run lit exec g pre >>= fun g1 => exec file g1 >>= fun g2 => run lit exec g2 post) := by
  have : ∀ g, step lit exec g file = exec file g := by
    intro g
    unfold step
    rw [if_pos h1, if_neg (by simpa [dashed] using h2)]
  unfold run
  rw [List.foldlM_append]
  simp only [List.foldlM_cons, this]

/-- **C183 (disagreement).** The subset ratio cannot be given on the command line: its present value is an integer, so every decimal number is refused; and the path of
the data set is no setting at all unless a configuration file defines it. -/
theorem C183_data_settings (val : Name) (hv : '=' ∉ val) :
    (∀ x, lit val = .value (.float x) → run lit exec defaults [opt "subset_ratio".toList val] = .error .assertionError) ∧
    run lit exec defaults [opt "dataset_path".toList val] = .error .valueError := by
  have hr := C183_rejected lit exec defaults
  refine ⟨fun x hx => ?_, ?_⟩
  · exact hr.2.2.2.2 _ val (.int 1) (.float x) (by decide) hv (by decide) (.inl hx) (by simp [Val.type])
  · exact hr.2.2.2.1 _ val (by decide) hv (by decide)

/-! ## Non-vacuity -/

/-- A small `literal_eval`. -/
def litEx : Name → Lit := fun s => if s = "7".toList then .value (.int 7) else if s = "0.5".toList then .value (.float (1 / 2)) else .malformed

/-- A file that sets the seed to 1. -/
def execEx : Name → Env → Except Err Env := fun _ g => .ok (g.set "seed".toList (.int 1))

/-- A run with three arguments; the last seed wins. -/
example : ∃ g', run litEx execEx defaults [opt "seed".toList "7".toList, "c.py".toList, opt "dataset".toList "abc".toList] = .ok g' ∧
    g' "seed".toList = some (.int 1) ∧ g' "dataset".toList = some (.str "abc".toList) := ⟨_, rfl, by decide, by decide⟩

example : ∃ g', run litEx execEx defaults ["c.py".toList, opt "seed".toList "7".toList] = .ok g' ∧ g' "seed".toList = some (.int 7) := ⟨_, rfl, by decide⟩

example : litEx "0.5".toList = .value (.float (1 / 2)) ∧ '=' ∉ "0.5".toList := ⟨rfl, by decide⟩

end Verif.Script.Config
