import Verif.Bench.LoadLemmas

/-! # What the directory contains after any calls of `load_benchmark` -/

namespace Verif.LoadBench

variable {B D : Type}

/-! ### Specification -/

/-- The body of an answer with status 200. -/
def okBody : Resp B → Option (Body B)
  | .unreachable => none
  | .resp code b => if code = 200 then some b else none

/-- The server answered, with any status. -/
def answered : Resp B → Prop
  | .unreachable => False
  | .resp _ _ => True

/-- The last body which was served successfully for an address. -/
def served (log : List (String × Resp B)) (url : String) : Option (Body B) :=
  (log.filterMap fun e => if e.1 = url then okBody e.2 else none).getLast?

/-- The answer `r` to the download `j` brings about the directory `p`. -/
def Makes (j : Job) (r : Resp B) (p : Path) : Prop :=
  (answered r ∧ p <+: j.dest) ∨
  (j.file = none ∧ ∃ b es, okBody r = some b ∧ b.zip = some es ∧ ∃ en ∈ es, p <+: j.dest ++ entryDir en)

/-- The answer `r` to the download `j` brings about the file `p`. -/
def Writes (j : Job) (r : Resp B) (p : Path) : Prop :=
  ∃ b, okBody r = some b ∧ ((∃ name, j.file = some name ∧ p = j.dest ++ [name]) ∨
    (j.file = none ∧ ∃ es, b.zip = some es ∧ ∃ rel x, (rel, some x) ∈ es ∧ p = j.dest ++ rel))

/-- The directory tree is determined by the exchanges with the server. -/
structure Good (w : World B) : Prop where
  dirs : ∀ p, p ∈ w.fs.dirs ↔ ∃ e ∈ w.log, ∃ j ∈ allJobs, e.1 = j.url ∧ Makes j e.2 p
  files : ∀ p, (w.fs.files p).isSome = true ↔ ∃ e ∈ w.log, ∃ j ∈ allJobs, e.1 = j.url ∧ Writes j e.2 p
  truth : ∀ j ∈ allJobs, ∀ name, j.file = some name → w.fs.files (j.dest ++ [name]) = (served w.log j.url).map Body.raw
  nodup : w.fs.dirs.Nodup
  asked : ∀ e ∈ w.log, ∃ id ∈ ids, ∃ j ∈ jobs id, e.1 = j.url

/-! ### Lemmas -/

theorem served_append (log : List (String × Resp B)) (u url : String) (r : Resp B) :
    served (log ++ [(u, r)]) url = if u = url then (match okBody r with | some b => some b | none => served log url) else served log url := by
  unfold served
  rw [List.filterMap_append]
  by_cases h : u = url
  · subst h
    simp only [if_true]
    cases hr : okBody r with
    | none => simp [hr]
    | some b => simp [hr]
  · simp [h]

/-- The two shapes of downloads. -/
theorem job_shape {id : String} {j : Job} (h : j ∈ jobs6 id) :
    (j.file = none ∧ (j.dest = [id, "models_full"] ∨ j.dest = [id, "models_half"])) ∨
    (∃ m pre, (m = "lds" ∨ m = "loo") ∧ (pre = "indices_" ∨ pre = "target_values_") ∧ j.dest = [id, m] ∧ j.file = some (pre ++ (m ++ ".pt")) ∧
      j.url = truthUrl id m pre) := by
  have e1 : "indices_" ++ ("lds" ++ ".pt") = ("indices_lds.pt" : String) := by decide
  have e2 : "target_values_" ++ ("lds" ++ ".pt") = ("target_values_lds.pt" : String) := by decide
  have e3 : "indices_" ++ ("loo" ++ ".pt") = ("indices_loo.pt" : String) := by decide
  have e4 : "target_values_" ++ ("loo" ++ ".pt") = ("target_values_loo.pt" : String) := by decide
  unfold jobs6 at h
  simp only [List.mem_cons, List.not_mem_nil, or_false] at h
  rcases h with rfl | rfl | rfl | rfl | rfl | rfl
  · exact Or.inl ⟨rfl, Or.inl rfl⟩
  · exact Or.inl ⟨rfl, Or.inr rfl⟩
  · exact Or.inr ⟨"lds", "indices_", Or.inl rfl, Or.inl rfl, rfl, by rw [e1], rfl⟩
  · exact Or.inr ⟨"lds", "target_values_", Or.inl rfl, Or.inr rfl, rfl, by rw [e2], rfl⟩
  · exact Or.inr ⟨"loo", "indices_", Or.inr rfl, Or.inl rfl, rfl, by rw [e3], rfl⟩
  · exact Or.inr ⟨"loo", "target_values_", Or.inr rfl, Or.inr rfl, rfl, by rw [e4], rfl⟩

theorem mem_allJobs {j : Job} : j ∈ allJobs ↔ ∃ id ∈ ids, j ∈ jobs6 id := List.mem_flatMap

theorem names_ne : ∀ m ∈ ["lds", "loo"], "indices_" ++ (m ++ ".pt") ≠ ("target_values_" ++ (m ++ ".pt") : String) := by decide +kernel

/-- Different downloads of single files write different files. -/
theorem path_inj {j j' : Job} (h : j ∈ allJobs) (h' : j' ∈ allJobs) {n n' : String} (hn : j.file = some n) (hn' : j'.file = some n')
    (he : j.dest ++ [n] = j'.dest ++ [n']) : j = j' := by
  obtain ⟨id, hid, hj⟩ := mem_allJobs.1 h
  obtain ⟨id', hid', hj'⟩ := mem_allJobs.1 h'
  rcases job_shape hj with ⟨a, -⟩ | ⟨m, pre, hm, hp, d, f, u⟩
  · rw [a] at hn
    exact absurd hn (by simp)
  rcases job_shape hj' with ⟨a, -⟩ | ⟨m', pre', hm', hp', d', f', u'⟩
  · rw [a] at hn'
    exact absurd hn' (by simp)
  apply url_inj h h'
  rw [f] at hn
  rw [f'] at hn'
  obtain rfl := Option.some.inj hn
  obtain rfl := Option.some.inj hn'
  rw [d, d'] at he
  simp only [List.cons_append, List.nil_append, List.cons.injEq, and_true] at he
  obtain ⟨rfl, rfl, he⟩ := he
  have hmm : m ∈ ["lds", "loo"] := by
    rcases hm with rfl | rfl <;> simp
  rw [u, u']
  rcases hp with rfl | rfl <;> rcases hp' with rfl | rfl
  · rfl
  · exact absurd he (names_ne m hmm)
  · exact absurd he.symm (names_ne m hmm)
  · rfl

/-- Archives are not extracted over the single files. -/
theorem zip_not_over {j j' : Job} (h : j ∈ allJobs) (h' : j' ∈ allJobs) {n : String} (hz : j.file = none) (hn : j'.file = some n) :
    ¬ j.dest <+: j'.dest ++ [n] := by
  obtain ⟨id, hid, hj⟩ := mem_allJobs.1 h
  obtain ⟨id', hid', hj'⟩ := mem_allJobs.1 h'
  rcases job_shape hj with ⟨-, d⟩ | ⟨m, pre, hm, hp, d, f, u⟩
  · rcases job_shape hj' with ⟨a, -⟩ | ⟨m', pre', hm', hp', d', f', u'⟩
    · rw [a] at hn
      exact absurd hn (by simp)
    · rcases d with d | d <;> rcases hm' with rfl | rfl <;> simp [d, d', List.cons_prefix_cons]
  · rw [f] at hz
    exact absurd hz (by simp)

/-- The effect of one download. -/
theorem download_effect (sv : ℕ → String → Resp B) (w : World B) (j : Job) :
    (download sv w j).1.log = w.log ++ [(j.url, sv w.log.length j.url)] ∧
    (∀ p, p ∈ (download sv w j).1.fs.dirs ↔ p ∈ w.fs.dirs ∨ Makes j (sv w.log.length j.url) p) ∧
    (∀ p, ((download sv w j).1.fs.files p).isSome = true ↔ (w.fs.files p).isSome = true ∨ Writes j (sv w.log.length j.url) p) ∧
    (∀ name, j.file = some name → ∀ p, (download sv w j).1.fs.files p = if p = j.dest ++ [name] then
      (match okBody (sv w.log.length j.url) with | some b => some b.raw | none => w.fs.files p) else w.fs.files p) ∧
    (j.file = none → ∀ p, ¬ j.dest <+: p → (download sv w j).1.fs.files p = w.fs.files p) ∧
    (w.fs.dirs.Nodup → (download sv w j).1.fs.dirs.Nodup) := by
  unfold download
  generalize sv w.log.length j.url = r
  cases r with
  | unreachable =>
    dsimp only
    refine ⟨rfl, fun p => ?_, fun p => ?_, fun name _ p => ?_, fun _ p _ => rfl, id⟩
    · simp [Makes, answered, okBody]
    · simp [Writes, okBody]
    · simp [okBody]
  | resp code body =>
    dsimp only
    by_cases hc : code = 200
    · subst hc
      rw [if_pos rfl]
      cases hf : j.file with
      | none =>
        cases hz : body.zip with
        | none =>
          dsimp only
          refine ⟨rfl, fun p => ?_, fun p => ?_, fun name hn p => ?_, fun _ p _ => rfl, fun h => foldl_insert_nodup _ _ h⟩
          · rw [mem_mkdirs]
            simp [Makes, answered, okBody, hf, hz]
          · simp [Writes, okBody, hf, hz, mkdirs]
          · exact absurd hn (by simp)
        | some es =>
          dsimp only
          refine ⟨rfl, fun p => ?_, fun p => ?_, fun name hn p => ?_, fun _ p hp => ?_, fun h => extract_nodup _ _ _ (foldl_insert_nodup _ _ h)⟩
          · rw [mem_extract, mem_mkdirs]
            simp [Makes, answered, okBody, hf, hz, or_assoc]
          · rw [extract_files]
            simp [Writes, okBody, hf, hz, mkdirs]
          · exact absurd hn (by simp)
          · rw [extract_files_other _ _ _ _ hp]
            rfl
      | some name =>
        dsimp only
        refine ⟨rfl, fun p => ?_, fun p => ?_, fun name' hn p => ?_, fun h => absurd h (by simp), fun h => foldl_insert_nodup _ _ h⟩
        · show p ∈ (mkdirs w.fs j.dest).dirs ↔ _
          rw [mem_mkdirs]
          simp [Makes, answered, okBody, hf]
        · show ((if p = j.dest ++ [name] then some body.raw else w.fs.files p).isSome = true) ↔ _
          by_cases hp : p = j.dest ++ [name]
          · simp [hp, Writes, okBody, hf]
          · simp [hp, Writes, okBody, hf]
        · obtain rfl := Option.some.inj hn
          rfl
    · rw [if_neg hc]
      have hk : okBody (Resp.resp code body) = none := if_neg hc
      by_cases h4 : code = 404
      · rw [if_pos h4]
        refine ⟨rfl, fun p => ?_, fun p => ?_, fun name _ p => ?_, fun _ p _ => rfl, fun h => foldl_insert_nodup _ _ h⟩
        · show p ∈ (mkdirs w.fs j.dest).dirs ↔ _
          rw [mem_mkdirs]
          simp [Makes, answered, hk]
        · show ((w.fs.files p).isSome = true) ↔ _
          simp [Writes, hk]
        · simp only [hk]
          simp [mkdirs]
      · rw [if_neg h4]
        refine ⟨rfl, fun p => ?_, fun p => ?_, fun name _ p => ?_, fun _ p _ => rfl, fun h => foldl_insert_nodup _ _ h⟩
        · show p ∈ (mkdirs w.fs j.dest).dirs ↔ _
          rw [mem_mkdirs]
          simp [Makes, answered, hk]
        · show ((w.fs.files p).isSome = true) ↔ _
          simp [Writes, hk]
        · simp only [hk]
          simp [mkdirs]

theorem exists_append {α : Type} (l : List α) (x : α) (P : α → Prop) : (∃ e ∈ l ++ [x], P e) ↔ (∃ e ∈ l, P e) ∨ P x := by
  simp only [List.mem_append, List.mem_singleton]
  constructor
  · rintro ⟨e, h | rfl, hp⟩
    · exact Or.inl ⟨e, h, hp⟩
    · exact Or.inr hp
  · rintro (⟨e, h, hp⟩ | hp)
    · exact ⟨e, Or.inl h, hp⟩
    · exact ⟨x, Or.inr rfl, hp⟩

theorem download_good (sv : ℕ → String → Resp B) (w : World B) (hw : Good w) {id : String} (hid : id ∈ ids) {j : Job} (hj : j ∈ jobs id) :
    Good (download sv w j).1 := by
  have hja := jobs_sub hid j hj
  obtain ⟨h1, h2, h3, h4, h5, h6⟩ := download_effect sv w j
  have huniq : ∀ P : Job → Prop, (∃ j' ∈ allJobs, j.url = j'.url ∧ P j') ↔ P j := fun P => by
    constructor
    · rintro ⟨j', a, b, c⟩
      rwa [url_inj hja a b]
    · intro h
      exact ⟨j, hja, rfl, h⟩
  refine ⟨fun p => ?_, fun p => ?_, fun j' hj' name hn => ?_, h6 hw.nodup, fun e he => ?_⟩
  · rw [h2, h1, exists_append, hw.dirs]
    dsimp only
    rw [huniq fun j' => Makes j' (sv w.log.length j.url) p]
  · rw [h3, h1, exists_append, hw.files]
    dsimp only
    rw [huniq fun j' => Writes j' (sv w.log.length j.url) p]
  · rw [h1, served_append]
    cases hf : j.file with
    | none =>
      have hne : j.url ≠ j'.url := fun h => by
        rw [url_inj hja hj' h] at hf
        rw [hf] at hn
        exact absurd hn (by simp)
      rw [if_neg hne, h5 hf _ (zip_not_over hja hj' hf hn), hw.truth j' hj' name hn]
    | some name0 =>
      rw [h4 name0 hf]
      by_cases hjj : j = j'
      · subst hjj
        obtain rfl := Option.some.inj (hf.symm.trans hn)
        rw [if_pos rfl, if_pos rfl]
        cases okBody (sv w.log.length j.url) with
        | some b => rfl
        | none => exact hw.truth j hja _ hn
      · rw [if_neg (fun h => hjj (path_inj hja hj' hf hn h.symm)), if_neg (fun h => hjj (url_inj hja hj' h))]
        exact hw.truth j' hj' name hn
  · rw [h1] at he
    rcases List.mem_append.1 he with he | he
    · exact hw.asked e he
    · obtain rfl := List.mem_singleton.1 he
      exact ⟨id, hid, j, hj, rfl⟩

theorem downloadAll_good (sv : ℕ → String → Resp B) {id : String} (hid : id ∈ ids) (js : List Job) (hjs : ∀ j ∈ js, j ∈ jobs id) (w : World B)
    (hw : Good w) : Good (downloadAll sv w js).1 := by
  induction js generalizing w with
  | nil => exact hw
  | cons j js ih =>
    have h := download_good sv w hw hid (hjs j (by simp))
    unfold downloadAll
    split
    · rename_i w' _ he
      rw [he] at h
      exact ih (fun j' hj' => hjs j' (by simp [hj'])) w' h
    · rename_i w' _ he
      rw [he] at h
      exact h

theorem load_good (sv : ℕ → String → Resp B) (w : World B) (hw : Good w) (c : Call D) : Good (load sv w c).1 := by
  unfold load
  dsimp only
  split
  · exact hw
  · rename_i hid
    have hid' : c.dataset ++ "_" ++ c.model ∈ ids := by
      by_contra hn
      exact hid ((lookup_isNone _).2 hn)
    split
    · have h := downloadAll_good sv hid' (jobs _) (fun _ h => h) w hw
      split
      · rename_i w' _ he
        rw [he] at h
        exact h
      · rename_i w' _ he
        rw [he] at h
        exact h
    · exact hw

theorem empty_good : Good (⟨⟨[], fun _ => none⟩, []⟩ : World B) :=
  ⟨fun p => by simp, fun p => by simp, fun j _ name _ => by simp [served], List.nodup_nil, fun e he => by simp at he⟩

theorem foldl_good (sv : ℕ → String → Resp B) (cs : List (Call D)) (w : World B) (hw : Good w) : Good (cs.foldl (fun w c => (load sv w c).1) w) := by
  induction cs generalizing w with
  | nil => exact hw
  | cons c cs ih => exact ih _ (load_good sv w hw c)

theorem run_good (sv : ℕ → String → Resp B) (cs : List (Call D)) : Good (run sv cs) := foldl_good sv cs _ empty_good

end Verif.LoadBench
