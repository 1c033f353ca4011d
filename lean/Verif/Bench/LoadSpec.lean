import Verif.Bench.LoadInv

/-! # Specification and lemmas for what `load_benchmark` downloads and returns -/

namespace Verif.LoadBench

variable {B D : Type}

/-! ### Specification -/

/-- The identifier of a call. -/
def Call.ident (c : Call D) : String := c.dataset ++ "_" ++ c.model

/-- The server has answered a request for this identifier before. -/
def Contacted (log : List (String × Resp B)) (id : String) : Prop := ∃ e ∈ log, (∃ j ∈ jobs id, e.1 = j.url) ∧ answered e.2

/-- An answer with which the downloads go on: 404, or 200 with a proper archive where one is expected. -/
def Fine (j : Job) (r : Resp B) : Prop := ∃ code b, r = .resp code b ∧ (code = 404 ∨ (code = 200 ∧ (j.file = none → b.zip ≠ none)))

/-- Some archive served for this address had a folder `f` at its top level. -/
def Folder (log : List (String × Resp B)) (url f : String) : Prop :=
  ∃ e ∈ log, e.1 = url ∧ ∃ b es, okBody e.2 = some b ∧ b.zip = some es ∧ ∃ en ∈ es, (entryDir en).head? = some f

/-- Some archive served for this address had the checkpoint file in the folder `f`. -/
def Weights (log : List (String × Resp B)) (url f : String) : Prop :=
  ∃ e ∈ log, e.1 = url ∧ ∃ b es, okBody e.2 = some b ∧ b.zip = some es ∧ ∃ x, ([f, "model_weights_0.pt"], some x) ∈ es

/-! ### Helper lemmas -/

theorem ident_dirs {w : World B} (hw : Good w) {id : String} (hid : id ∈ ids) : [id] ∈ w.fs.dirs ↔ Contacted w.log id := by
  rw [hw.dirs]
  constructor
  · rintro ⟨e, he, j, hj, hu, hm⟩
    obtain ⟨id', hid', j', hj', hu'⟩ := hw.asked e he
    obtain rfl : j = j' := url_inj hj (jobs_sub hid' j' hj') (hu.symm.trans hu')
    have hans : answered e.2 := by
      rcases hm with ⟨h, -⟩ | ⟨-, b, es, h, -⟩
      · exact h
      · cases hr : e.2 with
        | unreachable => simp [hr, okBody] at h
        | resp c b => trivial
    have hpre : ∃ l, j.dest = id' :: l := by
      rcases job_shape (jobs_sub6 hid' j hj') with ⟨-, d | d⟩ | ⟨m, pre, -, -, d, -⟩ <;> exact ⟨_, d⟩
    obtain ⟨l, hl⟩ := hpre
    have : id = id' := by
      rcases hm with ⟨-, h⟩ | ⟨-, b, es, -, -, en, -, h⟩ <;> rw [hl] at h
      · exact (List.cons_prefix_cons.1 h).1
      · exact (List.cons_prefix_cons.1 h).1
    subst this
    exact ⟨e, he, ⟨j, hj', hu⟩, hans⟩
  · rintro ⟨e, he, ⟨j, hj, hu⟩, ha⟩
    refine ⟨e, he, j, jobs_sub hid j hj, hu, Or.inl ⟨ha, ?_⟩⟩
    rcases job_shape (jobs_sub6 hid j hj) with ⟨-, d | d⟩ | ⟨m, pre, -, -, d, -⟩ <;> rw [d] <;> simp [List.cons_prefix_cons]

theorem download_ok (sv : ℕ → String → Resp B) (w : World B) (j : Job) :
    ((download sv w j).2 = .ok () ↔ Fine j (sv w.log.length j.url)) ∧
    (¬ Fine j (sv w.log.length j.url) → ∃ e, (download sv w j).2 = .error e ∧ e ≠ .fileNotFound) := by
  unfold download Fine
  generalize sv w.log.length j.url = r
  cases r with
  | unreachable => simp
  | resp code b =>
    dsimp only
    by_cases hc : code = 200
    · subst hc
      rw [if_pos rfl]
      cases hf : j.file with
      | none =>
        cases hz : b.zip with
        | none => simp [hz]
        | some es => simp [hz]
      | some n => simp
    · rw [if_neg hc]
      by_cases h4 : code = 404
      · simp [h4]
      · simp [h4, hc]

/-- The exchanges of consecutive requests for the given downloads. -/
def exchanges (sv : ℕ → String → Resp B) : ℕ → List Job → List (String × Resp B)
  | _, [] => []
  | k, j :: js => (j.url, sv k j.url) :: exchanges sv (k + 1) js

theorem downloadAll_spec (sv : ℕ → String → Resp B) (js : List Job) (w : World B) :
    ((∀ i (hi : i < js.length), Fine js[i] (sv (w.log.length + i) js[i].url)) ∧ (downloadAll sv w js).2 = .ok () ∧
      (downloadAll sv w js).1.log = w.log ++ exchanges sv w.log.length js) ∨
    (∃ n, ∃ (hn : n < js.length), (∀ i (hi : i < n), Fine (js[i]'(by omega)) (sv (w.log.length + i) (js[i]'(by omega)).url)) ∧
      ¬ Fine js[n] (sv (w.log.length + n) js[n].url) ∧ (∃ e, (downloadAll sv w js).2 = .error e ∧ e ≠ .fileNotFound) ∧
      (downloadAll sv w js).1.log = w.log ++ exchanges sv w.log.length (js.take (n + 1))) := by
  induction js generalizing w with
  | nil =>
    left
    exact ⟨fun i hi => absurd hi (by simp), rfl, by simp [downloadAll, exchanges]⟩
  | cons j js ih =>
    obtain ⟨hok, herr⟩ := download_ok sv w j
    have hlog := (download_effect sv w j).1
    by_cases hf : Fine j (sv w.log.length j.url)
    · have h2 := hok.2 hf
      have hd : downloadAll sv w (j :: js) = downloadAll sv (download sv w j).1 js := by
        rw [show downloadAll sv w (j :: js) = match download sv w j with
          | (w', .ok _) => downloadAll sv w' js
          | (w', .error e) => (w', .error e) from rfl]
        rw [show download sv w j = ((download sv w j).1, (download sv w j).2) from rfl, h2]
      have hlen : (download sv w j).1.log.length = w.log.length + 1 := by
        rw [hlog]
        simp
      rw [hd]
      rcases ih (download sv w j).1 with ⟨a, b, c⟩ | ⟨n, hn, a, b, c, d⟩
      · left
        refine ⟨fun i hi => ?_, b, ?_⟩
        · cases i with
          | zero => exact hf
          | succ i =>
            have := a i (by simpa using hi)
            rw [hlen] at this
            simpa [Nat.add_assoc, Nat.add_comm 1 i] using this
        · rw [c, hlen, hlog]
          simp [exchanges]
      · right
        refine ⟨n + 1, by simpa using hn, fun i hi => ?_, ?_, c, ?_⟩
        · cases i with
          | zero => exact hf
          | succ i =>
            have := a i (by omega)
            rw [hlen] at this
            simpa [Nat.add_assoc, Nat.add_comm 1 i] using this
        · rw [hlen] at b
          simpa [Nat.add_assoc, Nat.add_comm 1 n] using b
        · rw [d, hlen, hlog]
          simp [exchanges]
    · right
      obtain ⟨e, he, hne⟩ := herr hf
      have hd : downloadAll sv w (j :: js) = ((download sv w j).1, .error e) := by
        rw [show downloadAll sv w (j :: js) = match download sv w j with
          | (w', .ok _) => downloadAll sv w' js
          | (w', .error e) => (w', .error e) from rfl]
        rw [show download sv w j = ((download sv w j).1, (download sv w j).2) from rfl, he]
      refine ⟨0, by simp, fun i hi => absurd hi (by omega), hf, ⟨e, by rw [hd], hne⟩, ?_⟩
      rw [hd]
      dsimp only
      rw [hlog]
      simp [exchanges]

theorem load_unfold (sv : ℕ → String → Resp B) (w : World B) (c : Call D) (hid : c.ident ∈ ids) :
    load sv w c = if [c.ident] ∉ w.fs.dirs ∨ c.redownload = true then
      (match downloadAll sv w (jobs c.ident) with
        | (w', .ok _) => (w', readBack w'.fs c)
        | (w', .error e) => (w', .error e))
      else (w, readBack w.fs c) := by
  have h : ¬ (modelMap.lookup (c.dataset ++ "_" ++ c.model)).isNone = true := fun h => (lookup_isNone _).1 h hid
  unfold load
  dsimp only
  rw [if_neg h]
  rfl

theorem zip_job {id : String} (hid : id ∈ ids) {kind : String} (hk : kind = "full" ∨ kind = "half") :
    (⟨zipUrl id kind, [id, "models_" ++ kind], none⟩ : Job) ∈ jobs id := by
  have e1 : "models_" ++ "full" = ("models_full" : String) := by decide
  have e2 : "models_" ++ "half" = ("models_half" : String) := by decide
  rw [jobs_eq hid]
  rcases hk with rfl | rfl
  · rw [e1]
    simp
  · rw [e2]
    simp

theorem kinds_ne : ("models_" ++ "full" : String) ≠ "models_" ++ "half" ∧ (∀ m ∈ ["lds", "loo"], ("models_" ++ "full" : String) ≠ m ∧ ("models_" ++ "half" : String) ≠ m) := by
  decide +kernel

theorem zip_job_unique {id : String} {kind : String} (hk : kind = "full" ∨ kind = "half") {j : Job} (hj : j ∈ allJobs)
    (hd : j.dest = [id, "models_" ++ kind]) : j = ⟨zipUrl id kind, [id, "models_" ++ kind], none⟩ := by
  have e1 : "models_" ++ "full" = ("models_full" : String) := by decide
  have e2 : "models_" ++ "half" = ("models_half" : String) := by decide
  obtain ⟨id', hid', hj'⟩ := mem_allJobs.1 hj
  unfold jobs6 at hj'
  simp only [List.mem_cons, List.not_mem_nil, or_false] at hj'
  rcases hk with rfl | rfl
  · rw [e1] at hd ⊢
    rcases hj' with rfl | rfl | rfl | rfl | rfl | rfl <;> simp_all
  · rw [e2] at hd ⊢
    rcases hj' with rfl | rfl | rfl | rfl | rfl | rfl <;> simp_all

theorem dest_length {j : Job} (hj : j ∈ allJobs) : ∃ a b, j.dest = [a, b] := by
  obtain ⟨id', hid', hj'⟩ := mem_allJobs.1 hj
  rcases job_shape hj' with ⟨-, d | d⟩ | ⟨m, pre, -, -, d, -⟩ <;> exact ⟨_, _, d⟩

theorem models_dir {w : World B} (hw : Good w) {id : String} (hid : id ∈ ids) {kind : String} (hk : kind = "full" ∨ kind = "half") :
    [id, "models_" ++ kind] ∈ w.fs.dirs ↔ ∃ e ∈ w.log, e.1 = zipUrl id kind ∧ answered e.2 := by
  have hz := jobs_sub hid _ (zip_job hid hk)
  rw [hw.dirs]
  constructor
  · rintro ⟨e, he, j, hj, hu, hm⟩
    have hans : answered e.2 := by
      rcases hm with ⟨h, -⟩ | ⟨-, b, es, h, -⟩
      · exact h
      · cases hr : e.2 with
        | unreachable => simp [hr, okBody] at h
        | resp c b => trivial
    obtain ⟨a, b, hd⟩ := dest_length hj
    have : j.dest = [id, "models_" ++ kind] := by
      rcases hm with ⟨-, h⟩ | ⟨-, b, es, -, -, en, -, h⟩ <;> rw [hd] at h ⊢ <;> simp only [List.cons_append, List.nil_append, List.cons_prefix_cons] at h <;>
        rw [h.1, h.2.1]
    rw [zip_job_unique hk hj this] at hu
    exact ⟨e, he, hu, hans⟩
  · rintro ⟨e, he, hu, ha⟩
    exact ⟨e, he, _, hz, hu, Or.inl ⟨ha, List.prefix_rfl⟩⟩

theorem folder_dir {w : World B} (hw : Good w) {id : String} (hid : id ∈ ids) {kind : String} (hk : kind = "full" ∨ kind = "half") (f : String) :
    [id, "models_" ++ kind] ++ [f] ∈ w.fs.dirs ↔ Folder w.log (zipUrl id kind) f := by
  have hz := jobs_sub hid _ (zip_job hid hk)
  rw [hw.dirs]
  constructor
  · rintro ⟨e, he, j, hj, hu, hm⟩
    obtain ⟨a, b, hd⟩ := dest_length hj
    rcases hm with ⟨-, h⟩ | ⟨-, body, es, h1, h2, en, h3, h⟩
    · rw [hd] at h
      have := h.length_le
      simp at this
    · rw [hd] at h
      simp only [List.cons_append, List.nil_append, List.cons_prefix_cons] at h
      obtain ⟨q1, q2, h⟩ := h
      have : j.dest = [id, "models_" ++ kind] := by rw [hd, q1, q2]
      rw [zip_job_unique hk hj this] at hu
      refine ⟨e, he, hu, body, es, h1, h2, en, h3, ?_⟩
      obtain ⟨t, ht⟩ := h
      rw [← ht]
      rfl
  · rintro ⟨e, he, hu, body, es, h1, h2, en, h3, h⟩
    refine ⟨e, he, _, hz, hu, Or.inr ⟨rfl, body, es, h1, h2, en, h3, ?_⟩⟩
    cases hen : entryDir en with
    | nil => simp [hen] at h
    | cons x l =>
      rw [hen] at h
      obtain rfl : x = f := by simpa using h
      simp [List.cons_prefix_cons]

theorem weights_file {w : World B} (hw : Good w) {id : String} (hid : id ∈ ids) {kind : String} (hk : kind = "full" ∨ kind = "half") (f : String) :
    (w.fs.files ([id, "models_" ++ kind] ++ [f, "model_weights_0.pt"])).isSome = true ↔ Weights w.log (zipUrl id kind) f := by
  have hz := jobs_sub hid _ (zip_job hid hk)
  rw [hw.files]
  constructor
  · rintro ⟨e, he, j, hj, hu, b, hb, ⟨name, -, h⟩ | ⟨-, es, h2, rel, x, h3, h⟩⟩
    · obtain ⟨a, c, hd⟩ := dest_length hj
      rw [hd] at h
      simp at h
    · obtain ⟨a, c, hd⟩ := dest_length hj
      rw [hd] at h
      simp only [List.cons_append, List.nil_append, List.cons.injEq] at h
      obtain ⟨rfl, rfl, rfl⟩ := h
      rw [zip_job_unique hk hj hd] at hu
      exact ⟨e, he, hu, b, es, hb, h2, x, h3⟩
  · rintro ⟨e, he, hu, b, es, hb, h2, x, h3⟩
    exact ⟨e, he, _, hz, hu, b, hb, Or.inr ⟨rfl, es, h2, _, x, h3, rfl⟩⟩

/-- The folder count is the number of different folders in all archives ever extracted there. -/
theorem countFolders_spec {w : World B} (hw : Good w) {id : String} (hid : id ∈ ids) {kind : String} (hk : kind = "full" ∨ kind = "half") :
    ((∃ e ∈ w.log, e.1 = zipUrl id kind ∧ answered e.2) → ∃ names : List String, names.Nodup ∧
      (∀ f, f ∈ names ↔ Folder w.log (zipUrl id kind) f) ∧ countFolders w.fs [id, "models_" ++ kind] = .ok names.length) ∧
    (¬ (∃ e ∈ w.log, e.1 = zipUrl id kind ∧ answered e.2) → countFolders w.fs [id, "models_" ++ kind] = .error .fileNotFound) := by
  rw [← models_dir hw hid hk]
  constructor
  · intro h
    let p : Path := [id, "models_" ++ kind]
    let L := w.fs.dirs.filter fun q => decide (q ≠ [] ∧ q.dropLast = p)
    have hL : ∀ q, q ∈ L ↔ ∃ f, q = p ++ [f] ∧ p ++ [f] ∈ w.fs.dirs := by
      intro q
      simp only [L, List.mem_filter, decide_eq_true_eq]
      constructor
      · rintro ⟨a, b, c⟩
        have := List.dropLast_append_getLast b
        rw [c] at this
        exact ⟨_, this.symm, by rw [this]; exact a⟩
      · rintro ⟨f, rfl, a⟩
        exact ⟨a, by simp, by simp⟩
    refine ⟨L.map fun q => q.getLastD "", ?_, ?_, ?_⟩
    · refine List.Nodup.map_on ?_ (hw.nodup.filter _)
      intro a ha b hb hab
      obtain ⟨f, rfl, -⟩ := (hL a).1 ha
      obtain ⟨g, rfl, -⟩ := (hL b).1 hb
      have : f = g := by simpa using hab
      rw [this]
    · intro f
      rw [← folder_dir hw hid hk, List.mem_map]
      constructor
      · rintro ⟨q, hq, hf⟩
        obtain ⟨g, rfl, hg⟩ := (hL q).1 hq
        obtain rfl : g = f := by simpa using hf
        exact hg
      · intro hf
        exact ⟨p ++ [f], (hL _).2 ⟨f, rfl, hf⟩, by simp⟩
    · rw [List.length_map]
      exact if_pos h
  · intro h
    exact if_neg h

theorem truth_file {w : World B} (hw : Good w) {id m pre : String} (hid : id ∈ ids) (hm : m = "lds" ∨ m = "loo") (hp : pre = "indices_" ∨ pre = "target_values_") :
    w.fs.files [id, m, pre ++ (m ++ ".pt")] = (served w.log (truthUrl id m pre)).map Body.raw := by
  have e1 : "indices_" ++ ("lds" ++ ".pt") = ("indices_lds.pt" : String) := by decide
  have e2 : "target_values_" ++ ("lds" ++ ".pt") = ("target_values_lds.pt" : String) := by decide
  have e3 : "indices_" ++ ("loo" ++ ".pt") = ("indices_loo.pt" : String) := by decide
  have e4 : "target_values_" ++ ("loo" ++ ".pt") = ("target_values_loo.pt" : String) := by decide
  have hj : (⟨truthUrl id m pre, [id, m], some (pre ++ (m ++ ".pt"))⟩ : Job) ∈ allJobs := by
    refine mem_allJobs.2 ⟨id, hid, ?_⟩
    rcases hm with rfl | rfl <;> rcases hp with rfl | rfl
    · rw [e1]
      simp [jobs6]
    · rw [e2]
      simp [jobs6]
    · rw [e3]
      simp [jobs6]
    · rw [e4]
      simp [jobs6]
  exact hw.truth _ hj _ rfl

/-- Nothing else is ever written beside the archives. -/
theorem other_file {w : World B} (hw : Good w) {id m name : String} (hm : m ≠ "lds") (hm' : m ≠ "loo") (hf : m ≠ "models_full") (hh : m ≠ "models_half") :
    w.fs.files [id, m, name] = none := by
  by_contra hne
  have hs : (w.fs.files [id, m, name]).isSome = true := Option.ne_none_iff_isSome.1 hne
  obtain ⟨e, he, j, hj, hu, b, hb, h⟩ := (hw.files _).1 hs
  obtain ⟨id', hid', hj'⟩ := mem_allJobs.1 hj
  have hd : j.dest = [id, m] := by
    obtain ⟨a, c, hd⟩ := dest_length hj
    rcases h with ⟨n, -, h⟩ | ⟨-, es, -, rel, x, -, h⟩ <;> rw [hd] at h ⊢ <;> simp only [List.cons_append, List.nil_append, List.cons.injEq] at h <;>
      rw [h.1, h.2.1]
  rcases job_shape hj' with ⟨-, d | d⟩ | ⟨m', pre, hm'', -, d, -⟩ <;> rw [d] at hd <;> simp only [List.cons.injEq, and_true] at hd
  · exact hf hd.2.symm
  · exact hh hd.2.symm
  · rcases hm'' with rfl | rfl
    · exact hm hd.2.symm
    · exact hm' hd.2.symm

end Verif.LoadBench
