import Verif.Bench.LoadSpec
import Mathlib.Data.List.Perm.Subperm
import Mathlib.Data.List.Induction

/-! # C147, C148: what `load_benchmark` downloads and returns -/

namespace Verif.LoadBench

variable {B D : Type}

/-- **C147.** An unsupported combination raises `ValueError` without a request and without touching the disk. -/
theorem C147_unsupported (sv : ℕ → String → Resp B) (w : World B) (c : Call D) (h : c.ident ∉ ids) : load sv w c = (w, .error .value) := by
  unfold load
  dsimp only
  exact if_pos ((lookup_isNone _).2 h)

/-- **C147.** When requests are made. After any calls: without `redownload`, once the server has answered any request for the identifier, however, no
call makes a request or changes the disk. -/
theorem C147_no_request (sv : ℕ → String → Resp B) (cs : List (Call D)) (c : Call D) (hid : c.ident ∈ ids) (hr : c.redownload = false)
    (hc : Contacted (run sv cs).log c.ident) : (load sv (run sv cs) c).1 = run sv cs := by
  rw [load_unfold sv _ c hid, if_neg]
  simp [hr, (ident_dirs (run_good sv cs) hid).2 hc]

/-- **C147.** Otherwise the files are requested in order, up to the first answer which is neither a 404 nor a proper file; with such an answer the
call raises (not `FileNotFoundError`). -/
theorem C147_requests (sv : ℕ → String → Resp B) (cs : List (Call D)) (c : Call D) (hid : c.ident ∈ ids)
    (hc : c.redownload = true ∨ ¬ Contacted (run sv cs).log c.ident) :
    ((∀ i (hi : i < (jobs c.ident).length), Fine (jobs c.ident)[i] (sv ((run sv cs).log.length + i) (jobs c.ident)[i].url)) ∧
      (load sv (run sv cs) c).1.log = (run sv cs).log ++ exchanges sv (run sv cs).log.length (jobs c.ident) ∧
      (load sv (run sv cs) c).2 = readBack (load sv (run sv cs) c).1.fs c) ∨
    (∃ n, ∃ (hn : n < (jobs c.ident).length),
      (∀ i (hi : i < n), Fine ((jobs c.ident)[i]'(by omega)) (sv ((run sv cs).log.length + i) ((jobs c.ident)[i]'(by omega)).url)) ∧
      ¬ Fine (jobs c.ident)[n] (sv ((run sv cs).log.length + n) (jobs c.ident)[n].url) ∧
      (load sv (run sv cs) c).1.log = (run sv cs).log ++ exchanges sv (run sv cs).log.length ((jobs c.ident).take (n + 1)) ∧
      ∃ e, (load sv (run sv cs) c).2 = .error e ∧ e ≠ .fileNotFound) := by
  have hcond : [c.ident] ∉ (run sv cs).fs.dirs ∨ c.redownload = true := by
    rw [ident_dirs (run_good sv cs) hid]
    tauto
  rw [load_unfold sv _ c hid, if_pos hcond]
  rcases downloadAll_spec sv (jobs c.ident) (run sv cs) with ⟨h1, h2, h3⟩ | ⟨n, hn, h1, h2, ⟨e, h3, h3'⟩, h4⟩
  · left
    rw [show downloadAll sv (run sv cs) (jobs c.ident) = ((downloadAll sv (run sv cs) (jobs c.ident)).1, (downloadAll sv (run sv cs) (jobs c.ident)).2) from rfl, h2]
    exact ⟨h1, h3, rfl⟩
  · right
    rw [show downloadAll sv (run sv cs) (jobs c.ident) = ((downloadAll sv (run sv cs) (jobs c.ident)).1, (downloadAll sv (run sv cs) (jobs c.ident)).2) from rfl, h3]
    exact ⟨n, hn, h1, h2, h4, e, rfl, h3'⟩

/-- The addresses: two archives, then for each metric the indices and the target values; no `loo` files for `wikitext2_gpt2`. -/
theorem C147_addresses {id : String} (hid : id ∈ ids) : (jobs id).map Job.url =
    [zipUrl id "full", zipUrl id "half", truthUrl id "lds" "indices_", truthUrl id "lds" "target_values_"] ++
    (if id = "wikitext2_gpt2" then [] else [truthUrl id "loo" "indices_", truthUrl id "loo" "target_values_"]) := by
  rw [jobs_eq hid]
  split <;> rfl

/-! ### The result -/

theorem readBack_ok_iff {w : World B} (hw : Good w) (c : Call D) (hid : c.ident ∈ ids) (hm : c.metric ≠ "models_full") (hm' : c.metric ≠ "models_half")
    (r : Result B D) : readBack w.fs c = .ok r ↔
      (∃ e ∈ w.log, e.1 = zipUrl c.ident "full" ∧ answered e.2) ∧ (∃ e ∈ w.log, e.1 = zipUrl c.ident "half" ∧ answered e.2) ∧
      c.create = .ok r.dataset ∧ (c.metric = "lds" ∨ c.metric = "loo") ∧
      (served w.log (truthUrl c.ident c.metric "target_values_")).map Body.raw = some r.targetValues ∧
      (served w.log (truthUrl c.ident c.metric "indices_")).map Body.raw = some r.indices ∧
      r.model = (if c.ident = "shakespeare_nanogpt" then .name c.model else .inst c.ident) ∧
      (∃ names : List String, names.Nodup ∧ (∀ f, f ∈ names ↔ Folder w.log (zipUrl c.ident "full") f) ∧
        r.modelsFull = modelList [c.ident, "models_full"] names.length) ∧
      (∃ names : List String, names.Nodup ∧ (∀ f, f ∈ names ↔ Folder w.log (zipUrl c.ident "half") f) ∧
        r.modelsHalf = modelList [c.ident, "models_half"] names.length) := by
  have e1 : "models_" ++ "full" = ("models_full" : String) := by decide
  have e2 : "models_" ++ "half" = ("models_half" : String) := by decide
  obtain ⟨f1, f2⟩ := countFolders_spec hw hid (kind := "full") (Or.inl rfl)
  obtain ⟨g1, g2⟩ := countFolders_spec hw hid (kind := "half") (Or.inr rfl)
  rw [e1] at f1 f2
  rw [e2] at g1 g2
  have hmodel : (if modelMap.lookup c.ident = some true then ModelOut.inst c.ident else ModelOut.name c.model) =
      (if c.ident = "shakespeare_nanogpt" then .name c.model else .inst c.ident) := by
    have : ∀ id ∈ ids, (modelMap.lookup id = some true ↔ id ≠ "shakespeare_nanogpt") := by decide +kernel
    by_cases hs : c.ident = "shakespeare_nanogpt"
    · rw [if_neg (fun h => (this _ hid).1 h hs), if_pos hs]
    · rw [if_pos ((this _ hid).2 hs), if_neg hs]
  have hrb : readBack w.fs c = (do
      let n ← countFolders w.fs [c.ident, "models_full"]
      let m ← countFolders w.fs [c.ident, "models_half"]
      let d ← c.create
      let tv ← loadFile w.fs [c.ident, c.metric, "target_values_" ++ (c.metric ++ ".pt")]
      let ix ← loadFile w.fs [c.ident, c.metric, "indices_" ++ (c.metric ++ ".pt")]
      return ⟨if modelMap.lookup c.ident = some true then ModelOut.inst c.ident else ModelOut.name c.model,
        modelList [c.ident, "models_full"] n, modelList [c.ident, "models_half"] m, d, tv, ix⟩) := by
    unfold readBack Call.ident
    simp only [String.append_assoc]
  by_cases hf : ∃ e ∈ w.log, e.1 = zipUrl c.ident "full" ∧ answered e.2
  swap
  · rw [hrb, f2 hf]
    exact ⟨fun h => (by cases h), fun h => absurd h.1 hf⟩
  by_cases hh : ∃ e ∈ w.log, e.1 = zipUrl c.ident "half" ∧ answered e.2
  swap
  · obtain ⟨names, -, -, hn⟩ := f1 hf
    rw [hrb, hn, g2 hh]
    exact ⟨fun h => (by cases h), fun h => absurd h.2.1 hh⟩
  obtain ⟨n1, n1d, n1f, hn1⟩ := f1 hf
  obtain ⟨n2, n2d, n2f, hn2⟩ := g1 hh
  have hu : ∀ (names names' : List String) (P : String → Prop), names.Nodup → names'.Nodup → (∀ f, f ∈ names ↔ P f) → (∀ f, f ∈ names' ↔ P f) →
      names.length = names'.length := fun a b P ha hb h1 h2 => ((List.perm_ext_iff_of_nodup ha hb).2 fun x => (h1 x).trans (h2 x).symm).length_eq
  rw [hrb, hn1, hn2, hmodel]
  cases hcr : c.create with
  | error e => exact ⟨fun h => (by cases h), fun h => by cases h.2.2.1⟩
  | ok d =>
    by_cases hmm : c.metric = "lds" ∨ c.metric = "loo"
    · have t1 := truth_file hw hid hmm (pre := "target_values_") (Or.inr rfl)
      have t2 := truth_file hw hid hmm (pre := "indices_") (Or.inl rfl)
      unfold loadFile
      rw [t1, t2]
      cases h1 : served w.log (truthUrl c.ident c.metric "target_values_") with
      | none => exact ⟨fun h => (by cases h), fun h => by cases h.2.2.2.2.1⟩
      | some b1 =>
        cases h2 : served w.log (truthUrl c.ident c.metric "indices_") with
        | none => exact ⟨fun h => (by cases h), fun h => by cases h.2.2.2.2.2.1⟩
        | some b2 =>
          constructor
          · intro h
            have h' : (⟨(if c.ident = "shakespeare_nanogpt" then .name c.model else .inst c.ident), modelList [c.ident, "models_full"] n1.length,
              modelList [c.ident, "models_half"] n2.length, d, b1.raw, b2.raw⟩ : Result B D) = r := Except.ok.inj h
            subst h'
            exact ⟨hf, hh, rfl, hmm, rfl, rfl, rfl, ⟨n1, n1d, n1f, rfl⟩, ⟨n2, n2d, n2f, rfl⟩⟩
          · rintro ⟨-, -, a, -, b, b', m, ⟨n1', q1, q2, q3⟩, ⟨n2', q4, q5, q6⟩⟩
            obtain ⟨rm, rf, rh, rd, rt, ri⟩ := r
            dsimp only at a b b' m q3 q6
            obtain rfl := Except.ok.inj a
            obtain rfl := Option.some.inj b
            obtain rfl := Option.some.inj b'
            rw [m, q3, q6, hu n1 n1' _ n1d q1 n1f q2, hu n2 n2' _ n2d q4 n2f q5]
            rfl
    · have t1 := other_file hw (id := c.ident) (m := c.metric) (name := "target_values_" ++ (c.metric ++ ".pt")) (fun h => hmm (Or.inl h)) (fun h => hmm (Or.inr h)) hm hm'
      unfold loadFile
      rw [t1]
      exact ⟨fun h => (by cases h), fun h => absurd h.2.2.2.1 hmm⟩

/-- **C147.** The result. After any calls with any behaviour of the server: a call succeeds exactly if none of its requests (if it makes any) fails, the metric is `lds` or
`loo`, both files of it have been served at some time, the server ever answered for both archives, and the data set can be created. The ground truth is
what was served last for these files, in the order (target values, indices); the checkpoints are numbered from 0 to the number of different
folders of all archives ever served. For `shakespeare_nanogpt` the model in the result is its name. -/
theorem C147_result (sv : ℕ → String → Resp B) (cs : List (Call D)) (c : Call D) (hid : c.ident ∈ ids) (hm : c.metric ≠ "models_full")
    (hm' : c.metric ≠ "models_half") (r : Result B D) :
    let w' := (load sv (run sv cs) c).1
    (load sv (run sv cs) c).2 = .ok r ↔
      (c.redownload = true ∨ ¬ Contacted (run sv cs).log c.ident →
        ∀ i (hi : i < (jobs c.ident).length), Fine (jobs c.ident)[i] (sv ((run sv cs).log.length + i) (jobs c.ident)[i].url)) ∧
      (∃ e ∈ w'.log, e.1 = zipUrl c.ident "full" ∧ answered e.2) ∧ (∃ e ∈ w'.log, e.1 = zipUrl c.ident "half" ∧ answered e.2) ∧
      c.create = .ok r.dataset ∧ (c.metric = "lds" ∨ c.metric = "loo") ∧
      (served w'.log (truthUrl c.ident c.metric "target_values_")).map Body.raw = some r.targetValues ∧
      (served w'.log (truthUrl c.ident c.metric "indices_")).map Body.raw = some r.indices ∧
      r.model = (if c.ident = "shakespeare_nanogpt" then .name c.model else .inst c.ident) ∧
      (∃ names : List String, names.Nodup ∧ (∀ f, f ∈ names ↔ Folder w'.log (zipUrl c.ident "full") f) ∧
        r.modelsFull = modelList [c.ident, "models_full"] names.length) ∧
      (∃ names : List String, names.Nodup ∧ (∀ f, f ∈ names ↔ Folder w'.log (zipUrl c.ident "half") f) ∧
        r.modelsHalf = modelList [c.ident, "models_half"] names.length) := by
  intro w'
  have hg : Good w' := load_good sv _ (run_good sv cs) c
  rw [← readBack_ok_iff hg c hid hm hm' r]
  have hoff : ¬ (c.redownload = true ∨ ¬ Contacted (run sv cs).log c.ident) → (load sv (run sv cs) c).2 = readBack w'.fs c := by
    intro hcond
    have hcond' : ¬ ([c.ident] ∉ (run sv cs).fs.dirs ∨ c.redownload = true) := by
      rw [ident_dirs (run_good sv cs) hid]
      tauto
    show (load sv (run sv cs) c).2 = readBack (load sv (run sv cs) c).1.fs c
    rw [load_unfold sv _ c hid, if_neg hcond']
  by_cases hcond : c.redownload = true ∨ ¬ Contacted (run sv cs).log c.ident
  · rcases C147_requests sv cs c hid hcond with ⟨hall, -, h3⟩ | ⟨n, hn, -, hbad, -, e, he, -⟩
    · rw [h3]
      exact ⟨fun h => ⟨fun _ => hall, h⟩, fun h => h.2⟩
    · rw [he]
      exact ⟨fun h => (by cases h), fun h => absurd (h.1 hcond n hn) hbad⟩
  · rw [hoff hcond]
    exact ⟨fun h => ⟨fun h' => absurd h' hcond, h⟩, fun h => h.2⟩

/-- **C147.** The leave-one-out ground truth of `wikitext2_gpt2` can never be loaded, and neither can a metric other than `lds` and `loo`. -/
theorem C147_never (sv : ℕ → String → Resp B) (cs : List (Call D)) (c : Call D) (hm : c.metric ≠ "models_full") (hm' : c.metric ≠ "models_half")
    (h : (c.ident = "wikitext2_gpt2" ∧ c.metric = "loo") ∨ (c.metric ≠ "lds" ∧ c.metric ≠ "loo")) (r : Result B D) :
    (load sv (run sv cs) c).2 ≠ .ok r := by
  intro hok
  by_cases hid : c.ident ∈ ids
  · obtain ⟨-, -, -, -, hmet, hs, -⟩ := (C147_result sv cs c hid hm hm' r).1 hok
    rcases h with ⟨h1, h2⟩ | h
    · have hg : Good (load sv (run sv cs) c).1 := load_good sv _ (run_good sv cs) c
      obtain ⟨b, hb, -⟩ := Option.map_eq_some_iff.1 hs
      have hb' := List.mem_of_getLast? hb
      obtain ⟨e, he, heq⟩ := List.mem_filterMap.1 hb'
      have hu : e.1 = truthUrl c.ident c.metric "target_values_" := by
        by_contra hne
        rw [if_neg hne] at heq
        cases heq
      obtain ⟨id', hid', j, hj, hju⟩ := hg.asked e he
      have hj6 : (⟨truthUrl c.ident "loo" "target_values_", [c.ident, "loo"], some "target_values_loo.pt"⟩ : Job) ∈ allJobs :=
        mem_allJobs.2 ⟨c.ident, hid, by simp [jobs6]⟩
      have : j = ⟨truthUrl c.ident "loo" "target_values_", [c.ident, "loo"], some "target_values_loo.pt"⟩ :=
        url_inj (jobs_sub hid' j hj) hj6 (by rw [← hju, hu, h2])
      rw [this, jobs_eq hid'] at hj
      by_cases hw : id' = "wikitext2_gpt2"
      · rw [if_pos hw] at hj
        simp at hj
      · rw [if_neg hw] at hj
        simp only [List.cons_append, List.nil_append, List.mem_cons, Job.mk.injEq, List.cons.injEq, List.not_mem_nil, or_false] at hj
        simp at hj
        exact hw (hj.2.symm.trans h1)
    · rcases hmet with h1 | h1
      · exact h.1 h1
      · exact h.2 h1
  · rw [C147_unsupported sv _ c hid] at hok
    cases hok

/-! ### C148 -/

/-- **C148.** All checkpoints of the returned list exist exactly if every folder of every archive ever served for it is named by a number below the
number of folders and holds a checkpoint file. -/
theorem C148_checkpoints_exist (sv : ℕ → String → Resp B) (cs : List (Call D)) {id kind : String} (hid : id ∈ ids) (hk : kind = "full" ∨ kind = "half")
    (names : List String) (hd : names.Nodup) (hn : ∀ f, f ∈ names ↔ Folder (run sv cs).log (zipUrl id kind) f) :
    (∀ p ∈ modelList [id, "models_" ++ kind] names.length, ((run sv cs).fs.files p).isSome = true) ↔
      ∀ f, Folder (run sv cs).log (zipUrl id kind) f → (∃ i < names.length, f = toString i) ∧ Weights (run sv cs).log (zipUrl id kind) f := by
  have hw := run_good sv cs
  have hinj : Function.Injective fun i : ℕ => (toString i : String) := fun a b h => Nat.repr_injective h
  have hnum : ((List.range names.length).map fun i : ℕ => toString i).Nodup := List.nodup_range.map hinj
  constructor
  · intro h
    have hwt : ∀ i < names.length, Weights (run sv cs).log (zipUrl id kind) (toString i) := fun i hi =>
      (weights_file hw hid hk _).1 (h _ (List.mem_map.2 ⟨i, List.mem_range.2 hi, rfl⟩))
    have hsub : ((List.range names.length).map fun i : ℕ => toString i) ⊆ names := by
      intro f hf
      obtain ⟨i, hi, rfl⟩ := List.mem_map.1 hf
      obtain ⟨e, he, hu, b, es, hb, hz, x, hx⟩ := hwt i (List.mem_range.1 hi)
      exact (hn _).2 ⟨e, he, hu, b, es, hb, hz, _, hx, rfl⟩
    have hperm := (List.subperm_of_subset hnum hsub).perm_of_length_le (by simp)
    intro f hf
    have hmem := hperm.symm.subset ((hn f).2 hf)
    obtain ⟨i, hi, rfl⟩ := List.mem_map.1 hmem
    exact ⟨⟨i, List.mem_range.1 hi, rfl⟩, hwt i (List.mem_range.1 hi)⟩
  · intro h p hp
    obtain ⟨i, hi, rfl⟩ := List.mem_map.1 hp
    rw [weights_file hw hid hk]
    have hsub : names ⊆ (List.range names.length).map fun i : ℕ => toString i := by
      intro f hf
      obtain ⟨⟨i, hi, rfl⟩, -⟩ := h f ((hn f).1 hf)
      exact List.mem_map.2 ⟨i, List.mem_range.2 hi, rfl⟩
    have hperm := (List.subperm_of_subset hd hsub).perm_of_length_le (by simp)
    exact (h _ ((hn _).1 (hperm.symm.subset (List.mem_map.2 ⟨i, hi, rfl⟩)))).2

/-- **C148.** Downloading again never removes a folder: the number of checkpoints returned never decreases, whatever the new archive holds. -/
theorem C148_stale_folders (sv : ℕ → String → Resp B) (cs cs' : List (Call D)) (url f : String) (h : Folder (run sv cs).log url f) :
    Folder (run sv (cs ++ cs')).log url f := by
  have hstep : ∀ (w : World B) (c : Call D), w.log <+: (load sv w c).1.log := by
    intro w c
    by_cases hid : c.ident ∈ ids
    · rw [load_unfold sv w c hid]
      split
      · rcases downloadAll_spec sv (jobs c.ident) w with ⟨-, -, h3⟩ | ⟨n, hn, -, -, -, h4⟩
        · split
          · rename_i w' _ he
            rw [he] at h3
            exact ⟨_, h3.symm⟩
          · rename_i w' _ he
            rw [he] at h3
            exact ⟨_, h3.symm⟩
        · split
          · rename_i w' _ he
            rw [he] at h4
            exact ⟨_, h4.symm⟩
          · rename_i w' _ he
            rw [he] at h4
            exact ⟨_, h4.symm⟩
      · exact List.prefix_rfl
    · rw [C147_unsupported sv w c hid]
  have hall : ∀ (w : World B), w.log <+: (cs'.foldl (fun w c => (load sv w c).1) w).log := by
    induction cs' with
    | nil => exact fun w => List.prefix_rfl
    | cons c cs' ih => exact fun w => (hstep w c).trans (ih _)
  obtain ⟨e, he, hrest⟩ := h
  refine ⟨e, ?_, hrest⟩
  have : run sv (cs ++ cs') = cs'.foldl (fun w c => (load sv w c).1) (run sv cs) := List.foldl_append ..
  rw [this]
  exact (hall _).subset he

/-- The part of the tree of one identifier is the same. -/
def Agree (id : String) (fs fs' : FS B) : Prop := ∀ p, [id] <+: p → (p ∈ fs.dirs ↔ p ∈ fs'.dirs) ∧ fs.files p = fs'.files p

theorem agree_trans {id : String} {a b c : FS B} (h : Agree id a b) (h' : Agree id b c) : Agree id a c := fun p hp =>
  ⟨(h p hp).1.trans (h' p hp).1, (h p hp).2.trans (h' p hp).2⟩

theorem agree_download (sv : ℕ → String → Resp B) (w : World B) {id id' : String} (hne : id ≠ id') (hid' : id' ∈ ids) {j : Job} (hj : j ∈ jobs id') :
    Agree id w.fs (download sv w j).1.fs := by
  obtain ⟨-, h2, -, h4, h5, -⟩ := download_effect sv w j
  have hd : ∃ l, j.dest = id' :: l := by
    rcases job_shape (jobs_sub6 hid' j hj) with ⟨-, d | d⟩ | ⟨m, pre, -, -, d, -⟩ <;> exact ⟨_, d⟩
  obtain ⟨l, hl⟩ := hd
  intro p hp
  obtain ⟨t, rfl⟩ := hp
  constructor
  · rw [h2]
    constructor
    · exact Or.inl
    · rintro (h | h)
      · exact h
      · exfalso
        rcases h with ⟨-, h⟩ | ⟨-, b, es, -, -, en, -, h⟩ <;> rw [hl] at h
        · exact hne (List.cons_prefix_cons.1 h).1
        · exact hne (List.cons_prefix_cons.1 h).1
  · cases hf : j.file with
    | none =>
      rw [h5 hf]
      rw [hl]
      intro h
      exact hne (List.cons_prefix_cons.1 h).1.symm
    | some n =>
      rw [h4 n hf, if_neg]
      rw [hl]
      intro h
      exact hne (List.cons.inj h).1

theorem agree_downloadAll (sv : ℕ → String → Resp B) {id id' : String} (hne : id ≠ id') (hid' : id' ∈ ids) (js : List Job) (hjs : ∀ j ∈ js, j ∈ jobs id')
    (w : World B) : Agree id w.fs (downloadAll sv w js).1.fs := by
  induction js generalizing w with
  | nil => exact fun p _ => ⟨Iff.rfl, rfl⟩
  | cons j js ih =>
    have h := agree_download sv w hne hid' (hjs j (by simp))
    unfold downloadAll
    split
    · rename_i w' _ he
      rw [he] at h
      exact agree_trans h (ih (fun j' hj' => hjs j' (by simp [hj'])) w')
    · rename_i w' _ he
      rw [he] at h
      exact h

theorem agree_count {id k : String} {fs fs' : FS B} (h : Agree id fs fs') (hn : fs.dirs.Nodup) (hn' : fs'.dirs.Nodup) :
    countFolders fs [id, k] = countFolders fs' [id, k] := by
  have h1 := (h [id, k] (by simp [List.cons_prefix_cons])).1
  unfold countFolders
  by_cases hp : [id, k] ∈ fs.dirs
  · rw [if_pos hp, if_pos (h1.1 hp)]
    congr 1
    refine ((List.perm_ext_iff_of_nodup (hn.filter _) (hn'.filter _)).2 fun q => ?_).length_eq
    simp only [List.mem_filter, decide_eq_true_eq]
    constructor
    · rintro ⟨a, b, d⟩
      have hq : [id] <+: q := by
        rw [← List.dropLast_append_getLast b, d]
        simp [List.cons_prefix_cons]
      exact ⟨(h q hq).1.1 a, b, d⟩
    · rintro ⟨a, b, d⟩
      have hq : [id] <+: q := by
        rw [← List.dropLast_append_getLast b, d]
        simp [List.cons_prefix_cons]
      exact ⟨(h q hq).1.2 a, b, d⟩
  · rw [if_neg hp, if_neg (fun h' => hp (h1.2 h'))]

theorem agree_readBack {fs fs' : FS B} (c : Call D) (h : Agree c.ident fs fs') (hn : fs.dirs.Nodup) (hn' : fs'.dirs.Nodup) :
    readBack fs c = readBack fs' c := by
  have hf : ∀ a b, loadFile fs [c.ident, a, b] = loadFile fs' [c.ident, a, b] := fun a b => by
    unfold loadFile
    rw [(h [c.ident, a, b] (by simp [List.cons_prefix_cons])).2]
  unfold readBack
  rw [show c.dataset ++ "_" ++ c.model = c.ident from rfl]
  simp only [agree_count h hn hn', hf]

theorem contacted_mono (sv : ℕ → String → Resp B) (cs cs' : List (Call D)) {id : String} (hid : id ∈ ids) (h : Contacted (run sv cs).log id)
    (hno : ∀ c ∈ cs', c.ident = id → c.redownload = false) :
    Contacted (run sv (cs ++ cs')).log id ∧ Agree id (run sv cs).fs (run sv (cs ++ cs')).fs := by
  induction cs' using List.reverseRecOn with
  | nil =>
    rw [List.append_nil]
    exact ⟨h, fun p _ => ⟨Iff.rfl, rfl⟩⟩
  | append_singleton l c ih =>
    obtain ⟨i1, i2⟩ := ih fun c hc => hno c (by simp [hc])
    have hr : run sv (cs ++ (l ++ [c])) = (load sv (run sv (cs ++ l)) c).1 := by
      unfold run
      rw [← List.append_assoc, List.foldl_append, List.foldl_cons, List.foldl_nil]
    rw [hr]
    have hg := load_good sv _ (run_good sv (cs ++ l)) c
    have key : Agree id (run sv (cs ++ l)).fs (load sv (run sv (cs ++ l)) c).1.fs := by
      by_cases hc : c.ident ∈ ids
      · by_cases he : c.ident = id
        · rw [C147_no_request sv _ c hc (hno c (by simp) he) (he ▸ i1)]
          exact fun p _ => ⟨Iff.rfl, rfl⟩
        · rw [load_unfold sv _ c hc]
          have := agree_downloadAll sv (Ne.symm he) hc (jobs c.ident) (fun _ h => h) (run sv (cs ++ l))
          split
          · split
            · rename_i w' _ heq
              rw [heq] at this
              exact this
            · rename_i w' _ heq
              rw [heq] at this
              exact this
          · exact fun p _ => ⟨Iff.rfl, rfl⟩
      · rw [C147_unsupported sv _ c hc]
        exact fun p _ => ⟨Iff.rfl, rfl⟩
    refine ⟨?_, agree_trans i2 key⟩
    rw [← ident_dirs hg hid]
    exact (key [id] List.prefix_rfl).1.1 ((ident_dirs (run_good sv _) hid).2 i1)

/-- **C148.** The first download is final: once the server has answered for an identifier, calls without `redownload` return the same for ever, whatever is
called in between without `redownload` for it and whatever the server would answer. -/
theorem C148_permanent (sv : ℕ → String → Resp B) (cs cs' : List (Call D)) (c : Call D) (hid : c.ident ∈ ids) (hc : Contacted (run sv cs).log c.ident)
    (hno : ∀ x ∈ cs', x.ident = c.ident → x.redownload = false) (hr : c.redownload = false) :
    (load sv (run sv (cs ++ cs')) c).2 = (load sv (run sv cs) c).2 := by
  obtain ⟨h1, h2⟩ := contacted_mono sv cs cs' hid hc hno
  have n1 : ¬ ([c.ident] ∉ (run sv cs).fs.dirs ∨ c.redownload = true) := by
    simp [hr, (ident_dirs (run_good sv cs) hid).2 hc]
  have n2 : ¬ ([c.ident] ∉ (run sv (cs ++ cs')).fs.dirs ∨ c.redownload = true) := by
    simp [hr, (ident_dirs (run_good sv _) hid).2 h1]
  rw [load_unfold sv _ c hid, load_unfold sv _ c hid, if_neg n1, if_neg n2]
  exact (agree_readBack c h2 (run_good sv cs).nodup (run_good sv _).nodup).symm

/-- **C148.** So a server error during the first download (an error status for the first archive, say) is final too: the call raises, and all
later calls without `redownload` raise `FileNotFoundError` without asking the server again. -/
theorem C148_failed_download (sv : ℕ → String → Resp B) (cs cs' : List (Call D)) (c c' : Call D) (hid : c.ident ∈ ids)
    (hn : ¬ Contacted (run sv cs).log c.ident) (code : ℕ) (b : Body B) (hs : sv (run sv cs).log.length (zipUrl c.ident "full") = .resp code b)
    (hcode : code ≠ 200 ∧ code ≠ 404) (hno : ∀ x ∈ cs', x.ident = c.ident → x.redownload = false) (hi : c'.ident = c.ident)
    (hr : c'.redownload = false) :
    (load sv (run sv cs) c).2 = .error .value ∧
    (load sv (run sv (cs ++ [c] ++ cs')) c').2 = .error .fileNotFound ∧
    (load sv (run sv (cs ++ [c] ++ cs')) c').1 = run sv (cs ++ [c] ++ cs') := by
  have e1 : "models_" ++ "full" = ("models_full" : String) := by decide
  have e2 : "models_" ++ "half" = ("models_half" : String) := by decide
  have hcond : [c.ident] ∉ (run sv cs).fs.dirs ∨ c.redownload = true := by
    rw [ident_dirs (run_good sv cs) hid]
    exact Or.inl hn
  obtain ⟨js, hjs⟩ : ∃ js, jobs c.ident = ⟨zipUrl c.ident "full", [c.ident, "models_full"], none⟩ :: js := ⟨_, by rw [jobs_eq hid]; rfl⟩
  have hd : downloadAll sv (run sv cs) (jobs c.ident) =
      (⟨mkdirs (run sv cs).fs [c.ident, "models_full"], (run sv cs).log ++ [(zipUrl c.ident "full", .resp code b)]⟩, .error .value) := by
    rw [hjs]
    unfold downloadAll download
    dsimp only
    rw [hs]
    dsimp only
    rw [if_neg hcode.1, if_neg hcode.2]
  have hload : load sv (run sv cs) c =
      (⟨mkdirs (run sv cs).fs [c.ident, "models_full"], (run sv cs).log ++ [(zipUrl c.ident "full", .resp code b)]⟩, .error .value) := by
    rw [load_unfold sv _ c hid, if_pos hcond, hd]
  have hrun : run sv (cs ++ [c]) = ⟨mkdirs (run sv cs).fs [c.ident, "models_full"], (run sv cs).log ++ [(zipUrl c.ident "full", .resp code b)]⟩ := by
    have : run sv (cs ++ [c]) = (load sv (run sv cs) c).1 := by
      unfold run
      rw [List.foldl_append, List.foldl_cons, List.foldl_nil]
    rw [this, hload]
  have hcon : Contacted (run sv (cs ++ [c])).log c'.ident := by
    rw [hrun, hi]
    refine ⟨(zipUrl c.ident "full", .resp code b), by simp, ⟨_, zip_job hid (Or.inl rfl), rfl⟩, trivial⟩
  have hid' : c'.ident ∈ ids := hi ▸ hid
  have hno' : ∀ x ∈ cs', x.ident = c'.ident → x.redownload = false := fun x hx h => hno x hx (h.trans hi)
  have hg := run_good sv (cs ++ [c])
  refine ⟨by rw [hload], ?_, C147_no_request sv _ c' hid' hr (contacted_mono sv _ cs' hid' hcon hno').1⟩
  rw [C148_permanent sv (cs ++ [c]) cs' c' hid' hcon hno' hr]
  have n1 : ¬ ([c'.ident] ∉ (run sv (cs ++ [c])).fs.dirs ∨ c'.redownload = true) := by
    simp [hr, (ident_dirs hg hid').2 hcon]
  rw [load_unfold sv _ c' hid', if_neg n1]
  obtain ⟨f1, -⟩ := countFolders_spec hg hid' (kind := "full") (Or.inl rfl)
  obtain ⟨-, g2⟩ := countFolders_spec hg hid' (kind := "half") (Or.inr rfl)
  obtain ⟨names, -, -, hnames⟩ := f1 (by
    rw [hrun, hi]
    exact ⟨(zipUrl c.ident "full", .resp code b), by simp, rfl, trivial⟩)
  have hhalf := g2 (by
    rintro ⟨e, he, hu, ha⟩
    rw [hrun] at he
    rcases List.mem_append.1 he with he | he
    · exact hn ⟨e, he, ⟨_, zip_job hid (Or.inr rfl), by rw [hu, hi]⟩, ha⟩
    · obtain rfl := List.mem_singleton.1 he
      have := url_inj (jobs_sub hid _ (zip_job hid (Or.inl rfl))) (jobs_sub hid _ (zip_job hid (Or.inr rfl))) (hu.trans (by rw [hi]))
      simp [e1, e2] at this)
  rw [e1] at hnames
  rw [e2] at hhalf
  dsimp only
  unfold readBack
  rw [show c'.dataset ++ "_" ++ c'.model = c'.ident from rfl]
  dsimp only
  rw [hnames, hhalf]
  rfl

/-! ### A case meeting the hypotheses -/

/-- A server which serves one archive with two folders and the number of the request as every other file. -/
def demo : ℕ → String → Resp ℕ := fun k _ => .resp 200 ⟨k, some [(["0", "model_weights_0.pt"], some 7), (["1", "model_weights_0.pt"], some 8)]⟩

def demoCall : Call ℕ := ⟨"lr", "mnist", "lds", false, .ok 5⟩

example : demoCall.ident ∈ ids := by decide +kernel

example : ((load demo (run demo ([] : List (Call ℕ))) demoCall).1.log.length, ((load demo (run demo ([] : List (Call ℕ))) demoCall).2.toOption.map fun r =>
    (r.modelsFull, r.targetValues, r.indices, r.dataset))) =
    (6, some ([["mnist_lr", "models_full", "0", "model_weights_0.pt"], ["mnist_lr", "models_full", "1", "model_weights_0.pt"]], 3, 2, 5)) := by decide +kernel

/-- The first request fails with status 500, every later one would succeed. -/
def flaky : ℕ → String → Resp ℕ := fun k u => if k = 0 then .resp 500 ⟨0, none⟩ else demo k u

example : ((load flaky (run flaky ([] : List (Call ℕ))) demoCall).2.toOption.isNone, (load flaky (run flaky [demoCall, demoCall]) demoCall).1.log.length,
    (load flaky (run flaky [demoCall, demoCall]) demoCall).2.toOption.isNone) = (true, 1, true) := by decide +kernel

end Verif.LoadBench
