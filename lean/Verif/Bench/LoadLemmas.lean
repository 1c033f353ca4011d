import Verif.Bench.LoadModel
import Std.Data.String.ToNat
import Mathlib.Data.List.Nodup

/-! # Helper lemmas for `load_benchmark` -/

namespace Verif.LoadBench

variable {B D : Type}

/-! ### Addresses and file names -/

/-- The supported identifiers. -/
def ids : List String := ["mnist_mlp", "mnist_lr", "cifar2_resnet9", "shakespeare_nanogpt", "maestro_musictransformer", "wikitext2_gpt2"]

theorem lookup_isNone (id : String) : (modelMap.lookup id).isNone = true ↔ id ∉ ids := by
  unfold modelMap ids
  simp only [List.lookup, List.mem_cons, List.not_mem_nil, or_false]
  split <;> rename_i h1
  · simp_all
  split <;> rename_i h2
  · simp_all
  split <;> rename_i h3
  · simp_all
  split <;> rename_i h4
  · simp_all
  split <;> rename_i h5
  · simp_all
  split <;> rename_i h6
  · simp_all
  simp_all

theorem splitOn_none {c : Char} {l : List Char} (h : c ∉ l) : l.splitOn c = [l] := by
  unfold List.splitOn
  apply List.splitOnP_eq_singleton
  intro x hx
  simp only [beq_eq_false_iff_ne]
  rintro rfl
  exact h hx

theorem fileName_eq {url : String} {A N Q : List Char} (h : url.toList = A ++ '/' :: (N ++ '?' :: Q)) (hA : '?' ∉ A) (hN : '?' ∉ N)
    (hN' : '/' ∉ N) : fileName url = String.ofList N := by
  unfold fileName
  have e : url.toList = (A ++ '/' :: N) ++ '?' :: Q := by simp [h]
  have hq : '?' ∉ A ++ '/' :: N := by
    simp only [List.mem_append, List.mem_cons, not_or]
    exact ⟨hA, by decide, hN⟩
  rw [e, List.splitOn_append_cons_self, splitOn_none hq]
  simp only [List.cons_append, List.nil_append, List.headD_cons]
  rw [List.splitOn_append_cons_self, splitOn_none hN']
  simp

theorem repo_noq : '?' ∉ repoUrl.toList := by decide +kernel

theorem ids_noq : ∀ id ∈ ids, '?' ∉ id.toList := by decide +kernel

theorem metric_noq : ∀ m ∈ ["lds", "loo"], '?' ∉ m.toList ∧ '/' ∉ m.toList := by decide +kernel

theorem fileName_truth (id m pre : String) (hid : '?' ∉ id.toList) (hm : '?' ∉ m.toList ∧ '/' ∉ m.toList) (hp : '?' ∉ pre.toList ∧ '/' ∉ pre.toList) :
    fileName (repoUrl ++ id ++ "/" ++ m ++ ("/" ++ pre) ++ m ++ ".pt?download=true") = pre ++ m ++ ".pt" := by
  have h1 : ("/" : String).toList = ['/'] := by decide
  have h2 : (".pt?download=true" : String).toList = '.' :: 'p' :: 't' :: '?' :: "download=true".toList := by decide +kernel
  have h3 : (".pt" : String).toList = ['.', 'p', 't'] := by decide
  rw [fileName_eq (A := repoUrl.toList ++ id.toList ++ ['/'] ++ m.toList) (N := pre.toList ++ m.toList ++ ['.', 'p', 't']) (Q := "download=true".toList)]
  · rw [← String.toList_inj]
    simp [String.toList_append, h3]
  · simp only [String.toList_append, h1, h2]
    simp
  · simp only [List.mem_append, not_or, List.mem_singleton]
    exact ⟨⟨⟨repo_noq, hid⟩, by decide⟩, hm.1⟩
  · simp only [List.mem_append, not_or]
    exact ⟨⟨hp.1, hm.1⟩, by decide⟩
  · simp only [List.mem_append, not_or]
    exact ⟨⟨hp.2, hm.2⟩, by decide⟩

/-- The address of a ground truth file; `pre` is `indices_` or `target_values_`. -/
def truthUrl (id m pre : String) : String := repoUrl ++ (id ++ ("/" ++ (m ++ ("/" ++ (pre ++ (m ++ ".pt?download=true"))))))

theorem truthUrls_eq (id m : String) : truthUrls id m = [truthUrl id m "indices_", truthUrl id m "target_values_"] := by
  have h1 : "/" ++ "indices_" = ("/indices_" : String) := by decide
  have h2 : "/" ++ "target_values_" = ("/target_values_" : String) := by decide
  unfold truthUrls truthUrl
  simp only [← h1, ← h2, String.append_assoc]

theorem fileName_truthUrl {id m pre : String} (hid : id ∈ ids) (hm : m ∈ ["lds", "loo"]) (hp : '?' ∉ pre.toList ∧ '/' ∉ pre.toList) :
    fileName (truthUrl id m pre) = pre ++ (m ++ ".pt") := by
  have := fileName_truth id m pre (ids_noq id hid) (metric_noq m hm) hp
  simpa only [truthUrl, String.append_assoc] using this

/-- The downloads with their file names. -/
theorem jobs_eq {id : String} (hid : id ∈ ids) : jobs id =
    [⟨zipUrl id "full", [id, "models_full"], none⟩, ⟨zipUrl id "half", [id, "models_half"], none⟩,
      ⟨truthUrl id "lds" "indices_", [id, "lds"], some "indices_lds.pt"⟩, ⟨truthUrl id "lds" "target_values_", [id, "lds"], some "target_values_lds.pt"⟩] ++
    (if id = "wikitext2_gpt2" then [] else
      [⟨truthUrl id "loo" "indices_", [id, "loo"], some "indices_loo.pt"⟩, ⟨truthUrl id "loo" "target_values_", [id, "loo"], some "target_values_loo.pt"⟩]) := by
  have p1 : '?' ∉ "indices_".toList ∧ '/' ∉ "indices_".toList := by decide
  have p2 : '?' ∉ "target_values_".toList ∧ '/' ∉ "target_values_".toList := by decide
  have m1 : "lds" ∈ ["lds", "loo"] := by simp
  have m2 : "loo" ∈ ["lds", "loo"] := by simp
  have e1 : "indices_" ++ ("lds" ++ ".pt") = ("indices_lds.pt" : String) := by decide
  have e2 : "target_values_" ++ ("lds" ++ ".pt") = ("target_values_lds.pt" : String) := by decide
  have e3 : "indices_" ++ ("loo" ++ ".pt") = ("indices_loo.pt" : String) := by decide
  have e4 : "target_values_" ++ ("loo" ++ ".pt") = ("target_values_loo.pt" : String) := by decide
  unfold jobs
  simp only [truthUrls_eq, List.map_cons, List.map_nil, fileName_truthUrl hid m1 p1, fileName_truthUrl hid m1 p2, fileName_truthUrl hid m2 p1,
    fileName_truthUrl hid m2 p2, e1, e2, e3, e4]
  rfl

/-- The part of the addresses after the repository. -/
def tails : List String := ids.flatMap fun id =>
  [id ++ "/" ++ id ++ "_full.zip", id ++ "/" ++ id ++ "_half.zip"] ++
  (["lds", "loo"].flatMap fun m => ["indices_", "target_values_"].map fun pre => id ++ ("/" ++ (m ++ ("/" ++ (pre ++ (m ++ ".pt"))))))

theorem tails_nodup : tails.Nodup := by decide +kernel

/-- All downloads there are, and the `loo` files of `wikitext2_gpt2`, which are never asked for. -/
def jobs6 (id : String) : List Job :=
  [⟨zipUrl id "full", [id, "models_full"], none⟩, ⟨zipUrl id "half", [id, "models_half"], none⟩,
    ⟨truthUrl id "lds" "indices_", [id, "lds"], some "indices_lds.pt"⟩, ⟨truthUrl id "lds" "target_values_", [id, "lds"], some "target_values_lds.pt"⟩,
    ⟨truthUrl id "loo" "indices_", [id, "loo"], some "indices_loo.pt"⟩, ⟨truthUrl id "loo" "target_values_", [id, "loo"], some "target_values_loo.pt"⟩]

def allJobs : List Job := ids.flatMap jobs6

theorem jobs_sub6 {id : String} (hid : id ∈ ids) : ∀ j ∈ jobs id, j ∈ jobs6 id := by
  intro j hj
  rw [jobs_eq hid] at hj
  unfold jobs6
  by_cases hw : id = "wikitext2_gpt2"
  · rw [if_pos hw] at hj
    simp only [List.append_nil, List.mem_cons, List.not_mem_nil, or_false] at hj ⊢
    tauto
  · rw [if_neg hw] at hj
    exact hj

theorem jobs_sub {id : String} (hid : id ∈ ids) : ∀ j ∈ jobs id, j ∈ allJobs := fun j hj =>
  List.mem_flatMap.2 ⟨id, hid, jobs_sub6 hid j hj⟩

theorem allJobs_urls : allJobs.map Job.url = tails.map fun t => repoUrl ++ (t ++ "?download=true") := by
  unfold allJobs tails
  rw [List.map_flatMap, List.map_flatMap]
  congr 1
  funext id
  have h1 : "_full.zip" ++ "?download=true" = "_" ++ ("full" ++ (".zip?download=true" : String)) := by decide
  have h2 : "_half.zip" ++ "?download=true" = "_" ++ ("half" ++ (".zip?download=true" : String)) := by decide
  unfold jobs6 zipUrl truthUrl
  simp [String.append_assoc, h1, h2]

theorem url_inj {j j' : Job} (h : j ∈ allJobs) (h' : j' ∈ allJobs) (he : j.url = j'.url) : j = j' := by
  have hn : (allJobs.map Job.url).Nodup := by
    rw [allJobs_urls]
    refine List.Nodup.map (fun a b hab => ?_) tails_nodup
    exact (String.append_left_inj _).1 ((String.append_right_inj _).1 hab)
  exact List.inj_on_of_nodup_map hn h h' he

/-! ### The file system -/

theorem foldl_insert_mem (l ps : List Path) (q : Path) : q ∈ ps.foldl (fun l q => if q ∈ l then l else q :: l) l ↔ q ∈ l ∨ q ∈ ps := by
  induction ps generalizing l with
  | nil => simp
  | cons a ps ih =>
    rw [List.foldl_cons, ih]
    by_cases h : a ∈ l
    · rw [if_pos h]
      simp only [List.mem_cons]
      constructor
      · tauto
      · rintro (h1 | rfl | h1) <;> tauto
    · rw [if_neg h]
      simp only [List.mem_cons]
      tauto

theorem foldl_insert_nodup (l ps : List Path) (h : l.Nodup) : (ps.foldl (fun l q => if q ∈ l then l else q :: l) l).Nodup := by
  induction ps generalizing l with
  | nil => exact h
  | cons a ps ih =>
    rw [List.foldl_cons]
    apply ih
    split
    · exact h
    · exact List.nodup_cons.2 ⟨by assumption, h⟩

theorem mem_mkdirs (fs : FS B) (p q : Path) : q ∈ (mkdirs fs p).dirs ↔ q ∈ fs.dirs ∨ q <+: p := by
  unfold mkdirs
  rw [foldl_insert_mem, List.mem_inits]

theorem mem_extract (es : List (Path × Option B)) (dest : Path) (fs : FS B) (q : Path) :
    q ∈ (extract fs dest es).dirs ↔ q ∈ fs.dirs ∨ ∃ e ∈ es, q <+: dest ++ entryDir e := by
  unfold extract
  induction es generalizing fs with
  | nil => simp
  | cons e es ih =>
    rw [List.foldl_cons, ih]
    have h : q ∈ (extractOne dest fs e).dirs ↔ q ∈ fs.dirs ∨ q <+: dest ++ entryDir e := by
      unfold extractOne
      dsimp only
      split
      · exact mem_mkdirs fs _ q
      · exact mem_mkdirs fs _ q
    rw [h]
    simp only [List.mem_cons, exists_eq_or_imp]
    tauto

theorem extract_nodup (es : List (Path × Option B)) (dest : Path) (fs : FS B) (h : fs.dirs.Nodup) : (extract fs dest es).dirs.Nodup := by
  unfold extract
  induction es generalizing fs with
  | nil => exact h
  | cons e es ih =>
    rw [List.foldl_cons]
    apply ih
    unfold extractOne
    dsimp only
    split <;> exact foldl_insert_nodup _ _ h

theorem extract_files_other (es : List (Path × Option B)) (dest : Path) (fs : FS B) (q : Path) (h : ¬ dest <+: q) :
    (extract fs dest es).files q = fs.files q := by
  unfold extract
  induction es generalizing fs with
  | nil => rfl
  | cons e es ih =>
    rw [List.foldl_cons, ih]
    unfold extractOne
    dsimp only
    split
    · unfold writeFile
      dsimp only
      rw [if_neg]
      · rfl
      · rintro rfl
        exact h ⟨_, rfl⟩
    · rfl

theorem extract_files (es : List (Path × Option B)) (dest : Path) (fs : FS B) (q : Path) :
    ((extract fs dest es).files q).isSome = true ↔ (fs.files q).isSome = true ∨ ∃ rel b, (rel, some b) ∈ es ∧ q = dest ++ rel := by
  unfold extract
  induction es generalizing fs with
  | nil => simp
  | cons e es ih =>
    rw [List.foldl_cons, ih]
    obtain ⟨rel, o⟩ := e
    have h : ((extractOne dest fs (rel, o)).files q).isSome = true ↔ (fs.files q).isSome = true ∨ ∃ b, o = some b ∧ q = dest ++ rel := by
      unfold extractOne
      cases o with
      | some b =>
        show ((if q = dest ++ rel then some b else fs.files q).isSome = true) ↔ _
        by_cases hq : q = dest ++ rel
        · simp [hq]
        · simp [hq]
      | none =>
        show ((fs.files q).isSome = true) ↔ _
        simp
    rw [h]
    simp only [List.mem_cons, Prod.mk.injEq]
    constructor
    · rintro ((h | ⟨b, rfl, rfl⟩) | ⟨rel', b, h1, h2⟩)
      · exact Or.inl h
      · exact Or.inr ⟨rel, b, Or.inl ⟨rfl, rfl⟩, rfl⟩
      · exact Or.inr ⟨rel', b, Or.inr h1, h2⟩
    · rintro (h | ⟨rel', b, ⟨rfl, rfl⟩ | h1, h2⟩)
      · exact Or.inl (Or.inl h)
      · exact Or.inl (Or.inr ⟨b, rfl, h2⟩)
      · exact Or.inr ⟨rel', b, h1, h2⟩

end Verif.LoadBench
