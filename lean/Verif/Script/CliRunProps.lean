import Verif.Script.CliProps

/-!
# C114, C115: which models the retraining command trains
-/

namespace Verif.Cli

open Verif.Retrain

variable {M ρ : Type}

/-! ## C114: leave-one-out -/

/-- Specification: the number of leading examples the command works on. -/
def Used (trainSubset : ℤ) (dataLen n : ℕ) : Prop := (0 < trainSubset → (n : ℤ) = trainSubset) ∧ (trainSubset ≤ 0 → n = dataLen)

/-- Specification: the directory for index `i` and the model trained on the first `n` examples without the `i`th. -/
def looModel (train : List ℕ → Option ℕ → M) (n seed : ℕ) (i : ℤ) : List Char × M :=
  ("index_".toList ++ strInt i, train ((List.range n).filter fun j : ℕ => decide ((j : ℤ) ≠ i)) (some seed))

lemma samplerLen_used (a : Args) (dataLen n : ℕ) (h : Used a.trainSubset dataLen n) : samplerLen a dataLen = n := by
  unfold samplerLen
  split_ifs with h0
  · have := h.1 h0; omega
  · exact (h.2 (by omega)).symm

/-- **C114** (leave-one-out command). With a start and no extra parameter that interferes, the command leaves one directory for each index from
the start to the end of the partition (by default the length of the whole data set), in order, with the model trained on the first `n` examples
without that index, where `n` is `--train_subset` if positive and the length of the data set otherwise. -/
theorem C114_loo (train : List ℕ → Option ℕ → M) (a : Args) (dataLen seed n : ℕ) (start : ℤ) (hmode : a.mode = .loo)
    (hstart : a.partition.start = some start) (hn : Used a.trainSubset dataLen n)
    (hextra : ∀ p ∈ a.extra, p.1 ∉ ["train_func".toList, "dataloader".toList, "path".toList, "seed".toList, "indices".toList]) :
    mainLoo train a dataLen seed =
      .ok (some ((List.range ((match a.partition.stop with | some e => e | none => (dataLen : ℤ)) - start).toNat).map
        fun d => looModel train n seed (start + (d : ℕ)))) := by
  unfold mainLoo
  have hres : ¬ ∃ p ∈ a.extra, p.1 ∈ reserved := by
    rintro ⟨p, hp, hr⟩
    exact hextra p hp (show p.1 ∈ reserved ++ ["indices".toList] from List.mem_append_left _ hr)
  have hlast : lastExtra a.extra "indices".toList = none := by
    unfold lastExtra
    rw [List.find?_eq_none.2]
    · rfl
    · intro p hp
      rw [decide_eq_true_iff]
      intro e
      exact hextra p (List.mem_reverse.1 hp)
        (show p.1 ∈ reserved ++ ["indices".toList] from List.mem_append_right _ (by rw [e]; exact List.mem_singleton.2 rfl))
  have hbase : PyDict.get? (baseKw a dataLen start) "indices".toList =
      some (.indices (pyRange start (a.partition.stop.getD dataLen))) := by
    unfold baseKw
    rw [hmode]
    simp [PyDict.get?]
  rw [call_eq a dataLen start hstart, if_neg hres]
  simp only [bind, Except.bind, get_foldl, hlast, hbase]
  rw [samplerLen_used a dataLen n hn]
  unfold retrainLoo pyRange
  rw [Option.getD_some, List.map_map]
  congr 2
  have : a.partition.stop.getD (dataLen : ℤ) = (match a.partition.stop with | some e => e | none => (dataLen : ℤ)) := by
    cases a.partition.stop <;> rfl
  rw [this]
  rfl

/-- **C114** (default run). Run without `--partition` on `sub` of `dataLen` examples, the command trains `dataLen` models, of which those for the
indices from `sub` on leave nothing out: they are all trained on exactly the same `sub` examples with the same seed. -/
theorem C114_default (train : List ℕ → Option ℕ → M) (dataLen seed sub : ℕ) (hsub : 0 < sub) (hle : sub ≤ dataLen) :
    ∃ dirs, mainLoo train ⟨.loo, sub, ⟨some 0, none, none⟩, []⟩ dataLen seed = .ok (some dirs) ∧ dirs.length = dataLen ∧
      (∀ i < sub, dirs[i]? = some ("index_".toList ++ strInt i, train ((List.range sub).filter (· ≠ i)) (some seed))) ∧
      ∀ i, sub ≤ i → i < dataLen → dirs[i]? = some ("index_".toList ++ strInt i, train (List.range sub) (some seed)) := by
  refine ⟨_, C114_loo train ⟨.loo, sub, ⟨some 0, none, none⟩, []⟩ dataLen seed sub 0 rfl rfl ⟨fun _ => rfl, fun h => ?_⟩ (by simp), ?_, ?_, ?_⟩
  · exfalso; simp only at h; omega
  · simp
  · intro i hi
    rw [List.getElem?_map, List.getElem?_range (by simp; omega)]
    simp only [Option.map_some, looModel, zero_add]
    congr 4
    funext j
    simp
  · intro i hi hi'
    rw [List.getElem?_map, List.getElem?_range (by simp; omega)]
    simp only [Option.map_some, looModel, zero_add]
    congr 3
    rw [List.filter_eq_self]
    intro j hj
    have := List.mem_range.1 hj
    simp; omega

/-- **C114** (more than there is). With `--train_subset` larger than the data set, the model of every index inside the data set is trained on
positions the data set does not have. -/
theorem C114_too_many (dataLen n : ℕ) (h : dataLen < n) (i : ℕ) (hi : i < dataLen) :
    ∃ j ∈ (List.range n).filter (fun j : ℕ => decide ((j : ℤ) ≠ (i : ℤ))), dataLen ≤ j :=
  ⟨dataLen, List.mem_filter.2 ⟨List.mem_range.2 h, by simp; omega⟩, le_refl _⟩

/-- **C114** (splitting). Running the command on two consecutive partitions trains the models of the joint partition, each once. -/
theorem C114_split (train : List ℕ → Option ℕ → M) (sub : ℤ) (dataLen seed : ℕ) (s m e : ℤ) (t t' t'' : Option ℤ) (h1 : s ≤ m) (h2 : m ≤ e) :
    ∃ d1 d2, mainLoo train ⟨.loo, sub, ⟨some s, some m, t⟩, []⟩ dataLen seed = .ok (some d1) ∧
      mainLoo train ⟨.loo, sub, ⟨some m, some e, t'⟩, []⟩ dataLen seed = .ok (some d2) ∧
      mainLoo train ⟨.loo, sub, ⟨some s, some e, t''⟩, []⟩ dataLen seed = .ok (some (d1 ++ d2)) := by
  obtain ⟨n, hn⟩ : ∃ n, Used sub dataLen n := by
    by_cases h : 0 < sub
    · exact ⟨sub.toNat, fun _ => by omega, fun _ => by omega⟩
    · exact ⟨dataLen, fun h' => absurd h' h, fun _ => rfl⟩
  refine ⟨_, _, C114_loo train ⟨.loo, sub, ⟨some s, some m, t⟩, []⟩ dataLen seed n s rfl rfl hn (by simp),
    C114_loo train ⟨.loo, sub, ⟨some m, some e, t'⟩, []⟩ dataLen seed n m rfl rfl hn (by simp), ?_⟩
  rw [C114_loo train ⟨.loo, sub, ⟨some s, some e, t''⟩, []⟩ dataLen seed n s rfl rfl hn (by simp)]
  congr 2
  have : (e - s).toNat = (m - s).toNat + (e - m).toNat := by omega
  simp only
  rw [this, List.range_add, List.map_append, List.map_map]
  congr 1
  apply List.map_congr_left
  intro d _
  simp only [Function.comp]
  congr 1
  have := Int.toNat_of_nonneg (show 0 ≤ m - s by omega)
  push_cast
  omega

example : mainLoo (fun l _ => l) ⟨.loo, 2, ⟨some 0, none, none⟩, []⟩ 4 0 =
    .ok (some [("index_0".toList, [1]), ("index_1".toList, [0]), ("index_2".toList, [0, 1]), ("index_3".toList, [0, 1])]) := by
  decide +kernel

/-! ## C115: subsets for the linear datamodeling score -/

/-- The arguments of `--mode lds --partition s,e,t`, with everything else by default. -/
def ldsArgs (sub s e t : ℤ) : Args := ⟨.lds, sub, ⟨some s, some e, some t⟩, []⟩

/-- **C115** (one command). The command for the subsets `s, …, e-1` of `t` writes what `retrain_lds` writes for them with half of the examples
per subset and one run; it fails if `t` is negative, the range is empty, or its size does not divide `t`. -/
theorem C115_command (choice : ℕ → ℕ → ℕ → List ℕ) (train : List ℕ → ℕ → M) (root : ρ) (sub : ℤ) (dataLen seed n s e : ℕ) (t : ℤ) (hse : s ≤ e)
    (hn : Used sub dataLen n) :
    mainLds choice train root (ldsArgs sub s e t) dataLen seed =
      if t < 0 then .error .valueError else if s = e then .error .zeroDivisionError else if t % ((e - s : ℕ) : ℤ) ≠ 0 then .error .valueError
      else .ok (some ((⟨s, e - s, t⟩ : Worker).run choice train root n (n / 2) 1 seed)) := by
  unfold mainLds
  rw [call_eq (ldsArgs sub s e t) dataLen s rfl, if_neg (by simp [ldsArgs])]
  have g1 : PyDict.get? (baseKw (ldsArgs sub s e t) dataLen s) "num_runs_per_subset".toList = none := by
    simp [PyDict.get?, baseKw, ldsArgs]
  have g2 : PyDict.get? (baseKw (ldsArgs sub s e t) dataLen s) "subset_ratio".toList = none := by
    simp [PyDict.get?, baseKw, ldsArgs]
  have g3 : PyDict.get? (baseKw (ldsArgs sub s e t) dataLen s) "num_subsets".toList = some (.num ((e : ℤ) - s)) := by
    simp [PyDict.get?, baseKw, ldsArgs]
  have g4 : PyDict.get? (baseKw (ldsArgs sub s e t) dataLen s) "total_num_subsets".toList = some (.num t) := by
    simp [PyDict.get?, baseKw, ldsArgs]
  have g5 : PyDict.get? (baseKw (ldsArgs sub s e t) dataLen s) "start_id".toList = some (.num s) := by
    simp [PyDict.get?, baseKw, ldsArgs]
  simp only [bind, Except.bind]
  rw [show (ldsArgs sub s e t).extra = [] from rfl, List.foldl_nil]
  simp only [g1, g2, g3, g4, g5]
  rw [if_neg (by omega), samplerLen_used _ dataLen n hn]
  have hc : ((e : ℤ) - s) = ((e - s : ℕ) : ℤ) := by omega
  rw [hc]
  by_cases h1 : t < 0
  · rw [if_pos h1, if_pos h1]
  rw [if_neg h1, if_neg h1]
  by_cases h2 : s = e
  · rw [if_pos (by omega), if_pos h2]
  rw [if_neg (by omega), if_neg h2]
  split_ifs with h3
  · rfl
  · simp only [subsetLength]
    rw [if_neg (by omega)]
    rfl

/-- **C115** (splitting over machines). Let `W` commands with the partitions `w·k,(w+1)·k,W·k` run in any interleaving. Each command is accepted;
together they leave the same subset files as the one command `0,W·k,W·k`; but the ground truth can be read afterwards, from a directory that had
no metadata before, only if `W = 1`. -/
theorem C115_machines [DecidableEq ρ] {F : Type} [Field F] (choice : ℕ → ℕ → ℕ → List ℕ) (train : List ℕ → ℕ → M) (root : ρ) (sub : ℤ)
    (dataLen seed n W k : ℕ) (hk : k ≠ 0) (hW : W ≠ 0) (hn : Used sub dataLen n) (hchoice : ∀ s, (choice s n (n / 2)).length = n / 2) :
    ∃ (outs : ℕ → List (Write ρ M) × Except Err Unit) (whole : List (Write ρ M) × Except Err Unit),
      (∀ w < W, mainLds choice train root (ldsArgs sub (w * k : ℕ) ((w + 1) * k : ℕ) (W * k : ℕ)) dataLen seed = .ok (some (outs w)) ∧
        (outs w).2 = .ok ()) ∧
      mainLds choice train root (ldsArgs sub (0 : ℕ) (W * k : ℕ) (W * k : ℕ)) dataLen seed = .ok (some whole) ∧ whole.2 = .ok () ∧
      ∀ il : List (Write ρ M), il.Perm ((List.range W).flatMap fun w => (outs w).1) → ∀ fs : FS ρ M,
        (∀ p, (∀ r, p ≠ .metadata r) → applyWrites fs il p = applyWrites fs whole.1 p) ∧
        (fs (.metadata root) = none → ∀ target : M → ℕ → F, (∃ r, ldsGroundTruth target root (applyWrites fs il) = .ok r) ↔ W = 1) := by
  have hpos : 0 < W * k := Nat.mul_pos (by omega) (by omega)
  have hvw : ∀ w, (⟨w * k, k, (W * k : ℕ)⟩ : Worker).Valid := by
    intro w
    refine ⟨by simp only; positivity, hk, ?_⟩
    simp
  have hvW : (⟨0, W * k, (W * k : ℕ)⟩ : Worker).Valid := ⟨by simp only; positivity, by simp only; omega, by simp⟩
  have hhalf : n / 2 ≤ n := Nat.div_le_self _ _
  refine ⟨fun w => (⟨w * k, k, (W * k : ℕ)⟩ : Worker).run choice train root n (n / 2) 1 seed,
    (⟨0, W * k, (W * k : ℕ)⟩ : Worker).run choice train root n (n / 2) 1 seed, ?_, ?_, ?_, ?_⟩
  · intro w hw
    refine ⟨?_, ((C43_outcome choice train root n (n / 2) 1 seed _).1).2 ⟨hvw w, hhalf⟩⟩
    have hd : (w + 1) * k - w * k = k := by rw [Nat.add_mul]; omega
    rw [C115_command choice train root sub dataLen seed n (w * k) ((w + 1) * k) _ (by rw [Nat.add_mul]; omega) hn,
      if_neg (by omega), if_neg (by rw [Nat.add_mul]; omega), hd, if_neg]
    simp
  · rw [C115_command choice train root sub dataLen seed n 0 (W * k) _ (by omega) hn, if_neg (by omega), if_neg (by omega), Nat.sub_zero,
      if_neg (by simp)]
  · exact ((C43_outcome choice train root n (n / 2) 1 seed _).1).2 ⟨hvW, hhalf⟩
  · intro il hil fs
    have hil' : il.Perm ((workers W k).flatMap fun w => (w.run choice train root n (n / 2) 1 seed).1) := by
      unfold workers
      rw [List.flatMap_map]
      exact hil
    constructor
    · intro p hp
      refine C43_same_as_sequential choice train root n (n / 2) 1 seed (workers W k) [⟨0, W * k, (W * k : ℕ)⟩] ?_ ?_ hhalf ?_ il _ hil' ?_ fs p hp
      · intro w hw
        obtain ⟨a, -, rfl⟩ := List.mem_map.1 hw
        exact hvw a
      · intro w hw
        rw [List.mem_singleton.1 hw]
        exact hvW
      · intro i
        have ht : ((W * k : ℕ) : ℤ) ≠ 0 := by omega
        constructor
        · rintro ⟨w, hw, hc⟩
          obtain ⟨a, ha, rfl⟩ := List.mem_map.1 hw
          refine ⟨_, List.mem_singleton.2 rfl, ?_⟩
          unfold Worker.Covers at hc ⊢
          rw [if_neg ht] at hc ⊢
          have ha' := List.mem_range.1 ha
          have : (a + 1) * k ≤ W * k := Nat.mul_le_mul_right k ha'
          rw [Nat.add_mul] at this
          simp only at hc ⊢
          omega
        · rintro ⟨w, hw, hc⟩
          rw [List.mem_singleton.1 hw] at hc
          unfold Worker.Covers at hc
          rw [if_neg ht] at hc
          simp only at hc
          have hi : i / k < W := Nat.div_lt_of_lt_mul (by rw [mul_comm]; omega)
          refine ⟨⟨i / k * k, k, (W * k : ℕ)⟩, List.mem_map.2 ⟨i / k, List.mem_range.2 hi, rfl⟩, ?_⟩
          unfold Worker.Covers
          rw [if_neg ht]
          simp only
          have h1 := Nat.div_add_mod i k
          have h2 := Nat.mod_lt i (Nat.pos_of_ne_zero hk)
          rw [mul_comm] at h1
          omega
      · simp
    · intro hfs target
      exact C44_parallel choice train root n (n / 2) 1 seed W k hk hhalf hchoice target fs hfs il hil'

/-- **C115** (default). Without `--partition` the command retrains the subsets 0, …, 99 and its metadata is complete. -/
theorem C115_default (choice : ℕ → ℕ → ℕ → List ℕ) (train : List ℕ → ℕ → M) (root : ρ) (sub : ℤ) (dataLen seed n : ℕ)
    (hn : Used sub dataLen n) :
    ∃ out, mainLds choice train root ⟨.lds, sub, ⟨some 0, none, none⟩, []⟩ dataLen seed = .ok (some out) ∧ out.2 = .ok () ∧
      ∃ md : Meta ρ, (.metadata root, .yaml md) ∈ out.1 ∧ md.numSubsets = 100 ∧ ∀ i < 100, ∃ d, md.dirMap.lookup i = some d := by
  refine ⟨(⟨0, 100, 100⟩ : Worker).run choice train root n (n / 2) 1 seed, ?_, ?_, metaOf root 0 100 1, ?_, rfl, ?_⟩
  · have := C115_command choice train root sub dataLen seed n 0 100 100 (by omega) hn
    rw [if_neg (by omega), if_neg (by omega), if_neg (by decide)] at this
    exact this
  · exact ((C43_outcome choice train root n (n / 2) 1 seed _).1).2 ⟨⟨by decide, by decide, by decide⟩, Nat.div_le_self _ _⟩
  · exact (mem_run choice train root n (n / 2) 1 seed ⟨0, 100, 100⟩ ⟨by decide, by decide, by decide⟩ (Nat.div_le_self _ _) _).2
      (Or.inr ⟨Or.inr (by decide), rfl⟩)
  · exact (C44_complete_iff root 0 100 1 (by decide)).2 rfl

example : Used 5000 60000 5000 ∧ Used (-1) 60000 60000 := by
  constructor <;> constructor <;> decide

end Verif.Cli
