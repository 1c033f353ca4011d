import Mathlib.Tactic.Linarith
import Mathlib.Tactic.NormNum
import Verif.Bench.NanoGPT

/-!
# C69: retraining nanoGPT in several jobs
-/

namespace Verif.NanoGPT

section
variable {save dataset : List Char} {ratio : ℚ} {config : List (List Char)}

theorem configs_append (n m : ℕ) : ∀ i s : ℤ, configs save dataset ratio config (n + m) i s =
    configs save dataset ratio config n i s ++ configs save dataset ratio config m (i + n) (s + n) := by
  induction n with
  | zero => intro i s; simp [configs]
  | succ n ih =>
    intro i s
    rw [show n + 1 + m = (n + m) + 1 by omega]
    simp only [configs, List.cons_append]
    rw [ih]
    push_cast
    rw [show i + 1 + (n : ℤ) = i + (n + 1) by ring, show s + 1 + (n : ℤ) = s + (n + 1) by ring]

theorem configs_length (n : ℕ) : ∀ i s : ℤ, (configs save dataset ratio config n i s).length = n := by
  induction n with
  | zero => intro i s; rfl
  | succ n ih => intro i s; simp [configs, ih]

theorem configs_get (n : ℕ) : ∀ (i s : ℤ) (k : ℕ), k < n → (configs save dataset ratio config n i s)[k]? =
    some (config.map (rewriteLine save dataset ratio (i + k) (s + k)) ++ [.dataset dataset]) := by
  induction n with
  | zero => intro i s k h; cases h
  | succ n ih =>
    intro i s k h
    cases k with
    | zero => simp [configs]
    | succ k =>
      simp only [configs, List.getElem?_cons_succ]
      rw [ih _ _ k (by omega)]
      push_cast
      rw [show i + 1 + (k : ℤ) = i + (k + 1) by ring, show s + 1 + (k : ℤ) = s + (k + 1) by ring]

theorem prefix_head {p line : List Char} {c : Char} (h : (c :: p) <+: line) : line.head? = some c := by
  obtain ⟨t, rfl⟩ := h
  rfl

theorem rewrite_seed {i s : ℤ} {line : List Char} (h : "seed".toList <+: line) :
    rewriteLine save dataset ratio i s line = .seed s := by
  have : ¬ "out_dir".toList <+: line := fun h2 => by
    have h1 := prefix_head (c := 's') h
    rw [prefix_head (c := 'o') h2] at h1
    exact absurd h1 (by decide)
  unfold rewriteLine
  rw [if_neg this, if_pos h]

theorem rewrite_cases {i s : ℤ} (line : List Char) :
    (rewriteLine save dataset ratio i s line = .outDir save (i + 1) ∧ "out_dir".toList <+: line) ∨
    (rewriteLine save dataset ratio i s line = .seed s ∧ "seed".toList <+: line) ∨
    (rewriteLine save dataset ratio i s line = .ratio ratio ∧ "subset_ratio".toList <+: line) ∨
    (rewriteLine save dataset ratio i s line = .dataset dataset ∧ "dataset_path".toList <+: line) ∨
    (rewriteLine save dataset ratio i s line = .text line ∧ ¬ "out_dir".toList <+: line ∧ ¬ "seed".toList <+: line ∧
      ¬ "subset_ratio".toList <+: line ∧ ¬ "dataset_path".toList <+: line) := by
  unfold rewriteLine
  split_ifs <;> simp_all

end

/-- C69: the number of runs; and the settings model `i` (counted from 0) is run with: its own directory `model_(i+1)`
and the seed `seed + i - 1`, both exactly if the configuration file has a line for them, the ratio likewise, the data
set always; all other lines are unchanged and in place. -/
theorem C69_runs {seed : ℤ} {ratio : ℚ} {config : List (List Char)} {dataset save : List Char} {start stop total : ℤ}
    {runs : List (List Line)} (h : retrain seed ratio config dataset save start stop total false = .ok runs) :
    runs.length = (min stop total - start).toNat ∧
    ∀ (k : ℕ) (r : List Line), runs[k]? = some r →
      (∀ d m, Line.outDir d m ∈ r ↔ d = save ∧ m = start + k + 1 ∧ ∃ l ∈ config, "out_dir".toList <+: l) ∧
      (∀ s, Line.seed s ∈ r ↔ s = seed + (start + k) - 1 ∧ ∃ l ∈ config, "seed".toList <+: l) ∧
      (∀ q, Line.ratio q ∈ r ↔ q = ratio ∧ ∃ l ∈ config, "subset_ratio".toList <+: l) ∧
      r.getLast? = some (.dataset dataset) ∧ (∀ d, Line.dataset d ∈ r → d = dataset) ∧
      (∀ (j : ℕ) l, config[j]? = some l → ¬ "out_dir".toList <+: l → ¬ "seed".toList <+: l →
        ¬ "subset_ratio".toList <+: l → ¬ "dataset_path".toList <+: l → r[j]? = some (.text l)) := by
  unfold retrain at h
  simp only [Bool.false_eq_true, if_false] at h
  split_ifs at h
  cases h
  refine ⟨configs_length _ _ _, fun k r hr => ?_⟩
  have hk : k < (min stop total - start).toNat := by
    have := (List.getElem?_eq_some_iff.1 hr).1
    rwa [configs_length] at this
  rw [configs_get _ _ _ _ hk] at hr
  cases hr
  refine ⟨fun d m => ?_, fun s => ?_, fun q => ?_, by simp, fun d hd => ?_, ?_⟩
  · simp only [List.mem_append, List.mem_map, List.mem_singleton, reduceCtorEq, or_false]
    constructor
    · rintro ⟨l, hl, e⟩
      rcases rewrite_cases (save := save) (dataset := dataset) (ratio := ratio) (i := start + k)
        (s := seed + start - 1 + k) l with ⟨e', hp⟩ | ⟨e', _⟩ | ⟨e', _⟩ | ⟨e', _⟩ | ⟨e', _⟩ <;> rw [e] at e' <;> cases e'
      exact ⟨rfl, rfl, l, hl, hp⟩
    · rintro ⟨rfl, rfl, l, hl, hp⟩
      exact ⟨l, hl, by unfold rewriteLine; rw [if_pos hp]⟩
  · simp only [List.mem_append, List.mem_map, List.mem_singleton, reduceCtorEq, or_false]
    constructor
    · rintro ⟨l, hl, e⟩
      rcases rewrite_cases (save := save) (dataset := dataset) (ratio := ratio) (i := start + k)
        (s := seed + start - 1 + k) l with ⟨e', hp⟩ | ⟨e', hp⟩ | ⟨e', _⟩ | ⟨e', _⟩ | ⟨e', _⟩ <;> rw [e] at e' <;> cases e'
      exact ⟨by ring, l, hl, hp⟩
    · rintro ⟨rfl, l, hl, hp⟩
      exact ⟨l, hl, by rw [rewrite_seed hp]; congr 1; ring⟩
  · simp only [List.mem_append, List.mem_map, List.mem_singleton, reduceCtorEq, or_false]
    constructor
    · rintro ⟨l, hl, e⟩
      rcases rewrite_cases (save := save) (dataset := dataset) (ratio := ratio) (i := start + k)
        (s := seed + start - 1 + k) l with ⟨e', hp⟩ | ⟨e', hp⟩ | ⟨e', hp⟩ | ⟨e', _⟩ | ⟨e', _⟩ <;> rw [e] at e' <;> cases e'
      exact ⟨rfl, l, hl, hp⟩
    · rintro ⟨rfl, l, hl, hp⟩
      refine ⟨l, hl, ?_⟩
      have h1 : ¬ "out_dir".toList <+: l := fun h2 => by
        have h1 := prefix_head (c := 's') hp
        rw [prefix_head (c := 'o') h2] at h1
        exact absurd h1 (by decide)
      have h2 : ¬ "seed".toList <+: l := fun h2 => by
        obtain ⟨t, rfl⟩ := hp
        obtain ⟨u, hu⟩ := h2
        have := congrArg (fun x => x[1]?) hu
        exact absurd this (by simp)
      unfold rewriteLine
      rw [if_neg h1, if_neg h2, if_pos hp]
  · rw [List.mem_append] at hd
    rcases hd with hd | hd
    · obtain ⟨l, hl, e⟩ := List.mem_map.1 hd
      rcases rewrite_cases (save := save) (dataset := dataset) (ratio := ratio) (i := start + k)
        (s := seed + start - 1 + k) l with ⟨e', _⟩ | ⟨e', _⟩ | ⟨e', _⟩ | ⟨e', _⟩ | ⟨e', _⟩ <;> rw [e] at e' <;> cases e'
      rfl
    · cases List.mem_singleton.1 hd; rfl
  · intro j l hj h1 h2 h3 h4
    have hlt : j < config.length := (List.getElem?_eq_some_iff.1 hj).1
    rw [List.getElem?_append_left (by simpa using hlt), List.getElem?_map, hj]
    simp only [Option.map_some, Option.some.injEq]
    unfold rewriteLine
    rw [if_neg h1, if_neg h2, if_neg h3, if_neg h4]

/-- The jobs `[a, b1), [b1, b2), ...`. -/
def jobs : ℤ → List ℤ → List (ℤ × ℤ)
  | _, [] => []
  | a, b :: bs => (a, b) :: jobs b bs

/-- C69: the runs of any number of jobs that split a range of models are together the runs of one job for the whole
range. -/
theorem C69_split {seed : ℤ} {ratio : ℚ} {config : List (List Char)} {dataset save : List Char} {total : ℤ}
    (h0 : 0 < ratio) (h1 : ratio ≤ 1) (a : ℤ) (bs : List ℤ) (hs : (a :: bs).Pairwise (· ≤ ·)) (hb : bs ≠ [])
    (ht : ∀ b ∈ bs, b ≤ total) :
    ∃ rss, ((jobs a bs).mapM fun j => retrain seed ratio config dataset save j.1 j.2 total false) = .ok rss ∧
      retrain seed ratio config dataset save a (bs.getLast hb) total false = .ok rss.flatten := by
  have hok : ∀ x y : ℤ, y ≤ total → retrain seed ratio config dataset save x y total false =
      .ok (configs save dataset ratio config (y - x).toNat x (seed + x - 1)) := by
    intro x y hy
    unfold retrain
    simp only [Bool.false_eq_true, if_false]
    rw [if_neg (not_le.2 h0), if_neg (not_lt.2 h1), min_eq_left hy]
  induction bs generalizing a with
  | nil => exact absurd rfl hb
  | cons b bs ih =>
    have hab : a ≤ b := (List.pairwise_cons.1 hs).1 b (by simp)
    have hbt := ht b (by simp)
    by_cases he : bs = []
    · subst he
      exact ⟨[configs save dataset ratio config (b - a).toNat a (seed + a - 1)],
        by simp [jobs, hok a b hbt, bind, Except.bind, pure, Except.pure], by simp [hok a b hbt]⟩
    · obtain ⟨rss, e1, e2⟩ := ih b (List.pairwise_cons.1 hs).2 he fun x hx => ht x (List.mem_cons_of_mem _ hx)
      refine ⟨configs save dataset ratio config (b - a).toNat a (seed + a - 1) :: rss, ?_, ?_⟩
      · simp only [jobs, List.mapM_cons, hok a b hbt, e1, bind, Except.bind, pure, Except.pure]
      · have hl : (b :: bs).getLast hb = bs.getLast he := List.getLast_cons he
        have hlt : bs.getLast he ≤ total := ht _ (List.mem_cons_of_mem _ (List.getLast_mem he))
        have hbl : b ≤ bs.getLast he :=
          (List.pairwise_cons.1 (List.pairwise_cons.1 hs).2).1 _ (List.getLast_mem he)
        rw [hl, hok a _ hlt]
        rw [hok b _ hlt] at e2
        have e3 := Except.ok.inj e2
        rw [List.flatten_cons, ← e3, show (bs.getLast he - a).toNat = (b - a).toNat + (bs.getLast he - b).toNat by omega,
          configs_append]
        congr 3
        · omega
        · omega

/-- C69: two runs of any two jobs have different directories and different seeds, unless they are for the same
model. -/
theorem C69_distinct {seed : ℤ} {ratio : ℚ} {config : List (List Char)} {dataset save : List Char}
    {start stop start' stop' total : ℤ} {runs runs' : List (List Line)}
    (h : retrain seed ratio config dataset save start stop total false = .ok runs)
    (h' : retrain seed ratio config dataset save start' stop' total false = .ok runs') {k k' : ℕ} {r r' : List Line}
    (hr : runs[k]? = some r) (hr' : runs'[k']? = some r') (hne : start + k ≠ start' + k') :
    (∀ d m, Line.outDir d m ∈ r → Line.outDir d m ∉ r') ∧ (∀ s, Line.seed s ∈ r → Line.seed s ∉ r') := by
  obtain ⟨a1, a2, _⟩ := (C69_runs h).2 k r hr
  obtain ⟨b1, b2, _⟩ := (C69_runs h').2 k' r' hr'
  refine ⟨fun d m hm hm' => ?_, fun s hs hs' => ?_⟩
  · obtain ⟨_, e, _⟩ := (a1 d m).1 hm
    obtain ⟨_, e', _⟩ := (b1 d m).1 hm'
    omega
  · obtain ⟨e, _⟩ := (a2 s).1 hs
    obtain ⟨e', _⟩ := (b2 s).1 hs'
    omega

/-- C69: the first of all models is run with a seed one below the seed asked for; NumPy accepts it exactly if the
seed asked for is at least 1 and at most 2^32, otherwise the run fails (which is not noticed). -/
theorem C69_first_seed {seed : ℤ} {ratio : ℚ} {config : List (List Char)} {dataset save : List Char} {stop total : ℤ}
    {runs : List (List Line)} (h : retrain seed ratio config dataset save 0 stop total false = .ok runs) {r : List Line}
    (hr : runs[0]? = some r) {l : List Char} (hl : l ∈ config) (hp : "seed".toList <+: l) :
    Line.seed (seed - 1) ∈ r ∧ (∀ s, Line.seed s ∈ r → s = seed - 1) ∧
      ((∃ s, Line.seed s ∈ r ∧ seedAccepted s) ↔ 1 ≤ seed ∧ seed ≤ 2 ^ 32) := by
  obtain ⟨_, a2, _⟩ := (C69_runs h).2 0 r hr
  refine ⟨(a2 _).2 ⟨by simp, l, hl, hp⟩, fun s hs => ?_, ⟨fun ⟨s, hs, ha⟩ => ?_, fun h0 => ⟨seed - 1, (a2 _).2 ⟨by simp, l, hl, hp⟩, ?_⟩⟩⟩
  · have := ((a2 s).1 hs).1
    simp only [Nat.cast_zero] at this
    omega
  · have := ((a2 s).1 hs).1
    simp only [Nat.cast_zero] at this
    obtain ⟨h1, h2⟩ := ha
    omega
  · exact ⟨by omega, by omega⟩

/-- C69: the ratio must lie in `(0, 1]`, unless only the data are fetched. -/
theorem C69_ratio {seed : ℤ} {ratio : ℚ} {config : List (List Char)} {dataset save : List Char} {start stop total : ℤ} :
    ((∃ runs, retrain seed ratio config dataset save start stop total false = .ok runs) ↔ 0 < ratio ∧ ratio ≤ 1) ∧
    retrain seed ratio config dataset save start stop total true = .ok [] := by
  refine ⟨⟨?_, ?_⟩, rfl⟩
  · rintro ⟨runs, h⟩
    unfold retrain at h
    simp only [Bool.false_eq_true, if_false] at h
    split_ifs at h with h1 h2
    exact ⟨not_le.1 h1, not_lt.1 h2⟩
  · rintro ⟨h1, h2⟩
    unfold retrain
    simp only [Bool.false_eq_true, if_false]
    rw [if_neg (not_le.2 h1), if_neg (not_lt.2 h2)]
    exact ⟨_, rfl⟩

example : retrain 42 (1 / 2) ["out_dir = 'x'".toList, "seed = 1".toList, "n_layer = 6".toList] [] ['s'] 1 3 2 false =
    .ok [[.outDir ['s'] 2, .seed 42, .text "n_layer = 6".toList, .dataset []]] := by
  decide +kernel

end Verif.NanoGPT
