import Mathlib.Data.List.Basic
import Verif.Attr.RandModel

/-!
# C224: the process's random numbers in sessions with the Arnoldi attributor
-/

namespace Verif.RandSession

open Verif

variable {G B V S R A : Type}

/-! ## Specification -/

/-- The network's gradients and Hessian-vector products draw no random numbers: they do not depend on the generator and leave it. -/
structure Quiet (N : Net G B V S R) : Prop where
  train : ∀ k b w w', (N.trainGrad k b w).1 = (N.trainGrad k b w').1 ∧ (N.trainGrad k b w).2 = w
  test : ∀ k b w w', (N.testGrad k b w).1 = (N.testGrad k b w').1 ∧ (N.testGrad k b w).2 = w

/-- Agreement of two states. -/
theorem W.ext' {w w' : W G S} (h1 : w.gen = w'.gen) (h2 : w.cached = w'.cached) (h3 : w.spaces = w'.spaces) : w = w' := by
  cases w; cases w'; simp_all

theorem space_missing (N : Net G B V S R) (seeded : G) (k : ℕ) (g : G) (c : Bool) (sp : ℕ → Option S) (h : sp k = none) :
    space N seeded k ⟨g, c, sp⟩ =
      ((N.eig k seeded).1, ⟨(N.eig k seeded).2, c, fun i => if i = k then some (N.eig k seeded).1 else sp i⟩) := by
  simp only [space, h]

theorem space_there (N : Net G B V S R) (seeded : G) (k : ℕ) (g : G) (c : Bool) (sp : ℕ → Option S) (s : S) (h : sp k = some s) :
    space N seeded k ⟨g, c, sp⟩ = (s, ⟨g, c, sp⟩) := by
  simp only [space, h]

/-- The test loop depends on its state only. -/
theorem foldl_out {α : Type} (f : W G S × List R → α → W G S × List R)
    (hf : ∀ st a l, f (st.1, l ++ st.2) a = ((f st a).1, l ++ (f st a).2)) (as : List α) :
    ∀ (st : W G S × List R) (l : List R), as.foldl f (st.1, l ++ st.2) = ((as.foldl f st).1, l ++ (as.foldl f st).2) := by
  induction as with
  | nil => intro st l; rfl
  | cons a as ih =>
    intro st l
    simp only [List.foldl_cons]
    rw [hf st a l]
    exact ih (f st a) l

theorem testStep_out (N : Net G B V S R) (seeded : G) (k : ℕ) (v : V) (st : W G S × List R) (b : B) (l : List R) :
    testStep N seeded k v (st.1, l ++ st.2) b = ((testStep N seeded k v st b).1, l ++ (testStep N seeded k v st b).2) := by
  simp [testStep]

theorem trainStep_out (N : Net G B V S R) (seeded : G) (k : ℕ) (test : List B) (st : W G S × List R) (b : B) (l : List R) :
    trainStep N seeded k test (st.1, l ++ st.2) b = ((trainStep N seeded k test st b).1, l ++ (trainStep N seeded k test st b).2) := by
  simp only [trainStep]
  exact foldl_out _ (testStep_out N seeded k _) test (_, st.2) l

/-- The state does not depend on what was recorded before. -/
theorem foldl_state {α : Type} (f : W G S × List R → α → W G S × List R)
    (hf : ∀ st a l, f (st.1, l ++ st.2) a = ((f st a).1, l ++ (f st a).2)) (as : List α) (w : W G S) (l : List R) :
    as.foldl f (w, l) = ((as.foldl f (w, [])).1, l ++ (as.foldl f (w, [])).2) := by
  have := foldl_out f hf as (w, []) l
  simpa using this

/-- In the test loop the gradient of the training batch enters the scores only. -/
theorem test_state (N : Net G B V S R) (seeded : G) (k : ℕ) (v v' : V) (test : List B) : ∀ (w : W G S) (l l' : List R),
    (test.foldl (testStep N seeded k v) (w, l)).1 = (test.foldl (testStep N seeded k v') (w, l')).1 := by
  induction test with
  | nil => intro w l l'; rfl
  | cons b bs ih =>
    intro w l l'
    simp only [List.foldl_cons]
    exact ih _ _ _

/-- The first training batch of a checkpoint without eigenspace: whatever the generator, the state afterwards is the same. -/
theorem first_forgets (N : Net G B V S R) (seeded : G) (k : ℕ) (test : List B) (b : B) (w w' : W G S) (l l' : List R)
    (hc : w.cached = w'.cached) (hs : w.spaces = w'.spaces) (hk : w.spaces k = none) :
    (trainStep N seeded k test (w, l) b).1 = (trainStep N seeded k test (w', l') b).1 := by
  simp only [trainStep]
  rw [space_missing N seeded k _ _ _ hk, space_missing N seeded k _ _ _ (show w'.spaces k = none by rw [← hs]; exact hk)]
  rw [test_state N seeded k _ (N.trainGrad k b w'.gen).1 test _ l l']
  congr 2
  exact congrArg (fun x => (x, l')) (W.ext' rfl hc (by simp only [hs]))

/-- The loops of `attribute`. -/
def loops (N : Net G B V S R) (seeded : G) (ks : List ℕ) (train test : List B) (st : W G S × List R) : W G S × List R :=
  ks.foldl (fun (st : W G S × List R) (k : ℕ) => train.foldl (trainStep N seeded k test) st) st

theorem loops_out (N : Net G B V S R) (seeded : G) (ks : List ℕ) (train test : List B) (w : W G S) (l : List R) :
    loops N seeded ks train test (w, l) = ((loops N seeded ks train test (w, [])).1, l ++ (loops N seeded ks train test (w, [])).2) := by
  apply foldl_state
  intro st k l
  exact foldl_out _ (trainStep_out N seeded k test) train st l

/-! ## The random state is lost -/

/-- **The first attribution after `cache` forgets the random state**: with at least one checkpoint and one training batch, the generator, the
attributor and hence everything later do not depend on the generator before the call. -/
theorem C224_state_forgotten (N : Net G B V S R) (seeded : G) (K : ℕ) (hK : K ≠ 0) (b : B) (train test : List B) (w w' : W G S) :
    (arnoldiAttribute N seeded K (b :: train) test (cache w)).1 = (arnoldiAttribute N seeded K (b :: train) test (cache w')).1 := by
  obtain ⟨K, rfl⟩ := Nat.exists_eq_succ_of_ne_zero hK
  have hr : List.range (K + 1) = 0 :: (List.range K).map Nat.succ := List.range_succ_eq_map
  simp only [arnoldiAttribute, cache, if_true, Nat.succ_eq_add_one, hr, List.foldl_cons]
  generalize (List.range K).map Nat.succ = ks
  have h := first_forgets N seeded 0 test b ⟨w.gen, true, fun _ => none⟩ ⟨w'.gen, true, fun _ => none⟩ [] [] rfl rfl rfl
  generalize trainStep N seeded 0 test (⟨w.gen, true, fun _ => none⟩, []) b = x at h ⊢
  generalize trainStep N seeded 0 test (⟨w'.gen, true, fun _ => none⟩, []) b = y at h ⊢
  obtain ⟨x1, x2⟩ := x
  obtain ⟨y1, y2⟩ := y
  simp only at h
  subst h
  have e : ∀ l : List R, train.foldl (trainStep N seeded 0 test) (x1, l) =
      ((train.foldl (trainStep N seeded 0 test) (x1, [])).1, l ++ (train.foldl (trainStep N seeded 0 test) (x1, [])).2) :=
    fun l => foldl_state _ (trainStep_out N seeded 0 test) train x1 l
  rw [e x2, e y2]
  change (loops N seeded ks (b :: train) test _).1 = (loops N seeded ks (b :: train) test _).1
  rw [loops_out, loops_out N seeded ks (b :: train) test _ (y2 ++ _)]

/-- **The rest of a session**: what comes after `cache` and the first attribution returns the same results, whatever the random state before - so
also whatever seed the user set before. -/
theorem C224_session (N : Net G B V S R) (seeded : G) (K : ℕ) (hK : K ≠ 0) (b : B) (train test : List B) (ops : List (Op G B A)) (w w' : W G S) :
    (run N seeded K (.cache :: .attr (b :: train) test :: ops) w).2.drop 2 =
      (run N seeded K (.cache :: .attr (b :: train) test :: ops) w').2.drop 2 ∧
    (run N seeded K (.cache :: .attr (b :: train) test :: ops) w).1 =
      (run N seeded K (.cache :: .attr (b :: train) test :: ops) w').1 := by
  simp only [run, step, List.drop_succ_cons, List.drop_zero]
  rw [C224_state_forgotten N seeded K hK b train test w w']
  exact ⟨rfl, rfl⟩

/-- A seed set by the user before the attribution has no effect on what follows it. -/
theorem C224_seed_lost (N : Net G B V S R) (seeded : G) (K : ℕ) (hK : K ≠ 0) (b : B) (train test : List B) (ops : List (Op G B A))
    (seed : G → A × G) (w : W G S) :
    (run N seeded K (.other seed :: .cache :: .attr (b :: train) test :: ops) w).2.drop 3 =
      (run N seeded K (.cache :: .attr (b :: train) test :: ops) w).2.drop 2 := by
  rw [run]
  simp only [List.drop_succ_cons]
  exact (C224_session N seeded K hK b train test ops _ w).1

/-- **Repeated experiments repeat**: if each of `n` repetitions caches and attributes with Arnoldi before an evaluation that draws random numbers,
the evaluations return the same value `n` times. -/
theorem C224_repetitions (N : Net G B V S R) (seeded : G) (K : ℕ) (hK : K ≠ 0) (b : B) (train test : List B) (f : G → A × G) (w₀ : W G S) :
    ∃ a : A, ∀ (n : ℕ) (w : W G S), ∀ o ∈ (run N seeded K
      ((List.replicate n [Op.cache, Op.attr (b :: train) test, Op.other f]).flatten) w).2, ∀ a', o = .value a' → a' = a := by
  refine ⟨(f (arnoldiAttribute N seeded K (b :: train) test (cache w₀)).1.gen).1, ?_⟩
  intro n
  induction n with
  | zero => intro w o ho; simp [run] at ho
  | succ n ih =>
    intro w o ho a' ha
    rw [List.replicate_succ, List.flatten_cons] at ho
    simp only [List.cons_append, List.nil_append, run, step, List.mem_cons] at ho
    rcases ho with h | h | h | h
    · rw [h] at ha; simp at ha
    · rw [h] at ha; simp at ha
    · rw [h] at ha
      injection ha with ha
      rw [← ha, C224_state_forgotten N seeded K hK b train test w w₀]
    · exact ih _ o h a' ha

/-! ## Networks that draw no random numbers -/

/-- All eigenspaces of the first `K` checkpoints are there. -/
def Ready (K : ℕ) (w : W G S) : Prop := w.cached = true ∧ ∀ k < K, ∃ s, w.spaces k = some s

theorem test_quiet (N : Net G B V S R) (hN : Quiet N) (seeded : G) (k : ℕ) (v : V) (s : S) (test : List B) : ∀ (w : W G S) (l : List R),
    w.spaces k = some s →
    test.foldl (testStep N seeded k v) (w, l) = (w, l ++ test.map fun b => N.block s v (N.testGrad k b seeded).1) := by
  induction test with
  | nil => intro w l _; simp
  | cons b bs ih =>
    intro w l h
    have e : testStep N seeded k v (w, l) b = (w, l ++ [N.block s v (N.testGrad k b seeded).1]) := by
      simp only [testStep]
      rw [space_there N seeded k _ _ _ s h, (hN.test k b w.gen seeded).1, (hN.test k b w.gen seeded).2]
    rw [List.foldl_cons, e, ih w _ h]
    simp

/-- The blocks of scores of one checkpoint with eigenspace `s`, training batch by training batch. -/
def blocks (N : Net G B V S R) (seeded : G) (k : ℕ) (s : S) (train test : List B) : List R :=
  train.flatMap fun b => test.map fun b' => N.block s (N.trainGrad k b seeded).1 (N.testGrad k b' seeded).1

theorem train_quiet (N : Net G B V S R) (hN : Quiet N) (seeded : G) (k : ℕ) (s : S) (test train : List B) : ∀ (w : W G S) (l : List R),
    w.spaces k = some s →
    train.foldl (trainStep N seeded k test) (w, l) = (w, l ++ blocks N seeded k s train test) := by
  induction train with
  | nil => intro w l _; simp [blocks]
  | cons b bs ih =>
    intro w l h
    have e : trainStep N seeded k test (w, l) b =
        (w, l ++ test.map fun b' => N.block s (N.trainGrad k b seeded).1 (N.testGrad k b' seeded).1) := by
      simp only [trainStep]
      rw [space_there N seeded k _ _ _ s h, (hN.train k b w.gen seeded).2]
      rw [test_quiet N hN seeded k _ s test w l h, (hN.train k b w.gen seeded).1]
    rw [List.foldl_cons, e, ih w _ h]
    simp [blocks]

/-- **Later attributions** (no new `cache`, no random numbers in the network): the generator is left as it was, and the scores are those of the
stored eigenspaces. -/
theorem C224_later (N : Net G B V S R) (hN : Quiet N) (seeded : G) (K : ℕ) (sp : ℕ → S) (train test : List B) (w : W G S)
    (hc : w.cached = true) (hs : ∀ k < K, w.spaces k = some (sp k)) :
    arnoldiAttribute N seeded K train test w = (w, .ok ((List.range K).flatMap fun k => blocks N seeded k (sp k) train test)) := by
  simp only [arnoldiAttribute, hc, if_true]
  have key : ∀ n ≤ K, (List.range n).foldl (fun (st : W G S × List R) (k : ℕ) => train.foldl (trainStep N seeded k test) st) (w, []) =
      (w, (List.range n).flatMap fun k => blocks N seeded k (sp k) train test) := by
    intro n
    induction n with
    | zero => intro _; rfl
    | succ n ih =>
      intro hn
      rw [List.range_succ, List.foldl_append, ih (by omega), List.foldl_cons, List.foldl_nil,
        train_quiet N hN seeded n (sp n) test train w _ (hs n (by omega))]
      simp
  rw [key K (Nat.le_refl K)]

theorem train_first (N : Net G B V S R) (hN : Quiet N) (seeded : G) (k : ℕ) (test : List B) (b : B) (train : List B) (w : W G S) (l : List R)
    (h : w.spaces k = none) :
    (b :: train).foldl (trainStep N seeded k test) (w, l) =
      ({ w with gen := (N.eig k seeded).2, spaces := fun i => if i = k then some (N.eig k seeded).1 else w.spaces i },
        l ++ blocks N seeded k (N.eig k seeded).1 (b :: train) test) := by
  have e : trainStep N seeded k test (w, l) b =
      ({ w with gen := (N.eig k seeded).2, spaces := fun i => if i = k then some (N.eig k seeded).1 else w.spaces i },
        l ++ test.map fun b' => N.block (N.eig k seeded).1 (N.trainGrad k b seeded).1 (N.testGrad k b' seeded).1) := by
    simp only [trainStep]
    rw [space_missing N seeded k _ _ _ h]
    rw [test_quiet N hN seeded k _ (N.eig k seeded).1 test _ l (by simp), (hN.train k b w.gen seeded).1]
  rw [List.foldl_cons, e, train_quiet N hN seeded k (N.eig k seeded).1 test train _ _ (by simp)]
  simp [blocks]

/-- **The first attribution after `cache`**, for a network without random numbers: the scores do not depend on the random state, and the generator is
left where the eigenspace computation of the last checkpoint leaves it after seeding. -/
theorem C224_first (N : Net G B V S R) (hN : Quiet N) (seeded : G) (K : ℕ) (b : B) (train test : List B) (w : W G S) :
    arnoldiAttribute N seeded K (b :: train) test (cache w) =
      (⟨if K = 0 then w.gen else (N.eig (K - 1) seeded).2, true, fun k => if k < K then some (N.eig k seeded).1 else none⟩,
        .ok ((List.range K).flatMap fun k => blocks N seeded k (N.eig k seeded).1 (b :: train) test)) := by
  simp only [arnoldiAttribute, cache, if_true]
  have key : ∀ n, (List.range n).foldl (fun (st : W G S × List R) (k : ℕ) => (b :: train).foldl (trainStep N seeded k test) st)
      ((⟨w.gen, true, fun _ => none⟩ : W G S), []) =
      (⟨if n = 0 then w.gen else (N.eig (n - 1) seeded).2, true, fun k => if k < n then some (N.eig k seeded).1 else none⟩,
        (List.range n).flatMap fun k => blocks N seeded k (N.eig k seeded).1 (b :: train) test) := by
    intro n
    induction n with
    | zero => simp
    | succ n ih =>
      rw [List.range_succ, List.foldl_append, ih, List.foldl_cons, List.foldl_nil,
        train_first N hN seeded n test b train _ _ (by simp)]
      refine Prod.ext (W.ext' ?_ rfl ?_) ?_
      · simp
      · funext k
        by_cases h1 : k = n
        · subst h1; simp
        · by_cases h2 : k < n
          · simp [h1, h2, Nat.lt_succ_of_lt h2]
          · have : ¬ k < n + 1 := by omega
            simp [h1, h2, this]
      · simp
  rw [key K]

/-- `cache` itself leaves the generator, and so does an attribution without training batches or checkpoints, which returns no scores and no exception, cached or not. -/
theorem C224_untouched (N : Net G B V S R) (seeded : G) (K : ℕ) (train test : List B) (w : W G S) :
    (cache w).gen = w.gen ∧ (K = 0 ∨ train = [] → arnoldiAttribute N seeded K train test w = (w, .ok [])) := by
  refine ⟨rfl, ?_⟩
  rintro (h | h)
  · subst h
    simp only [arnoldiAttribute]
    split_ifs <;> rfl
  · subst h
    simp only [arnoldiAttribute]
    have : ∀ l : List ℕ, l.foldl (fun (st : W G S × List R) (k : ℕ) => ([] : List B).foldl (trainStep N seeded k test) st) (w, []) = (w, []) := by
      intro l
      induction l with
      | nil => rfl
      | cons a l ih => simp
    rw [this]
    split_ifs <;> rfl

/-- Without `cache` an attribution raises `ValueError`, and for a network without random numbers changes nothing. -/
theorem C224_not_cached (N : Net G B V S R) (hN : Quiet N) (seeded : G) (K : ℕ) (hK : K ≠ 0) (b : B) (train test : List B) (w : W G S)
    (h : w.cached = false) : arnoldiAttribute N seeded K (b :: train) test w = (w, .error .valueError) := by
  simp only [arnoldiAttribute, h, hK, if_false, Bool.false_eq_true]
  rw [(hN.train 0 b w.gen w.gen).2, ← h]

/-! ## Cases -/

/-- A network with two parameters' worth of random numbers for the eigenspace; the generator counts the numbers drawn since it was seeded with 0. -/
def countNet : Net ℕ ℕ ℕ ℕ ℕ := ⟨fun _ b g => (b, g), fun _ b g => (b, g), fun k g => (k + g, g + 2), fun s v v' => s * 100 + v * 10 + v'⟩

example : Quiet countNet := ⟨fun _ _ _ _ => ⟨rfl, rfl⟩, fun _ _ _ _ => ⟨rfl, rfl⟩⟩

/-- Before: 57 numbers drawn; afterwards: 2. -/
example : (arnoldiAttribute countNet 0 3 [1, 2] [7] (cache ⟨57, false, fun _ => none⟩)).1.gen = 2 := by
  rw [C224_first countNet ⟨fun _ _ _ _ => ⟨rfl, rfl⟩, fun _ _ _ _ => ⟨rfl, rfl⟩⟩]
  rfl

/-- Two evaluations with random numbers, one attribution between: the second does not see what the first drew. -/
example (x y : ℕ) :
    (run countNet 0 1 [.other fun g => (g, g + x), .cache, .attr [1] [7], .other fun g => (g, g + y)] ⟨0, false, fun _ => none⟩).1.gen = 2 + y := by
  rfl

end Verif.RandSession
