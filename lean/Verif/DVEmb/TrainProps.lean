import Mathlib.Algebra.Field.Rat
import Mathlib.Data.Rat.Defs
import Mathlib.Tactic.Ring
import Mathlib.Tactic.Module
import Mathlib.Tactic.NormNum
import Mathlib.Data.List.Induction
import Verif.DVEmb.TrainModel

/-!
# C217: recording data value embeddings while training
-/

namespace Verif.DVTrain

open Verif

variable {K V ι β X O : Type} [Semiring K] [AddCommMonoid V] [Module K V]

/-! ## Specification -/

/-- The user's own operations. -/
def own : Op X → Bool
  | .train | .eval | .zeroGrad | .backward _ | .step => true
  | _ => false

/-- A schedule that keeps the attributor out of the way: between a call that runs `backward` on the
live model and the next `step` there is a `zero_grad`, and every backward pass of the user happens
in training mode (so after `attribute` the user calls `model.train()` again).  The first flag says
that the gradients may be foreign, the second that the model is in training mode. -/
def Apart : Bool → Bool → List (Op X) → Prop
  | _, _, [] => True
  | t, _, .train :: l => Apart t true l
  | t, _, .eval :: l => Apart t false l
  | _, m, .zeroGrad :: l => Apart false m l
  | t, m, .backward _ :: l => m = true ∧ Apart t m l
  | t, m, .step :: l => t = false ∧ Apart t m l
  | t, m, .record factor _ :: l => Apart (t || factor) m l
  | t, m, .enter :: l => Apart t m l
  | t, m, .leave :: l => Apart t m l
  | t, m, .scores factor cached _ _ :: l => Apart (t || factor) (m && !cached) l

/-- The network's gradients do not depend on random numbers (no dropout). -/
def NoDraws (net : Net V ι β X) : Prop :=
  ∀ θ b p q, net.gradTrain θ b p = net.gradTrain θ b q

/-- One iteration of the training loop of the documentation, with the recording before the step. -/
def iteration (factor : Bool) (b : X) : List (Op X) :=
  [.record factor b, .zeroGrad, .backward b, .step]

/-- The same without recording. -/
def plainIteration (b : X) : List (Op X) := [.zeroGrad, .backward b, .step]

/-- The same with the recording around it. -/
def contextIteration (b : X) : List (Op X) := [.enter, .zeroGrad, .backward b, .step, .leave]

/-! ## Basic facts -/

theorem run_append (net : Net V ι β X) (opt : O → (ι → V) → (ι → Option V) → O × (ι → V))
    (a b : List (Op X)) (s : St V ι β O) :
    run K net opt (a ++ b) s = run K net opt b (run K net opt a s) := List.foldl_append ..

theorem gradPass_same (net : Net V ι β X) (factor : Bool) (b : X) (s : St V ι β O) :
    (gradPass K net factor b s).θ = s.θ ∧ (gradPass K net factor b s).opt = s.opt ∧
    (gradPass K net factor b s).train = s.train ∧
    (factor = false → (gradPass K net factor b s).grad = s.grad) := by
  cases factor <;> simp [gradPass, factorPass, fullPass, pass, zeroGrad]

theorem tests_same (net : Net V ι β X) (factor : Bool) (tests : List X) (s : St V ι β O) :
    (tests.foldl (fun s b => gradPass K net factor b s) s).θ = s.θ ∧
    (tests.foldl (fun s b => gradPass K net factor b s) s).opt = s.opt ∧
    (tests.foldl (fun s b => gradPass K net factor b s) s).train = s.train ∧
    (factor = false → (tests.foldl (fun s b => gradPass K net factor b s) s).grad = s.grad) := by
  induction tests generalizing s with
  | nil => simp
  | cons b l ih =>
    obtain ⟨h1, h2, h3, h4⟩ := ih (gradPass K net factor b s)
    obtain ⟨g1, g2, g3, g4⟩ := gradPass_same (K := K) net factor b s
    refine ⟨h1.trans g1, h2.trans g2, h3.trans g3, fun hf => (h4 hf).trans (g4 hf)⟩

theorem attribute_same (net : Net V ι β X) (factor cached known : Bool) (tests : List X)
    (s : St V ι β O) :
    (attributeCall K net factor cached known tests s).1.θ = s.θ ∧
    (attributeCall K net factor cached known tests s).1.opt = s.opt ∧
    (attributeCall K net factor cached known tests s).1.train = (s.train && !cached) ∧
    (factor = false → (attributeCall K net factor cached known tests s).1.grad = s.grad) := by
  obtain ⟨h1, h2, h3, h4⟩ := tests_same (K := K) net factor tests { s with train := false }
  unfold attributeCall
  cases cached
  · simp
  · have e : (if (!true) = true then ((s, some .runtimeError) : St V ι β O × Option Err) else
        let s' := tests.foldl (fun s b => gradPass K net factor b s) { s with train := false }
        if tests.isEmpty then (s', some .runtimeError)
        else if known then (s', none) else (s', some .valueError)).1
        = tests.foldl (fun s b => gradPass K net factor b s) { s with train := false } := by
      simp only [Bool.not_true, Bool.false_eq_true, if_false]
      split
      · rfl
      · split <;> rfl
    rw [e]
    exact ⟨h1, h2, by simpa using h3, h4⟩

/-- The simulation behind `C217_training`: weights and optimizer always agree, gradients while
they are the user's, and training mode carries over. -/
structure Sim (t : Bool) (s s' : St V ι β O) : Prop where
  θ : s.θ = s'.θ
  opt : s.opt = s'.opt
  mode : s.train = true → s'.train = true
  grad : t = false → s.grad = s'.grad

theorem sim_run (net : Net V ι β X) (hn : NoDraws net)
    (opt : O → (ι → V) → (ι → Option V) → O × (ι → V)) (ops : List (Op X)) (t : Bool)
    (s s' : St V ι β O) (h : Sim t s s') (ha : Apart t s.train ops) :
    (run K net opt ops s).θ = (run K net opt (ops.filter own) s').θ ∧
    (run K net opt ops s).opt = (run K net opt (ops.filter own) s').opt := by
  induction ops generalizing t s s' with
  | nil => exact ⟨h.θ, h.opt⟩
  | cons o l ih =>
    cases o with
    | train => exact ih t _ _ ⟨h.θ, h.opt, fun _ => rfl, h.grad⟩ ha
    | eval => exact ih t _ _ ⟨h.θ, h.opt, fun h => (by simp [exec] at h), h.grad⟩ ha
    | zeroGrad => exact ih false _ _ ⟨h.θ, h.opt, h.mode, fun _ => rfl⟩ ha
    | backward b =>
      obtain ⟨hm, ha⟩ := ha
      refine ih t _ _ ⟨h.θ, h.opt, h.mode, fun ht => ?_⟩ ha
      funext i
      simp only [exec, pass, hm, h.mode hm, if_true, h.grad ht, h.θ, hn s'.θ b s.pos s'.pos]
    | step =>
      obtain ⟨ht, ha⟩ := ha
      refine ih t _ _ ⟨?_, ?_, h.mode, h.grad⟩ ha
      · simp only [exec, h.θ, h.opt, h.grad ht]
      · simp only [exec, h.θ, h.opt, h.grad ht]
    | record factor b =>
      obtain ⟨g1, g2, g3, g4⟩ := gradPass_same (K := K) net factor b s
      refine ih (t || factor) (gradPass K net factor b s) s'
        ⟨g1.trans h.θ, g2.trans h.opt, fun hm => h.mode (g3 ▸ hm), fun ht => ?_⟩ (by rw [g3]; exact ha)
      simp only [Bool.or_eq_false_iff] at ht
      exact (g4 ht.2).trans (h.grad ht.1)
    | enter => exact ih t _ _ h ha
    | leave => exact ih t _ _ h ha
    | scores factor cached known tests =>
      obtain ⟨g1, g2, g3, g4⟩ := attribute_same (K := K) net factor cached known tests s
      refine ih (t || factor) (attributeCall K net factor cached known tests s).1 s'
        ⟨g1.trans h.θ, g2.trans h.opt, fun hm => h.mode ?_, fun ht => ?_⟩ (by rw [g3]; exact ha)
      · rw [g3] at hm; simp only [Bool.and_eq_true] at hm; exact hm.1
      · simp only [Bool.or_eq_false_iff] at ht
        exact (g4 ht.2).trans (h.grad ht.1)

/-! ## The properties -/

/-- C217: in every schedule that keeps the attributor's backward passes apart from the user's steps
and for every network whose gradients use no random numbers, the weights and the optimizer end
exactly as without the attributor. -/
theorem C217_training (net : Net V ι β X) (hn : NoDraws net)
    (opt : O → (ι → V) → (ι → Option V) → O × (ι → V)) (ops : List (Op X)) (s : St V ι β O)
    (ha : Apart false s.train ops) :
    (run K net opt ops s).θ = (run K net opt (ops.filter own) s).θ ∧
    (run K net opt ops s).opt = (run K net opt (ops.filter own) s).opt :=
  sim_run net hn opt ops false s s ⟨rfl, rfl, id, fun _ => rfl⟩ ha

/-- C217: recording around the step (`cache_gradients_context`) leaves everything as it is, for
networks with random numbers and buffers too and wherever its ends are placed. -/
theorem C217_context (net : Net V ι β X) (opt : O → (ι → V) → (ι → Option V) → O × (ι → V))
    (ops : List (Op X)) (hops : ∀ o ∈ ops, own o = true ∨ o = .enter ∨ o = .leave)
    (s : St V ι β O) : run K net opt ops s = run K net opt (ops.filter own) s := by
  induction ops generalizing s with
  | nil => rfl
  | cons o l ih =>
    have hl := ih (fun o ho => hops o (List.mem_cons_of_mem _ ho))
    rcases hops o (List.mem_cons_self ..) with h | h | h
    · rw [List.filter_cons_of_pos h]; exact hl _
    · subst h; exact hl s
    · subst h; exact hl s

/-- C217: recording between the user's `backward` and `step`.  With per-sample gradients the step
uses the user's gradients; with gradient factors it uses the batch size times the gradients of the
recorded batch, and what the user had accumulated (over any number of batches) is gone. -/
theorem C217_between (net : Net V ι β X) (opt : O → (ι → V) → (ι → Option V) → O × (ι → V))
    (b : X) (s : St V ι β O) (hm : s.train = true) :
    (run K net opt [.record false b, .step] s).θ = (opt s.opt s.θ s.grad).2 ∧
    (run K net opt [.record true b, .step] s).θ = (opt s.opt s.θ fun i =>
      (net.gradTrain s.θ b s.pos i).map fun g => ((net.size b : ℕ) : K) • g).2 := by
  refine ⟨rfl, ?_⟩
  have e : (gradPass K net true b s).grad = fun i =>
      (net.gradTrain s.θ b s.pos i).map fun g => ((net.size b : ℕ) : K) • g := by
    funext i
    simp only [gradPass, factorPass, pass, zeroGrad, hm, if_true]
    cases net.gradTrain s.θ b s.pos i <;> rfl
  show (opt s.opt s.θ (gradPass K net true b s).grad).2 = _
  rw [e]

/-- What `.grad` holds after several contributions: `None` if there was none, else their sum. -/
def addUp (l : List (Option V)) : Option V :=
  if l.reduceOption = [] then none else some l.reduceOption.sum

/-- C217: gradients accumulated over two batches (network without random numbers) when the second
batch is recorded before its backward pass.  Without factorization the step uses the sum; with
gradient factors the first batch is lost and the second counts its batch size plus one times. -/
theorem C217_accumulation (net : Net V ι β X) (hn : NoDraws net)
    (opt : O → (ι → V) → (ι → Option V) → O × (ι → V)) (b b' : X) (s : St V ι β O)
    (hm : s.train = true) :
    (run K net opt [.zeroGrad, .backward b, .record false b', .backward b', .step] s).θ
      = (opt s.opt s.θ fun i => addUp [net.gradTrain s.θ b s.pos i, net.gradTrain s.θ b' s.pos i]).2 ∧
    (run K net opt [.zeroGrad, .backward b, .record true b', .backward b', .step] s).θ
      = (opt s.opt s.θ fun i =>
          (net.gradTrain s.θ b' s.pos i).map fun g => ((net.size b' + 1 : ℕ) : K) • g).2 := by
  constructor
  · simp only [run, List.foldl, exec, gradPass, fullPass, pass, zeroGrad, hm, if_true, one_smul,
      Bool.false_eq_true, if_false]
    congr 2
    funext i
    rw [hn s.θ b' (s.pos + net.used b + net.usedFull b') s.pos]
    cases net.gradTrain s.θ b s.pos i <;> cases net.gradTrain s.θ b' s.pos i <;>
      simp [acc, addUp, List.reduceOption]
  · simp only [run, List.foldl, exec, gradPass, factorPass, pass, zeroGrad, hm, if_true, one_smul]
    congr 2
    funext i
    rw [hn s.θ b' (s.pos + net.used b) s.pos, hn s.θ b' (s.pos + net.used b + net.used b') s.pos]
    cases net.gradTrain s.θ b' s.pos i with
    | none => simp [acc]
    | some g => simp [acc, add_smul]

/-- The random numbers used by one call of `cache_gradients`. -/
def recUsed (net : Net V ι β X) (factor : Bool) (b : X) : ℕ :=
  if factor then net.used b else net.usedFull b

/-- The training loop written out: the weights and the optimizer after batches `bs`, where the
forward pass of each batch starts `extra b` numbers further in the random stream. -/
def loop (net : Net V ι β X) (opt : O → (ι → V) → (ι → Option V) → O × (ι → V)) (extra : X → ℕ) :
    List X → O × (ι → V) → ℕ → O × (ι → V)
  | [], r, _ => r
  | b :: bs, r, p =>
    loop net opt extra bs (opt r.1 r.2 (net.gradTrain r.2 b (p + extra b)))
      (p + extra b + net.used b)

theorem acc_none (h : Option V) : acc none h = h := by cases h <;> rfl

theorem one_map (h : Option V) : h.map ((1 : K) • ·) = h := by
  cases h
  · rfl
  · simp

theorem iteration_state (net : Net V ι β X) (opt : O → (ι → V) → (ι → Option V) → O × (ι → V))
    (s : St V ι β O) (b : X) (s1 : St V ι β O) (h1 : s1.train = true)
    (hθ : s1.θ = s.θ) (ho : s1.opt = s.opt) :
    let r := run K net opt (plainIteration b) s1
    (r.opt, r.θ) = opt s.opt s.θ (net.gradTrain s.θ b s1.pos) ∧ r.pos = s1.pos + net.used b ∧
    r.train = true ∧ r.buf = net.buffers s.θ b s1.pos s1.buf := by
  have e : (fun i => acc none ((net.gradTrain s.θ b s1.pos i).map ((1 : K) • ·)))
      = net.gradTrain s.θ b s1.pos := by
    funext i; rw [one_map, acc_none]
  simp only [run, plainIteration, List.foldl, exec, pass, zeroGrad, h1, if_true, hθ, ho, e]
  simp

theorem record_state (net : Net V ι β X) (factor : Bool) (b : X) (s : St V ι β O)
    (hm : s.train = true) :
    (gradPass K net factor b s).pos = s.pos + recUsed net factor b := by
  cases factor <;> simp [gradPass, factorPass, fullPass, pass, zeroGrad, recUsed, hm]

theorem iter_run (net : Net V ι β X) (opt : O → (ι → V) → (ι → Option V) → O × (ι → V))
    (factor : Bool) (bs : List X) (s : St V ι β O) (hm : s.train = true) :
    ((run K net opt (bs.flatMap (iteration factor)) s).opt,
      (run K net opt (bs.flatMap (iteration factor)) s).θ)
      = loop net opt (recUsed net factor) bs (s.opt, s.θ) s.pos := by
  induction bs generalizing s with
  | nil => rfl
  | cons b bs ih =>
    obtain ⟨g1, g2, g3, -⟩ := gradPass_same (K := K) net factor b s
    obtain ⟨r1, r2, r3, -⟩ := iteration_state (K := K) net opt s b (gradPass K net factor b s)
      (g3.trans hm) g1 g2
    have e : run K net opt ((b :: bs).flatMap (iteration factor)) s
        = run K net opt (bs.flatMap (iteration factor))
          (run K net opt (plainIteration b) (gradPass K net factor b s)) := by
      rw [List.flatMap_cons, run_append]
      rfl
    rw [e, ih _ r3, r1, r2, record_state net factor b s hm]
    rfl

/-- C217: with random numbers (dropout), the loop with a recording before each step is the loop
whose every forward pass starts later in the random stream by what the recording consumed; the loop
without recording is the same with no delay. -/
theorem C217_draws (net : Net V ι β X) (opt : O → (ι → V) → (ι → Option V) → O × (ι → V))
    (factor : Bool) (bs : List X) (s : St V ι β O) (hm : s.train = true) :
    (((run K net opt (bs.flatMap (iteration factor)) s).opt,
      (run K net opt (bs.flatMap (iteration factor)) s).θ)
      = loop net opt (fun b => if factor then net.used b else net.usedFull b) bs (s.opt, s.θ) s.pos) ∧
    (((run K net opt (bs.flatMap plainIteration) s).opt,
      (run K net opt (bs.flatMap plainIteration) s).θ)
      = loop net opt (fun _ => 0) bs (s.opt, s.θ) s.pos) := by
  refine ⟨iter_run net opt factor bs s hm, ?_⟩
  induction bs generalizing s with
  | nil => rfl
  | cons b bs ih =>
    obtain ⟨r1, r2, r3, -⟩ := iteration_state (K := K) net opt s b s hm rfl rfl
    rw [List.flatMap_cons, run_append, ih _ r3, r1, r2]
    rfl

/-- C217: `attribute`.  Without embeddings it raises and changes nothing.  Otherwise the model is in
evaluation mode afterwards, also when the call raises for an unknown epoch or for no test batch;
weights, optimizer, buffers and random numbers are untouched, and with gradient factors and at
least one test batch the gradients are those of the last test batch times its size. -/
theorem C217_attribute (net : Net V ι β X) (factor known : Bool) (tests : List X)
    (s : St V ι β O) :
    attributeCall K net factor false known tests s = (s, some .runtimeError) ∧
    (attributeCall K net factor true known tests s).2
      = (if tests = [] then some .runtimeError else if known then none else some .valueError) ∧
    (attributeCall K net factor true known tests s).1
      = { s with
          train := false
          grad := match factor, tests.getLast? with
            | true, some b => fun i =>
              (net.gradEval s.θ s.buf b i).map fun g => ((net.size b : ℕ) : K) • g
            | _, _ => s.grad } := by
  refine ⟨rfl, ?_, ?_⟩
  · unfold attributeCall
    cases tests <;> cases known <;> rfl
  · have e : (attributeCall K net factor true known tests s).1
        = tests.foldl (fun s b => gradPass K net factor b s) { s with train := false } := by
      unfold attributeCall
      cases tests <;> cases known <;> rfl
    rw [e]
    induction tests using List.reverseRecOn with
    | nil => cases factor <;> rfl
    | append_singleton l b ih =>
      have := ih (by unfold attributeCall; cases l <;> cases known <;> rfl)
      have hl : (l ++ [b]).getLast? = some b := by simp
      rw [List.foldl_append, this, hl]
      cases factor
      · rfl
      · simp only [List.foldl, gradPass, factorPass, pass, zeroGrad, if_true, Bool.false_eq_true,
          if_false, acc_none]
        rfl

/-- C217: training goes on in evaluation mode after `attribute` unless the user calls `train()`:
the next iterations use the gradients of evaluation mode with the statistics frozen at the time of
the call. -/
theorem C217_frozen (net : Net V ι β X) (opt : O → (ι → V) → (ι → Option V) → O × (ι → V))
    (factor known : Bool) (tests bs : List X) (s : St V ι β O) :
    let r := run K net opt (.scores factor true known tests :: bs.flatMap plainIteration) s
    r.train = false ∧ r.buf = s.buf ∧ r.pos = s.pos ∧
    (r.opt, r.θ) = bs.foldl (fun q b => opt q.1 q.2 (net.gradEval q.2 s.buf b)) (s.opt, s.θ) := by
  have hs := (C217_attribute (K := K) net factor known tests s).2.2
  suffices h : ∀ (bs : List X) (t : St V ι β O), t.train = false →
      let r := run K net opt (bs.flatMap plainIteration) t
      r.train = false ∧ r.buf = t.buf ∧ r.pos = t.pos ∧
      (r.opt, r.θ) = bs.foldl (fun q b => opt q.1 q.2 (net.gradEval q.2 t.buf b)) (t.opt, t.θ) by
    have := h bs (attributeCall K net factor true known tests s).1 (by rw [hs])
    simp only [hs] at this
    rw [← hs] at this
    exact this
  clear hs s bs
  intro bs
  induction bs with
  | nil => intro t ht; exact ⟨ht, rfl, rfl, rfl⟩
  | cons b bs ih =>
    intro t ht
    have e : (fun i => acc none ((net.gradEval t.θ t.buf b i).map ((1 : K) • ·)))
        = net.gradEval t.θ t.buf b := by
      funext i; rw [one_map, acc_none]
    have h1 : run K net opt (plainIteration b) t
        = { t with
            grad := net.gradEval t.θ t.buf b
            opt := (opt t.opt t.θ (net.gradEval t.θ t.buf b)).1
            θ := (opt t.opt t.θ (net.gradEval t.θ t.buf b)).2 } := by
      simp only [run, plainIteration, List.foldl, exec, pass, zeroGrad, ht, Bool.false_eq_true,
        if_false, e]
    rw [List.flatMap_cons, run_append, h1]
    exact ih _ ht

/-- The network with running statistics: exponential averages with momentum `μ` of a statistic of
the batch (batch normalisation in training mode). -/
def withMomentum {F W : Type} [Field F] [AddCommGroup W] [Module F W] (net : Net V ι W X)
    (stat : (ι → V) → X → W) (μ : F) : Net V ι W X :=
  { net with buffers := fun θ b _ v => (1 - μ) • v + μ • stat θ b }

/-- C217: running statistics.  In the loop that records gradient factors before each step every
batch is counted twice: the statistics end as in a training with momentum `1 - (1 - μ)²`, i.e.
`0.19` for the usual `0.1`.  With per-sample gradients they end as without recording. -/
theorem C217_statistics {F W : Type} [Field F] [AddCommGroup W] [Module F W]
    (net : Net V ι W X) (hn : NoDraws net) (stat : (ι → V) → X → W) (μ : F)
    (opt : O → (ι → V) → (ι → Option V) → O × (ι → V)) (bs : List X) (s : St V ι W O)
    (hm : s.train = true) :
    (run K (withMomentum net stat μ) opt (bs.flatMap (iteration true)) s).buf
      = (run K (withMomentum net stat (1 - (1 - μ) ^ 2)) opt (bs.flatMap plainIteration) s).buf ∧
    (run K (withMomentum net stat μ) opt (bs.flatMap (iteration false)) s).buf
      = (run K (withMomentum net stat μ) opt (bs.flatMap plainIteration) s).buf := by
  suffices h : ∀ (bs : List X) (s s' : St V ι W O), s.train = true → s'.train = true →
      s.θ = s'.θ → s.opt = s'.opt → s.buf = s'.buf →
      (run K (withMomentum net stat μ) opt (bs.flatMap (iteration true)) s).buf
      = (run K (withMomentum net stat (1 - (1 - μ) ^ 2)) opt (bs.flatMap plainIteration) s').buf ∧
      (run K (withMomentum net stat μ) opt (bs.flatMap (iteration false)) s).buf
      = (run K (withMomentum net stat μ) opt (bs.flatMap plainIteration) s').buf from
    h bs s s hm hm rfl rfl rfl
  clear hm s bs
  intro bs
  induction bs with
  | nil => intro s s' _ _ _ _ h; exact ⟨h, h⟩
  | cons b bs ih =>
    intro s s' hm hm' hθ ho hb
    have e : ∀ f : Bool, run K (withMomentum net stat μ) opt ((b :: bs).flatMap (iteration f)) s
        = run K (withMomentum net stat μ) opt (bs.flatMap (iteration f))
          (run K (withMomentum net stat μ) opt (plainIteration b)
            (gradPass K (withMomentum net stat μ) f b s)) := by
      intro f
      rw [List.flatMap_cons, run_append]
      rfl
    have st : ∀ f : Bool, _ := fun f => iteration_state (K := K) (withMomentum net stat μ) opt s b
      (gradPass K (withMomentum net stat μ) f b s)
      ((gradPass_same (K := K) (withMomentum net stat μ) f b s).2.2.1.trans hm)
      (gradPass_same (K := K) (withMomentum net stat μ) f b s).1
      (gradPass_same (K := K) (withMomentum net stat μ) f b s).2.1
    have st' : ∀ ν : F, _ := fun ν => iteration_state (K := K) (withMomentum net stat ν) opt s' b s'
      hm' rfl rfl
    have hg : ∀ (ν ν' : F) p q, (withMomentum net stat ν).gradTrain s.θ b p
        = (withMomentum net stat ν').gradTrain s'.θ b q := fun _ _ p q => by
      rw [hθ]; exact hn s'.θ b p q
    have key : ∀ (f : Bool) (ν : F),
        (run K (withMomentum net stat μ) opt (plainIteration b)
          (gradPass K (withMomentum net stat μ) f b s)).opt
          = (run K (withMomentum net stat ν) opt (plainIteration b) s').opt ∧
        (run K (withMomentum net stat μ) opt (plainIteration b)
          (gradPass K (withMomentum net stat μ) f b s)).θ
          = (run K (withMomentum net stat ν) opt (plainIteration b) s').θ := by
      intro f ν
      have := (st f).1.trans ((congrArg (opt s.opt s.θ) (hg μ ν _ s'.pos)).trans
        ((by rw [hθ, ho] : _ = opt s'.opt s'.θ _).trans (st' ν).1.symm))
      exact ⟨congrArg Prod.fst this, congrArg Prod.snd this⟩
    have bufT : (gradPass K (withMomentum net stat μ) true b s).buf
        = (1 - μ) • s.buf + μ • stat s.θ b := by
      simp [gradPass, factorPass, pass, zeroGrad, hm, withMomentum]
    have bufF : (gradPass K (withMomentum net stat μ) false b s).buf = s.buf := rfl
    rw [e, e, List.flatMap_cons, run_append, run_append]
    refine ⟨(ih _ _ (st true).2.2.1 (st' _).2.2.1 (key true _).2 (key true _).1 ?_).1,
      (ih _ _ (st false).2.2.1 (st' _).2.2.1 (key false _).2 (key false _).1 ?_).2⟩
    · rw [(st true).2.2.2, (st' _).2.2.2, bufT, ← hb, ← hθ]
      simp only [withMomentum]
      module
    · rw [(st false).2.2.2, (st' _).2.2.2, bufF, ← hb, ← hθ]
      rfl

/-! ## Examples -/

/-- Plain gradient descent with learning rate 1 on one parameter; a `None` gradient is skipped. -/
def sgd (_ : Unit) (θ : Unit → ℚ) (g : Unit → Option ℚ) : Unit × (Unit → ℚ) :=
  ((), fun i => match g i with
    | some g => θ i - g
    | none => θ i)

/-- Half the squared distance to the batch's number, batches of two rows; the statistic is that
number. -/
def quad : Net ℚ Unit ℚ ℚ where
  gradTrain θ b _ := fun _ => some (θ () - b)
  gradEval θ v b := fun _ => some (θ () - b + v)
  used _ := 0
  usedFull _ := 0
  buffers _ _ _ v := v
  size _ := 2

/-- The same with dropout: every second random number drops the layer. -/
def drop : Net ℚ Unit ℚ ℚ :=
  { quad with
    gradTrain := fun θ b p _ => some (if p % 2 = 0 then θ () - b else 0)
    used := fun _ => 1
    usedFull := fun _ => 2 }

/-- A start state in training mode. -/
def start : St ℚ Unit ℚ Unit := ⟨fun _ => 0, fun _ => none, 0, 0, true, ()⟩

/-- C217: with dropout, recording gradient factors before the step changes the training although
the gradients are kept apart. -/
theorem C217_dropout :
    Apart false start.train (iteration true (1 : ℚ)) ∧
    (run ℚ drop sgd (iteration true 1) start).θ () ≠
      (run ℚ drop sgd ((iteration true 1).filter own) start).θ () := by
  refine ⟨⟨rfl, rfl, trivial⟩, ?_⟩
  decide +kernel

example : NoDraws quad := fun _ _ _ _ => rfl

/-- Two batches with gradients `-1` and `-3` at weight 0: the step moves to 4, or to 9. -/
example : (run ℚ quad sgd [.zeroGrad, .backward 1, .record false 3, .backward 3, .step] start).θ () = 4 ∧
    (run ℚ quad sgd [.zeroGrad, .backward 1, .record true 3, .backward 3, .step] start).θ () = 9 := by
  decide +kernel

/-- A schedule with an evaluation in the middle. -/
def schedule : List (Op ℚ) :=
  iteration true 1 ++ [.scores true true true [5], .train] ++ iteration false 3 ++
    contextIteration 2

example : Apart false start.train schedule := by
  refine ⟨rfl, rfl, rfl, rfl, rfl, rfl, trivial⟩

example : (run ℚ quad sgd schedule start).θ () = 2 ∧
    (run ℚ quad sgd (schedule.filter own) start).θ () = 2 := by decide +kernel

/-- Between `backward` and `step`: the update is doubled, and without `train()` it is taken in
evaluation mode. -/
example : (run ℚ quad sgd [.zeroGrad, .backward 1, .record true 1, .step] start).θ () = 2 ∧
    (run ℚ quad sgd [.zeroGrad, .backward 1, .record false 1, .step] start).θ () = 1 := by
  decide +kernel

example : (run ℚ (withMomentum quad (fun _ b => b) (1 / 10 : ℚ)) sgd (iteration true 1) start).buf
    = 19 / 100 := by decide +kernel

example : (attributeCall ℚ quad true true false [5, 7] { start with buf := 3 }).1.grad ()
    = some (-8) := by decide +kernel

end Verif.DVTrain
