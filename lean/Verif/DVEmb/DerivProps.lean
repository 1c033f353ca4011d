import Verif.DVEmb.DerivModel
import Verif.DVEmb.Props
import Verif.Attr.DerivProps
import Mathlib.Analysis.SpecialFunctions.Log.Deriv
import Mathlib.Analysis.Calculus.Deriv.Inv

/-! # C142: data value embeddings as derivatives of the trained parameters -/

namespace Verif.DVEmb

open Matrix Topology Attr

variable {p : ℕ}

/-! ### Specification -/

/-- One step of SGD on the mean loss of the batch in which the losses carry weights. -/
noncomputable def sgdStep (w : ℤ → ℕ → ℝ) (θ : Fin p → ℝ) (s : Step p) : Fin p → ℝ :=
  θ - (s.lr / (s.batch.length : ℝ)) • (s.batch.map fun z => w s.epoch z.1 • gradAt z.2 θ).sum

/-- The trained parameters. -/
noncomputable def train (w : ℤ → ℕ → ℝ) (θ : Fin p → ℝ) (steps : List (Step p)) : Fin p → ℝ := steps.foldl (sgdStep w) θ

/-- Weights one, but `1 + ε` for sample `i` in one epoch or in all epochs. -/
noncomputable def bump (ep : Option ℤ) (i : ℕ) (ε : ℝ) : ℤ → ℕ → ℝ := fun e k =>
  if k = i ∧ (ep = none ∨ ep = some e) then 1 + ε else 1

/-- The calls recorded during the run with weights one. -/
noncomputable def recorded : (Fin p → ℝ) → List (Step p) → List (Call ℝ p)
  | _, [] => []
  | θ, s :: rest => s.call θ :: recorded (sgdStep (fun _ _ => 1) θ s) rest

/-- All losses are twice continuously differentiable at the parameters at which they are used. -/
def Smooth : (Fin p → ℝ) → List (Step p) → Prop
  | _, [] => True
  | θ, s :: rest => (∀ z ∈ s.batch, ContDiffAt ℝ 2 z.2 θ) ∧ Smooth (sgdStep (fun _ _ => 1) θ s) rest

/-- In every step the Hessian of the summed loss of the batch is the sum of the outer products of the gradients. -/
def OuterHessian : (Fin p → ℝ) → List (Step p) → Prop
  | _, [] => True
  | θ, s :: rest => (s.batch.map fun z => hessAt z.2 θ).sum = (s.batch.map fun z => vecMulVec (gradAt z.2 θ) (gradAt z.2 θ)).sum ∧
      OuterHessian (sgdStep (fun _ _ => 1) θ s) rest

/-- The step uses sample `i`, in a selected epoch. -/
def Uses (ep : Option ℤ) (i : ℕ) (s : Step p) : Prop := (ep = none ∨ ep = some s.epoch) ∧ ∃ z ∈ s.batch, z.1 = i

open Classical in
/-- The same in every step after the first that uses sample `i`. -/
def OuterAfter (ep : Option ℤ) (i : ℕ) : (Fin p → ℝ) → List (Step p) → Prop
  | _, [] => True
  | θ, s :: rest => if Uses ep i s then OuterHessian (sgdStep (fun _ _ => 1) θ s) rest else OuterAfter ep i (sgdStep (fun _ _ => 1) θ s) rest

/-- How a displacement `δ` of the parameters and the additional weight of sample `i` change the trained parameters, to first order. -/
noncomputable def sens (ep : Option ℤ) (i : ℕ) : (Fin p → ℝ) → (Fin p → ℝ) → List (Step p) → Fin p → ℝ
  | _, δ, [] => δ
  | θ, δ, s :: rest => sens ep i (sgdStep (fun _ _ => 1) θ s)
      (δ - (s.lr / (s.batch.length : ℝ)) • (((s.batch.map fun z => hessAt z.2 θ).sum *ᵥ δ) +
        (s.batch.map fun z => if z.1 = i ∧ (ep = none ∨ ep = some s.epoch) then gradAt z.2 θ else 0).sum)) rest

/-! ### Helper lemmas -/

theorem bump_zero (ep : Option ℤ) (i : ℕ) : bump ep i 0 = fun _ _ => 1 := by
  funext e k
  simp [bump]

theorem list_sum_hasDerivAt {α : Type} (l : List α) (f : α → ℝ → Fin p → ℝ) (f' : α → Fin p → ℝ) (x : ℝ)
    (h : ∀ a ∈ l, HasDerivAt (f a) (f' a) x) : HasDerivAt (fun ε => (l.map fun a => f a ε).sum) (l.map f').sum x := by
  induction l with
  | nil => simpa using hasDerivAt_const x (0 : Fin p → ℝ)
  | cons a l ih =>
    simp only [List.map_cons, List.sum_cons]
    exact (h a (by simp)).add (ih fun b hb => h b (List.mem_cons_of_mem _ hb))

theorem list_sum_mulVec {α : Type} (l : List α) (M : α → Matrix (Fin p) (Fin p) ℝ) (v : Fin p → ℝ) :
    (l.map M).sum *ᵥ v = (l.map fun a => M a *ᵥ v).sum := by
  induction l with
  | nil => simp
  | cons a l ih => simp [Matrix.add_mulVec, ih]

theorem sgdStep_hasDerivAt (ep : Option ℤ) (i : ℕ) (s : Step p) (θ : ℝ → Fin p → ℝ) (δ : Fin p → ℝ) (hθ : HasDerivAt θ δ 0)
    (hs : ∀ z ∈ s.batch, ContDiffAt ℝ 2 z.2 (θ 0)) :
    HasDerivAt (fun ε => sgdStep (bump ep i ε) (θ ε) s)
      (δ - (s.lr / (s.batch.length : ℝ)) • (((s.batch.map fun z => hessAt z.2 (θ 0)).sum *ᵥ δ) +
        (s.batch.map fun z => if z.1 = i ∧ (ep = none ∨ ep = some s.epoch) then gradAt z.2 (θ 0) else 0).sum)) 0 := by
  have hz : ∀ z ∈ s.batch, HasDerivAt (fun ε => bump ep i ε s.epoch z.1 • gradAt z.2 (θ ε))
      (hessAt z.2 (θ 0) *ᵥ δ + if z.1 = i ∧ (ep = none ∨ ep = some s.epoch) then gradAt z.2 (θ 0) else 0) 0 := by
    intro z hz
    have h1 : HasDerivAt (fun ε => gradAt z.2 (θ ε)) (hessAt z.2 (θ 0) *ᵥ δ) 0 := by
      have := (gradAt_strict (hs z hz)).hasFDerivAt.comp_hasDerivAt (0 : ℝ) hθ
      rwa [fderiv_gradAt (hs z hz)] at this
    have h2 : HasDerivAt (fun ε => bump ep i ε s.epoch z.1) (if z.1 = i ∧ (ep = none ∨ ep = some s.epoch) then 1 else 0) 0 := by
      unfold bump
      split_ifs
      · simpa using (hasDerivAt_id (0 : ℝ)).const_add 1
      · exact hasDerivAt_const _ _
    have := h2.smul h1
    rw [bump_zero] at this
    have e : ((fun _ _ => 1 : ℤ → ℕ → ℝ) s.epoch z.1 • hessAt z.2 (θ 0) *ᵥ δ +
        (if z.1 = i ∧ (ep = none ∨ ep = some s.epoch) then (1 : ℝ) else 0) • gradAt z.2 (θ 0)) =
        hessAt z.2 (θ 0) *ᵥ δ + if z.1 = i ∧ (ep = none ∨ ep = some s.epoch) then gradAt z.2 (θ 0) else 0 := by
      split_ifs <;> simp
    rw [e] at this
    exact this
  have h3 := list_sum_hasDerivAt s.batch (fun z ε => bump ep i ε s.epoch z.1 • gradAt z.2 (θ ε)) _ 0 hz
  have h4 := hθ.sub (h3.const_smul (s.lr / (s.batch.length : ℝ)))
  rw [List.sum_map_add, ← list_sum_mulVec] at h4
  exact h4

/-- The trained parameters are differentiable in the weight. -/
theorem train_hasDerivAt (ep : Option ℤ) (i : ℕ) (steps : List (Step p)) (θ : ℝ → Fin p → ℝ) (δ : Fin p → ℝ) (hθ : HasDerivAt θ δ 0)
    (hs : Smooth (θ 0) steps) : HasDerivAt (fun ε => train (bump ep i ε) (θ ε) steps) (sens ep i (θ 0) δ steps) 0 := by
  induction steps generalizing θ δ with
  | nil => exact hθ
  | cons s rest ih =>
    have h1 := sgdStep_hasDerivAt ep i s θ δ hθ hs.1
    have h2 := ih (fun ε => sgdStep (bump ep i ε) (θ ε) s) _ h1 (by
      simp only [bump_zero]
      exact hs.2)
    simp only [bump_zero] at h2
    exact h2

/-- The embedding of a sample in the selected epochs. -/
noncomputable def embOf (ep : Option ℤ) (i : ℕ) (l : List (Call ℝ p)) : Fin p → ℝ :=
  match ep with
  | some e => specEmb e i l
  | none => ∑ e ∈ (l.map Call.epoch).toFinset, specEmb e i l

theorem specEmb_absent (e : ℤ) (i : ℕ) (l : List (Call ℝ p)) (h : e ∉ l.map Call.epoch) : specEmb e i l = 0 := by
  induction l with
  | nil => rfl
  | cons c l ih =>
    simp only [List.map_cons, List.mem_cons, not_or] at h
    rw [specEmb, if_neg (fun hc => h.1 hc.symm), ih h.2, add_zero]

theorem embOf_cons (ep : Option ℤ) (i : ℕ) (c : Call ℝ p) (l : List (Call ℝ p)) :
    embOf ep i (c :: l) = (if ep = none ∨ ep = some c.epoch then
      (((c.idx.zip c.g).filter fun q => q.1 = i).map fun q => propagate l (c.eta • q.2)).sum else 0) + embOf ep i l := by
  cases ep with
  | some e =>
    simp only [embOf, specEmb, reduceCtorEq, false_or, Option.some.injEq]
    simp only [eq_comm (a := e)]
  | none =>
    simp only [embOf, specEmb, true_or, if_true]
    rw [Finset.sum_add_distrib]
    congr 1
    · rw [Finset.sum_ite_eq]
      simp
    · rw [List.map_cons, List.toFinset_cons]
      by_cases h : c.epoch ∈ (l.map Call.epoch).toFinset
      · rw [Finset.insert_eq_of_mem h]
      · rw [Finset.sum_insert h, specEmb_absent c.epoch i l (by simpa using h), zero_add]

theorem propagate_neg (l : List (Call ℝ p)) (a : Fin p → ℝ) : propagate l (-a) = -propagate l a := by
  rw [C52_product, C52_product, mulVec_neg]

theorem list_sum_smul {α : Type} (l : List α) (a : ℝ) (f : α → Fin p → ℝ) : a • (l.map f).sum = (l.map fun x => a • f x).sum := by
  induction l with
  | nil => simp
  | cons x l ih => rw [List.map_cons, List.sum_cons, smul_add, ih, List.map_cons, List.sum_cons]

theorem propagate_sum' {α : Type} (l : List (Call ℝ p)) (m : List α) (f : α → Fin p → ℝ) :
    propagate l (m.map f).sum = (m.map fun a => propagate l (f a)).sum := by
  induction m with
  | nil => simp [C52_product]
  | cons a m ih => rw [List.map_cons, List.sum_cons, propagate_add, ih, List.map_cons, List.sum_cons]

theorem zip_map_filter {α β : Type} (l : List (ℕ × α)) (g : α → β) (i : ℕ) :
    ((l.map Prod.fst).zip (l.map fun z => g z.2)).filter (fun q => q.1 = i) = (l.filter fun z => z.1 = i).map fun z => (z.1, g z.2) := by
  induction l with
  | nil => rfl
  | cons a l ih =>
    simp only [List.map_cons, List.zip_cons_cons, List.filter_cons, ih]
    split_ifs <;> simp

/-- With outer-product Hessians the first-order change is what the embeddings compute. -/
theorem sens_eq (ep : Option ℤ) (i : ℕ) (steps : List (Step p)) (θ δ : Fin p → ℝ) (hg : OuterHessian θ steps) :
    sens ep i θ δ steps = propagate (recorded θ steps) δ - embOf ep i (recorded θ steps) := by
  induction steps generalizing θ δ with
  | nil => cases ep <;> simp [sens, recorded, propagate, embOf, specEmb]
  | cons s rest ih =>
    rw [sens, ih _ _ hg.2, recorded, embOf_cons, propagate]
    set L := recorded (sgdStep (fun _ _ => 1) θ s) rest
    have hη : (s.call θ).eta = s.lr / (s.batch.length : ℝ) := by simp [Call.eta, Step.call]
    rw [hη, hg.1, list_sum_mulVec, smul_add]
    have e1 : (s.batch.map fun z => vecMulVec (gradAt z.2 θ) (gradAt z.2 θ) *ᵥ δ).sum = ((s.call θ).g.map fun x => (x ⬝ᵥ δ) • x).sum := by
      simp only [Step.call, List.map_map]
      congr 1
      refine List.map_congr_left fun z _ => ?_
      rw [vecMulVec_mulVec]
      funext k
      simp [mul_comm]
    rw [e1]
    have e2 : ∀ a b c : Fin p → ℝ, a - (b + c) = (a - b) + -c := fun a b c => by abel
    rw [e2, propagate_add, propagate_neg, add_sub_assoc, sub_eq_add_neg, sub_eq_add_neg, sub_eq_add_neg, neg_add]
    congr 2
    by_cases he : ep = none ∨ ep = some (s.call θ).epoch
    · have he' : ep = none ∨ ep = some s.epoch := he
      simp only [he, he', and_true, if_true]
      congr 1
      have : (s.call θ).idx.zip (s.call θ).g = (s.batch.map Prod.fst).zip (s.batch.map fun z => gradAt z.2 θ) := rfl
      rw [this, zip_map_filter s.batch (fun f => gradAt f θ) i, List.map_map]
      refine Eq.trans ?_ (propagate_sum' L (s.batch.filter fun z => z.1 = i) (fun z => (s.lr / (s.batch.length : ℝ)) • gradAt z.2 θ))
      congr 1
      rw [← list_sum_smul]
      congr 1
      generalize s.batch = l
      induction l with
      | nil => rfl
      | cons z l ihl =>
        rw [List.map_cons, List.sum_cons, ihl, List.filter_cons]
        by_cases hz : z.1 = i <;> simp [hz]
    · have he' : ¬(ep = none ∨ ep = some s.epoch) := he
      simp only [he, he', and_false, if_false]
      simp [C52_product]

/-- A sample that is not used before: the outer products are needed in the later steps only. -/
theorem sens_eq_after (ep : Option ℤ) (i : ℕ) (steps : List (Step p)) (θ : Fin p → ℝ) (hg : OuterAfter ep i θ steps) :
    sens ep i θ 0 steps = -embOf ep i (recorded θ steps) := by
  induction steps generalizing θ with
  | nil => cases ep <;> simp [sens, recorded, embOf, specEmb]
  | cons s rest ih =>
    rw [OuterAfter] at hg
    split_ifs at hg with hu
    · -- the other steps as in `sens_eq`; in this one the displacement is zero
      have h1 := sens_eq ep i rest (sgdStep (fun _ _ => 1) θ s)
        (0 - (s.lr / (s.batch.length : ℝ)) • (((s.batch.map fun z => hessAt z.2 θ).sum *ᵥ (0 : Fin p → ℝ)) +
          (s.batch.map fun z => if z.1 = i ∧ (ep = none ∨ ep = some s.epoch) then gradAt z.2 θ else 0).sum)) hg
      rw [sens, h1, recorded, embOf_cons]
      set L := recorded (sgdStep (fun _ _ => 1) θ s) rest
      have he : ep = none ∨ ep = some (s.call θ).epoch := hu.1
      rw [if_pos he, mulVec_zero, zero_add, zero_sub, propagate_neg, neg_add, sub_eq_add_neg]
      congr 2
      have he' : ep = none ∨ ep = some s.epoch := hu.1
      simp only [he', and_true]
      have hη : (s.call θ).eta = s.lr / (s.batch.length : ℝ) := by simp [Call.eta, Step.call]
      have : (s.call θ).idx.zip (s.call θ).g = (s.batch.map Prod.fst).zip (s.batch.map fun z => gradAt z.2 θ) := rfl
      rw [this, zip_map_filter s.batch (fun f => gradAt f θ) i, List.map_map, hη]
      refine Eq.trans ?_ (propagate_sum' L (s.batch.filter fun z => z.1 = i) (fun z => (s.lr / (s.batch.length : ℝ)) • gradAt z.2 θ))
      congr 1
      rw [← list_sum_smul]
      congr 1
      generalize s.batch = l
      induction l with
      | nil => rfl
      | cons z l ihl =>
        rw [List.map_cons, List.sum_cons, ihl, List.filter_cons]
        by_cases hz : z.1 = i <;> simp [hz]
    · have hz : (s.batch.map fun z => if z.1 = i ∧ (ep = none ∨ ep = some s.epoch) then gradAt z.2 θ else 0).sum = 0 := by
        rw [List.map_congr_left (g := fun _ => (0 : Fin p → ℝ)) fun z hz => if_neg fun h => hu ⟨h.2, z, hz, h.1⟩]
        simp
      rw [sens, hz, mulVec_zero, add_zero, smul_zero, sub_zero, ih _ hg, recorded, embOf_cons]
      have hz' : (if ep = none ∨ ep = some (s.call θ).epoch then
          ((((s.call θ).idx.zip (s.call θ).g).filter fun q => q.1 = i).map fun q =>
            propagate (recorded (sgdStep (fun _ _ => 1) θ s) rest) ((s.call θ).eta • q.2)).sum else 0) = 0 := by
        by_cases he : ep = none ∨ ep = some (s.call θ).epoch
        · rw [if_pos he]
          have : (s.call θ).idx.zip (s.call θ).g = (s.batch.map Prod.fst).zip (s.batch.map fun z => gradAt z.2 θ) := rfl
          rw [this, zip_map_filter s.batch (fun f => gradAt f θ) i]
          have : s.batch.filter (fun z => z.1 = i) = [] := by
            rw [List.filter_eq_nil_iff]
            intro z hz hzi
            exact hu ⟨he, z, hz, by simpa using hzi⟩
          rw [this]
          rfl
        · rw [if_neg he]
      rw [hz', zero_add]

theorem OuterHessian.after (ep : Option ℤ) (i : ℕ) (steps : List (Step p)) (θ : Fin p → ℝ) (h : OuterHessian θ steps) : OuterAfter ep i θ steps := by
  induction steps generalizing θ with
  | nil => trivial
  | cons s rest ih =>
    rw [OuterAfter]
    split_ifs
    · exact h.2
    · exact ih _ h.2

theorem recorded_wf (θ : Fin p → ℝ) (steps : List (Step p)) (hb : ∀ s ∈ steps, s.batch ≠ []) : WellFormed (recorded θ steps) := by
  induction steps generalizing θ with
  | nil => exact fun c hc => absurd hc (by simp [recorded])
  | cons s rest ih =>
    intro c hc
    rcases List.mem_cons.1 hc with rfl | hc
    · refine ⟨?_, by simp [Step.call]⟩
      simpa [Step.call] using hb s (by simp)
    · exact ih _ (fun s hs => hb s (List.mem_cons_of_mem _ hs)) c hc

theorem recorded_epochs (θ : Fin p → ℝ) (steps : List (Step p)) : (recorded θ steps).map Call.epoch = steps.map Step.epoch := by
  induction steps generalizing θ with
  | nil => rfl
  | cons s rest ih =>
    rw [recorded, List.map_cons, ih]
    rfl

theorem recorded_sorted (θ : Fin p → ℝ) (steps : List (Step p)) (h : steps.Pairwise fun a b => a.epoch ≤ b.epoch) :
    Chronological (recorded θ steps) (recorded θ steps) := by
  refine ⟨?_, fun _ => rfl⟩
  have h1 : (steps.map Step.epoch).Pairwise (· ≤ ·) := List.pairwise_map.2 h
  rw [← recorded_epochs θ] at h1
  exact List.pairwise_map.1 h1

/-! ### C142 -/

/-- **C142.** The trained parameters as function of the additional weight of one sample (in one epoch or in all) are differentiable with the
recursively computed first-order change, in which every step multiplies by `I - η H` with the Hessian `H` of the batch's summed loss. No assumption on the Hessians. -/
theorem C142_sensitivity (ep : Option ℤ) (i : ℕ) (θ : Fin p → ℝ) (steps : List (Step p)) (hs : Smooth θ steps) :
    HasDerivAt (fun ε => train (bump ep i ε) θ steps) (sens ep i θ 0 steps) 0 :=
  train_hasDerivAt ep i steps (fun _ => θ) 0 (hasDerivAt_const _ _) hs

/-- **C142.** A run of plain SGD on mean batch losses recorded with `cache_gradients`, `cache()`, then `attribute`: if in each step after the first use of sample `i` the Hessian of
the batch's loss is the sum of outer products of its gradients, the score of the sample for a test target is minus the derivative of the target at the trained parameters
with respect to the weight of the sample's loss; with `epoch=e` the weight is changed in that epoch only. -/
theorem C142_score (factor ms : Bool) (θ : Fin p → ℝ) (steps : List (Step p)) (hb : ∀ s ∈ steps, s.batch ≠ [])
    (ho : steps.Pairwise fun a b => a.epoch ≤ b.epoch) (h0 : ∃ s ∈ steps, s.epoch = 0) (hs : Smooth θ steps)
    (targets : List ((Fin p → ℝ) → ℝ)) (hT : ∀ f ∈ targets, DifferentiableAt ℝ f (train (fun _ _ => 1) θ steps))
    (ep : Option ℤ) (hep : ∀ e, ep = some e → ∃ s ∈ steps, s.epoch = e) :
    ∃ st num A, record init (recorded θ steps) = .ok st ∧ (cache factor st none none ms).res = .ok () ∧
      IsCount (recorded θ steps) num ∧
      attribute' (cache factor st none none ms).st [targets.map fun f => gradAt f (train (fun _ _ => 1) θ steps)] ep none = .ok A ∧
      A.length = num ∧ ∀ i < num, OuterAfter ep i θ steps → ∀ j (hj : j < targets.length),
        HasDerivAt (fun ε => targets[j] (train (bump ep i ε) θ steps)) (-entry A i j) 0 := by
  have hwf := recorded_wf θ steps hb
  have hch := recorded_sorted θ steps ho
  have h0' : ∃ c ∈ recorded θ steps, c.epoch = 0 := by
    obtain ⟨s, hs, e⟩ := h0
    have : (0 : ℤ) ∈ (recorded θ steps).map Call.epoch := by
      rw [recorded_epochs]
      exact List.mem_map.2 ⟨s, hs, e⟩
    simpa using this
  set θ' := train (fun _ _ => 1) θ steps with hθ'
  set test : List (List (Fin p → ℝ)) := [targets.map fun f => gradAt f θ'] with htest
  have hder : ∀ i, OuterAfter ep i θ steps → ∀ j (hj : j < targets.length),
      HasDerivAt (fun ε => targets[j] (train (bump ep i ε) θ steps)) (-(embOf ep i (recorded θ steps) ⬝ᵥ gradAt targets[j] θ')) 0 := by
    intro i hg j hj
    have h1 := C142_sensitivity ep i θ steps hs
    rw [sens_eq_after ep i steps θ hg] at h1
    have h2 : HasFDerivAt targets[j] (fderiv ℝ targets[j] θ') (train (bump ep i 0) θ steps) := by
      rw [bump_zero]
      exact (hT _ (List.getElem_mem hj)).hasFDerivAt
    have h3 := h2.comp_hasDerivAt (0 : ℝ) h1
    rw [fderiv_eq_dot, dotProduct_neg, dotProduct_comm] at h3
    exact h3
  obtain ⟨st, num, e1, hc, e2, -, hA, -⟩ := C54_stale factor ms (init : St ℝ p) List.nodup_nil _ _ hch hwf h0' test (by simp [test])
  have hflat : test.flatten = targets.map fun f => gradAt f θ' := by simp [test]
  cases ep with
  | none =>
    refine ⟨st, num, _, e1, e2, hc, hA (by simp [init]), by simp, fun i hi hg j hj => ?_⟩
    have := hder i hg j hj
    convert this using 2
    rw [hflat, entry_rows]
    simp [List.getElem?_range hi, List.getElem?_map, List.getElem?_eq_getElem hj, init, embOf]
  | some e =>
    obtain ⟨st', e1', e2', num', hc', hE⟩ := C52_embedding factor ms (init : St ℝ p) _ _ hch hwf h0'
    have : st' = st := by
      rw [e1] at e1'
      exact (Except.ok.inj e1').symm
    subst this
    obtain ⟨s, hs', es⟩ := hep e rfl
    have hmem : e ∈ (recorded θ steps).map Call.epoch := by
      rw [recorded_epochs]
      exact List.mem_map.2 ⟨s, hs', es⟩
    obtain ⟨E, hl, hEi⟩ := hE e (by simpa using hmem)
    have hnum : num' = num := by
      obtain ⟨a1, c1, m1, i1, n1, q1⟩ := hc
      obtain ⟨a2, c2, m2, i2, n2, q2⟩ := hc'
      have := a1 c2 m2 i2 n2
      have := a2 c1 m1 i1 n1
      omega
    subst hnum
    have hne' : (cache factor st' none none ms).st.emb ≠ [] := by
      intro h
      rw [h] at hl
      cases hl
    refine ⟨st', num', (List.range num').map fun i => test.flatten.map fun x => E i ⬝ᵥ x, e1, e2, hc', ?_, by simp, fun i hi hg j hj => ?_⟩
    · unfold attribute'
      rw [if_neg hne', if_neg (by simp [test])]
      simp only [active, hl, selectRows, bind, Except.bind, pure, Except.pure]
    · have := hder i hg j hj
      convert this using 2
      rw [hflat, entry_rows]
      simp [List.getElem?_range hi, List.getElem?_map, List.getElem?_eq_getElem hj, embOf, hEi]

/-! ### Cases meeting the hypotheses -/

/-- A negative log-likelihood: its second derivative is the square of its first. -/
noncomputable def nll (θ : Fin 1 → ℝ) : ℝ := -Real.log (θ 0)

theorem nll_smooth (θ : Fin 1 → ℝ) (h : θ 0 ≠ 0) : ContDiffAt ℝ 2 nll θ := by
  unfold nll
  have : ContDiffAt ℝ 2 (fun t : Fin 1 → ℝ => t 0) θ := by fun_prop
  exact (this.log h).neg

theorem nll_grad (θ : Fin 1 → ℝ) (h : θ 0 ≠ 0) : gradAt nll θ = fun _ => -(θ 0)⁻¹ := by
  funext k
  obtain rfl : k = 0 := Subsingleton.elim _ _
  have := ((hasFDerivAt_apply (𝕜 := ℝ) (0 : Fin 1) θ).log h).neg
  have h2 : HasFDerivAt nll _ θ := this
  rw [gradAt, h2.fderiv]
  simp

theorem nll_hess (θ : Fin 1 → ℝ) (h : θ 0 ≠ 0) : hessAt nll θ = vecMulVec (gradAt nll θ) (gradAt nll θ) := by
  ext j k
  obtain rfl : k = 0 := Subsingleton.elim _ _
  have h1 : (fun y => gradAt nll y j) =ᶠ[𝓝 θ] fun y => -(y 0)⁻¹ := by
    have : ∀ᶠ y in 𝓝 θ, (y : Fin 1 → ℝ) 0 ≠ 0 := (continuous_apply 0).continuousAt.eventually_ne h
    filter_upwards [this] with y hy
    rw [nll_grad y hy]
  have h2 := ((hasDerivAt_inv h).comp_hasFDerivAt θ (hasFDerivAt_apply (𝕜 := ℝ) (0 : Fin 1) θ)).neg
  have h3 : HasFDerivAt (fun y : Fin 1 → ℝ => -(y 0)⁻¹) _ θ := h2
  show fderiv ℝ (fun y => gradAt nll y j) θ (Pi.single 0 1) = _
  rw [h1.fderiv_eq, h3.fderiv, nll_grad θ h, vecMulVec_apply]
  simp
  ring

/-- Two steps, in two epochs, from `θ = 1`. -/
noncomputable def exSteps : List (Step 1) := [⟨0, 1 / 2, [(0, nll)]⟩, ⟨1, 1 / 2, [(0, nll), (1, nll)]⟩]

theorem exSteps_second : sgdStep (fun _ _ => 1) (fun _ => 1) (⟨0, 1 / 2, [(0, nll)]⟩ : Step 1) = fun _ => 3 / 2 := by
  funext k
  simp [sgdStep, nll_grad (fun _ => 1) (by norm_num)]
  norm_num

example : (∀ s ∈ exSteps, s.batch ≠ []) ∧ exSteps.Pairwise (fun a b => a.epoch ≤ b.epoch) ∧ (∃ s ∈ exSteps, s.epoch = 0) ∧
    Smooth (fun _ => 1) exSteps ∧ (∀ ep i, OuterAfter ep i (fun _ => 1) exSteps) ∧
    ∀ f ∈ [fun t : Fin 1 → ℝ => t 0 ^ 2], DifferentiableAt ℝ f (train (fun _ _ => 1) (fun _ => 1) exSteps) := by
  refine ⟨by simp [exSteps], by simp [exSteps], ⟨_, List.mem_cons_self, rfl⟩, ?_, ?_, ?_⟩
  · simp only [exSteps, Smooth, exSteps_second, and_true, List.mem_cons, List.not_mem_nil, or_false, forall_eq_or_imp, forall_eq]
    exact ⟨nll_smooth _ (by norm_num), nll_smooth _ (by norm_num), nll_smooth _ (by norm_num)⟩
  · refine fun ep i => OuterHessian.after ep i _ _ ?_
    simp only [exSteps, OuterHessian, exSteps_second, and_true, List.map_cons, List.map_nil]
    rw [nll_hess _ (by norm_num), nll_hess _ (by norm_num)]
    exact ⟨rfl, rfl⟩
  · intro f hf
    obtain rfl : f = _ := by simpa using hf
    fun_prop

/-! ### Without the assumption on the Hessians -/

/-- The loss `θ`. -/
def linLoss (θ : Fin 1 → ℝ) : ℝ := θ 0

theorem linLoss_grad (θ : Fin 1 → ℝ) : gradAt linLoss θ = fun _ => 1 := by
  funext k
  obtain rfl : k = 0 := Subsingleton.elim _ _
  have h : HasFDerivAt linLoss _ θ := hasFDerivAt_apply (𝕜 := ℝ) (0 : Fin 1) θ
  rw [gradAt, h.fderiv]
  simp

/-- Two steps with learning rate one and one sample each. -/
def linSteps : List (Step 1) := [⟨0, 1, [(0, linLoss)]⟩, ⟨0, 1, [(1, linLoss)]⟩]

/-- **C142 (disagreement).** Linear losses, whose Hessians vanish: the score of the first sample is `0` although the derivative of the trained parameter is `-1`. -/
theorem C142_needs_outer : ∃ st A, record init (recorded (fun _ => 0) linSteps) = .ok st ∧ (cache false st none none false).res = .ok () ∧
    attribute' (cache false st none none false).st [[gradAt linLoss (train (fun _ _ => 1) (fun _ => 0) linSteps)]] none none = .ok A ∧
    entry A 0 0 = 0 ∧ HasDerivAt (fun ε => linLoss (train (bump none 0 ε) (fun _ => 0) linSteps)) (-1) 0 := by
  have hwf := recorded_wf (fun _ => 0) linSteps (by simp [linSteps])
  have hch := recorded_sorted (fun _ => 0) linSteps (by simp [linSteps])
  obtain ⟨st, num, e1, hc, e2, -, hA, -⟩ := C54_stale false false (init : St ℝ 1) List.nodup_nil _ _ hch hwf
    ⟨_, List.mem_cons_self, rfl⟩ [[gradAt linLoss (train (fun _ _ => 1) (fun _ => 0) linSteps)]] (by simp)
  refine ⟨st, _, e1, e2, hA (by simp [init]), ?_, ?_⟩
  · have hn : 0 < num := by
      obtain ⟨-, c, -, i, -, q⟩ := hc
      omega
    simp only [linLoss_grad]
    rw [show ([[fun _ : Fin 1 => (1 : ℝ)]] : List (List (Fin 1 → ℝ))).flatten = [fun _ => 1] from rfl, entry_rows]
    simp [List.getElem?_range hn, init, recorded, linSteps, Step.call, linLoss_grad, specEmb, propagate, Call.eta, dotProduct]
  · have : (fun ε => linLoss (train (bump none 0 ε) (fun _ => 0) linSteps)) = fun ε => -1 - (1 + ε) := by
      funext ε
      simp [linLoss, train, linSteps, sgdStep, linLoss_grad, bump]
      ring
    rw [this]
    simpa using ((hasDerivAt_id (0 : ℝ)).const_add 1).const_sub (-1)

end Verif.DVEmb
