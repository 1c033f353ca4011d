import Verif.Bench.TrainModel
import Verif.Bench.LogRegProps
import Verif.DVEmb.DerivProps

/-! # C152: data value embeddings of the benchmark trainings -/

namespace Verif.Train

open Verif Verif.Attr Matrix

variable {p n c : ℕ} {X : Type}

/-! ### Specification -/

/-- The mean loss of a batch in which the loss of the sample with index `k` has the weight `w k`. -/
noncomputable def weighted (sample : (Fin p → ℝ) → X → ℝ) (w : ℕ → ℝ) (θ : Fin p → ℝ) (b : List (ℕ × X)) : ℝ :=
  (b.map fun z => w z.1 * sample θ z.2).sum / (b.length : ℝ)

/-- Weights one, but `1 + ε` for the sample `i`. -/
noncomputable def bumped (i : ℕ) (ε : ℝ) : ℕ → ℝ := fun k => if k = i then 1 + ε else 1

/-- The steps of a training, with the index of its epoch, as recorded by `cache_gradients`. -/
noncomputable def stepsOf (lr : ℝ) (sample : (Fin p → ℝ) → X → ℝ) (epochs : List (List (List (ℕ × X)))) (e : ℕ) : List (DVEmb.Step p) :=
  match epochs with
  | [] => []
  | bs :: rest => bs.map (fun b => ⟨(e : ℤ), lr, b.map fun z => (z.1, fun t => sample t z.2)⟩) ++ stepsOf lr sample rest (e + 1)

/-! ### Helper lemmas -/

theorem gradAt_weighted (sample : (Fin p → ℝ) → X → ℝ) (w : ℕ → ℝ) (θ : Fin p → ℝ) (b : List (ℕ × X))
    (h : ∀ z ∈ b, DifferentiableAt ℝ (fun t => sample t z.2) θ) :
    gradAt (fun t => weighted sample w t b) θ = ((1 : ℝ) / (b.length : ℝ)) • (b.map fun z => w z.1 • gradAt (fun t => sample t z.2) θ).sum := by
  have key : ∀ l : List (ℕ × X), (∀ z ∈ l, DifferentiableAt ℝ (fun t => sample t z.2) θ) →
      HasFDerivAt (fun t => (l.map fun z => w z.1 * sample t z.2).sum) (l.map fun z => w z.1 • fderiv ℝ (fun t => sample t z.2) θ).sum θ := by
    intro l hl
    induction l with
    | nil => simpa using hasFDerivAt_const (𝕜 := ℝ) (0 : ℝ) θ
    | cons z l ih =>
      simp only [List.map_cons, List.sum_cons]
      have h1 := ((hl z (by simp)).hasFDerivAt).const_mul (w z.1)
      exact h1.fun_add (ih fun y hy => hl y (List.mem_cons_of_mem _ hy))
  have h1 := (key b h).mul_const ((b.length : ℝ)⁻¹)
  have h2 : HasFDerivAt (fun t => weighted sample w t b) ((b.length : ℝ)⁻¹ • (b.map fun z => w z.1 • fderiv ℝ (fun t => sample t z.2) θ).sum) θ := by
    simpa only [weighted, div_eq_mul_inv] using h1
  funext k
  rw [gradAt, h2.fderiv]
  simp only [_root_.smul_apply, smul_eq_mul, Pi.smul_apply, one_div]
  congr 1
  clear h1 h2 key h
  induction b with
  | nil => rfl
  | cons z b ih =>
    simp only [List.map_cons, List.sum_cons, _root_.add_apply, _root_.smul_apply, Pi.add_apply, Pi.smul_apply, ih]
    rfl

/-- Plain SGD on weighted batch losses is the training of C142. -/
theorem trainLoop_eq (lr : ℝ) (sample : (Fin p → ℝ) → X → ℝ) (hs : ∀ x, Differentiable ℝ fun t => sample t x) (w : ℕ → ℝ)
    (epochs : List (List (List (ℕ × X)))) (e : ℕ) (θ : Fin p → ℝ) :
    trainLoop ⟨lr, 0, 0⟩ (weighted sample w) epochs θ = DVEmb.train (fun _ k => w k) θ (stepsOf lr sample epochs e) := by
  have hstep : ∀ (b : List (ℕ × X)) (q : ℤ) (st : (Fin p → ℝ) × Option (Fin p → ℝ)),
      (SGD.step ⟨lr, 0, 0⟩ (gradAt (fun t => weighted sample w t b) st.1) st) =
        (DVEmb.sgdStep (fun _ k => w k) st.1 ⟨q, lr, b.map fun z => (z.1, fun t => sample t z.2)⟩, st.2) := by
    intro b q st
    rw [gradAt_weighted sample w st.1 b fun z _ => hs z.2 st.1]
    simp only [SGD.step, ne_eq, not_true_eq_false, if_false, DVEmb.sgdStep, List.map_map, List.length_map, Function.comp_def]
    rw [smul_smul, mul_one_div]
  have hbs : ∀ (bs : List (List (ℕ × X))) (q : ℤ) (st : (Fin p → ℝ) × Option (Fin p → ℝ)),
      bs.foldl (fun st b => SGD.step ⟨lr, 0, 0⟩ (gradAt (fun t => weighted sample w t b) st.1) st) st =
        (DVEmb.train (fun _ k => w k) st.1 (bs.map fun b => ⟨q, lr, b.map fun z => (z.1, fun t => sample t z.2)⟩), st.2) := by
    intro bs q
    induction bs with
    | nil => intro st; rfl
    | cons b bs ih =>
      intro st
      rw [List.foldl_cons, hstep b q st, ih]
      rfl
  unfold trainLoop
  generalize (none : Option (Fin p → ℝ)) = o
  induction epochs generalizing e θ with
  | nil => rfl
  | cons bs rest ih =>
    rw [List.foldl_cons, hbs bs (e : ℤ) (θ, o), ih (e + 1), stepsOf, DVEmb.train, DVEmb.train, DVEmb.train, List.foldl_append]

theorem weighted_one (sample : (Fin p → ℝ) → X → ℝ) (θ : Fin p → ℝ) (b : List (ℕ × X)) :
    weighted sample (fun _ => 1) θ b = ((b.map Prod.snd).map (sample θ)).sum / ((b.map Prod.snd).length : ℝ) := by
  simp [weighted, Function.comp_def]

theorem trainLoop_unindexed (o : SGD) (sample : (Fin p → ℝ) → X → ℝ) (epochs : List (List (List (ℕ × X)))) (θ : Fin p → ℝ) :
    trainLoop o (weighted sample fun _ => 1) epochs θ =
      trainLoop o (fun t b => (b.map (sample t)).sum / (b.length : ℝ)) (epochs.map fun bs => bs.map fun b => b.map Prod.snd) θ := by
  unfold trainLoop
  rw [List.foldl_map]
  congr 2
  funext st bs
  rw [List.foldl_map]
  congr 1
  funext st b
  congr 2
  funext t
  exact weighted_one sample t b

theorem stepsOf_mem (lr : ℝ) (sample : (Fin p → ℝ) → X → ℝ) (epochs : List (List (List (ℕ × X)))) (e : ℕ) (s : DVEmb.Step p)
    (h : s ∈ stepsOf lr sample epochs e) : ∃ bs ∈ epochs, ∃ b ∈ bs, s.batch = (b.map fun z => (z.1, fun t => sample t z.2)) ∧ (e : ℤ) ≤ s.epoch := by
  induction epochs generalizing e with
  | nil => simp [stepsOf] at h
  | cons bs rest ih =>
    rw [stepsOf, List.mem_append, List.mem_map] at h
    rcases h with ⟨b, hb, rfl⟩ | h
    · exact ⟨bs, by simp, b, hb, rfl, le_rfl⟩
    · obtain ⟨bs', h1, b, h2, h3, h4⟩ := ih (e + 1) h
      exact ⟨bs', List.mem_cons_of_mem _ h1, b, h2, h3, by push_cast at h4; omega⟩

theorem stepsOf_sorted (lr : ℝ) (sample : (Fin p → ℝ) → X → ℝ) (epochs : List (List (List (ℕ × X)))) (e : ℕ) :
    (stepsOf lr sample epochs e).Pairwise fun a b => a.epoch ≤ b.epoch := by
  induction epochs generalizing e with
  | nil => exact List.Pairwise.nil
  | cons bs rest ih =>
    rw [stepsOf, List.pairwise_append]
    refine ⟨?_, ih (e + 1), ?_⟩
    · rw [List.pairwise_map]
      exact List.pairwise_of_forall fun _ _ => le_rfl
    · intro a ha b hb
      obtain ⟨b', -, rfl⟩ := List.mem_map.1 ha
      obtain ⟨-, -, -, -, -, h⟩ := stepsOf_mem lr sample rest (e + 1) b hb
      push_cast at h
      show (e : ℤ) ≤ b.epoch
      omega

theorem smooth_of_forall (steps : List (DVEmb.Step p)) (θ : Fin p → ℝ) (h : ∀ s ∈ steps, ∀ z ∈ s.batch, ContDiff ℝ 2 z.2) : DVEmb.Smooth θ steps := by
  induction steps generalizing θ with
  | nil => trivial
  | cons s rest ih => exact ⟨fun z hz => (h s (by simp) z hz).contDiffAt, ih _ fun s hs => h s (List.mem_cons_of_mem _ hs)⟩

/-- A sample which only the last step uses. -/
theorem outerAfter_last (ep : Option ℤ) (i : ℕ) (steps : List (DVEmb.Step p)) (θ : Fin p → ℝ) (h : ∀ s ∈ steps.dropLast, ¬ DVEmb.Uses ep i s) :
    DVEmb.OuterAfter ep i θ steps := by
  induction steps generalizing θ with
  | nil => trivial
  | cons s rest ih =>
    cases rest with
    | nil =>
      rw [DVEmb.OuterAfter]
      split_ifs <;> trivial
    | cons s' rest' =>
      rw [List.dropLast_cons_of_ne_nil (by simp)] at h
      rw [DVEmb.OuterAfter, if_neg (h s (by simp))]
      exact ih _ fun x hx => h x (List.mem_cons_of_mem _ hx)

theorem bump_eq (i : ℕ) (ε : ℝ) : DVEmb.bump none i ε = fun _ k => bumped i ε k := by
  funext e k
  simp [DVEmb.bump, bumped]

/-! ### C152 -/

/-- **C152** (logistic regression). `train_mnist_lr` on indexed batches, with the gradients recorded in each step by `cache_gradients`: the DVEmb score of sample `i` for a test target is
minus the derivative of the target at the trained parameters with respect to the weight of the sample's loss, for every sample after whose first use the batch Hessians are sums of
outer products of gradients. Weight one for all samples is `train_mnist_lr` itself. -/
theorem C152_logistic (factor ms : Bool) (init : ℕ → Fin (c * n + c) → ℝ) (seed epochNum : ℕ) (loader : ℕ → List (List (ℕ × LogReg.Sample n c)))
    (hb : ∀ e < epochNum, ∀ b ∈ loader e, b ≠ []) (h0 : 0 < epochNum ∧ loader 0 ≠ []) (targets : List ((Fin (c * n + c) → ℝ) → ℝ))
    (hT : ∀ f ∈ targets, Differentiable ℝ f) :
    let epochs := (List.range epochNum).map loader
    let θ := init seed
    let steps := stepsOf (1 / 100) LogReg.sampleLoss epochs 0
    let trained := trainMnistLr init (fun e => (loader e).map fun b => b.map Prod.snd) seed epochNum
    trainLoop ⟨1 / 100, 0, 0⟩ (weighted LogReg.sampleLoss fun _ => 1) epochs θ = trained ∧
    ∃ st num A, DVEmb.record DVEmb.init (DVEmb.recorded θ steps) = .ok st ∧ (DVEmb.cache factor st none none ms).res = .ok () ∧
      DVEmb.IsCount (DVEmb.recorded θ steps) num ∧
      DVEmb.attribute' (DVEmb.cache factor st none none ms).st [targets.map fun f => gradAt f trained] none none = .ok A ∧
      A.length = num ∧ ∀ i < num, DVEmb.OuterAfter none i θ steps → ∀ j (hj : j < targets.length),
        HasDerivAt (fun ε => targets[j] (trainLoop ⟨1 / 100, 0, 0⟩ (weighted LogReg.sampleLoss (bumped i ε)) epochs θ)) (-DVEmb.entry A i j) 0 := by
  intro epochs θ steps trained
  have hd : ∀ x : LogReg.Sample n c, Differentiable ℝ fun t : Fin (c * n + c) → ℝ => LogReg.sampleLoss t x :=
    fun x => (LogReg.sampleLoss_smooth x).differentiable (by norm_num)
  have e1 : trainLoop ⟨1 / 100, 0, 0⟩ (weighted LogReg.sampleLoss fun _ => 1) epochs θ = trained := by
    rw [trainLoop_unindexed]
    show _ = trainLoop _ _ _ _
    rw [List.map_map]
    rfl
  refine ⟨e1, ?_⟩
  have e2 : DVEmb.train (fun _ _ => 1) θ steps = trained := by
    rw [← e1, trainLoop_eq (1 / 100) LogReg.sampleLoss hd (fun _ => 1) epochs 0 θ]
  have hne : ∀ s ∈ steps, s.batch ≠ [] := by
    intro s hs
    obtain ⟨bs, h1, b, h2, h3, -⟩ := stepsOf_mem _ _ _ _ s hs
    obtain ⟨e, he, rfl⟩ := List.mem_map.1 h1
    rw [h3]
    simpa using hb e (List.mem_range.1 he) b h2
  have hz : ∃ s ∈ steps, s.epoch = 0 := by
    obtain ⟨h1, h2⟩ := h0
    obtain ⟨m, rfl⟩ : ∃ m, epochNum = m + 1 := ⟨epochNum - 1, by omega⟩
    obtain ⟨b, l, hbl⟩ := List.exists_cons_of_ne_nil h2
    refine ⟨⟨((0 : ℕ) : ℤ), 1 / 100, b.map fun z => (z.1, fun t => LogReg.sampleLoss t z.2)⟩, ?_, rfl⟩
    show _ ∈ stepsOf _ _ ((List.range (m + 1)).map loader) 0
    rw [List.range_succ_eq_map, List.map_cons, stepsOf, hbl]
    simp
  have hs : DVEmb.Smooth θ steps := by
    refine smooth_of_forall _ _ fun s hs z hz => ?_
    obtain ⟨bs, h1, b, h2, h3, -⟩ := stepsOf_mem _ _ _ _ s hs
    rw [h3] at hz
    obtain ⟨y, -, rfl⟩ := List.mem_map.1 hz
    exact LogReg.sampleLoss_smooth y.2
  obtain ⟨st, num, A, h1, h2, h3, h4, h5, h6⟩ := DVEmb.C142_score factor ms θ steps hne (stepsOf_sorted _ _ _ _) hz hs targets
    (fun f hf => (hT f hf).differentiableAt) none (by simp)
  rw [e2] at h4
  refine ⟨st, num, A, h1, h2, h3, h4, h5, fun i hi hg j hj => ?_⟩
  have := h6 i hi hg j hj
  rw [show (fun ε => targets[j] (trainLoop ⟨1 / 100, 0, 0⟩ (weighted LogReg.sampleLoss (bumped i ε)) epochs θ)) =
    fun ε => targets[j] (DVEmb.train (DVEmb.bump none i ε) θ steps) from by
      funext ε
      rw [trainLoop_eq (1 / 100) LogReg.sampleLoss hd (bumped i ε) epochs 0 θ, bump_eq]]
  exact this

/-- **C152** (last step). In particular the score of a sample that is used in the last training step only is exact, whatever the Hessians. -/
theorem C152_last_step (i : ℕ) (θ : Fin (c * n + c) → ℝ) (epochs : List (List (List (ℕ × LogReg.Sample n c))))
    (h : ∀ s ∈ (stepsOf (1 / 100) LogReg.sampleLoss epochs 0).dropLast, ∀ z ∈ s.batch, z.1 ≠ i) :
    DVEmb.OuterAfter none i θ (stepsOf (1 / 100) LogReg.sampleLoss epochs 0) :=
  outerAfter_last none i _ θ fun s hs hu => by
    obtain ⟨-, z, hz, hzi⟩ := hu
    exact h s hs z hz hzi

/-- The steps of the example for momentum: one sample with the loss `-log θ`, then one with a constant loss. -/
noncomputable def momEpochs : List (List (List (ℕ × ((Fin 1 → ℝ) → ℝ)))) := [[[(0, DVEmb.nll)], [(1, fun _ => 0)]]]

theorem gradAt_const (a : ℝ) (θ : Fin 1 → ℝ) : gradAt (fun _ : Fin 1 → ℝ => a) θ = 0 := by
  funext k
  simp [gradAt]

/-- The trained parameter in the example for momentum. -/
theorem mom_trained (w : ℕ → ℝ) (m : ℝ) (hm : m ≠ 0) :
    trainLoop ⟨1 / 100, m, 0⟩ (weighted (fun t f => f t) w) momEpochs (fun _ => 1) = fun _ => 1 + w 0 / 100 * (1 + m) := by
  have h1 : gradAt (fun t : Fin 1 → ℝ => weighted (fun t f => f t) w t [(0, DVEmb.nll)]) (fun _ => 1) = fun _ => -w 0 := by
    rw [gradAt_weighted _ _ _ _ (by
      intro z hz
      obtain rfl : z = _ := by simpa using hz
      exact (DVEmb.nll_smooth _ (by norm_num)).differentiableAt (by norm_num))]
    funext k
    simp [DVEmb.nll_grad (fun _ => 1) (by norm_num)]
  have h2 : ∀ θ : Fin 1 → ℝ, gradAt (fun t : Fin 1 → ℝ => weighted (fun t f => f t) w t [(1, fun _ => 0)]) θ = 0 := by
    intro θ
    have : (fun t : Fin 1 → ℝ => weighted (fun t (f : (Fin 1 → ℝ) → ℝ) => f t) w t [(1, fun _ => 0)]) = fun _ => 0 := by
      funext t
      simp [weighted]
    rw [this, gradAt_const]
  simp only [trainLoop, momEpochs, List.foldl_cons, List.foldl_nil, SGD.step, ne_eq, not_true_eq_false, if_false, hm, not_false_eq_true, if_true, h1, h2]
  funext k
  simp
  ring

/-- **C152 (disagreement, momentum).** `train_mnist_mlp` and `train_cifar_resnet9` train with momentum 0.9, which the embeddings ignore: on a run whose Hessians are sums of outer products
the score of the first sample is `-1/100` while the derivative of the trained parameter is `19/1000` and not `1/100`. -/
theorem C152_momentum : ∃ st A, DVEmb.record DVEmb.init
      (DVEmb.recorded (fun _ => 1) (stepsOf (1 / 100) (fun t f => f t) momEpochs 0)) = .ok st ∧
    (DVEmb.cache false st none none false).res = .ok () ∧
    DVEmb.attribute' (DVEmb.cache false st none none false).st
      [[gradAt DVEmb.linLoss (trainMnistMlp (fun t b => (b.map fun f => f t).sum / (b.length : ℝ)) (fun _ _ => 1)
        (fun _ => [[DVEmb.nll], [fun _ => 0]]) 0 1)]] none none = .ok A ∧
    DVEmb.entry A 0 0 = -(1 / 100) ∧ DVEmb.OuterHessian (fun _ => 1) (stepsOf (1 / 100) (fun t f => f t) momEpochs 0) ∧
    HasDerivAt (fun ε => DVEmb.linLoss (trainLoop ⟨1 / 100, 9 / 10, 0⟩ (weighted (fun t f => f t) (bumped 0 ε)) momEpochs (fun _ => 1))) (19 / 1000) 0 := by
  have hst : stepsOf (1 / 100) (fun t f => f t) momEpochs 0 =
      ([⟨0, 1 / 100, [(0, DVEmb.nll)]⟩, ⟨0, 1 / 100, [(1, fun _ => 0)]⟩] : List (DVEmb.Step 1)) := by
    simp [stepsOf, momEpochs]
  have hg1 := DVEmb.nll_grad (fun _ => 1) (by norm_num)
  rw [hst]
  set steps : List (DVEmb.Step 1) := [⟨0, 1 / 100, [(0, DVEmb.nll)]⟩, ⟨0, 1 / 100, [(1, fun _ => 0)]⟩] with hsteps
  have hwf := DVEmb.recorded_wf (fun _ => 1) steps (by simp [hsteps])
  have hch := DVEmb.recorded_sorted (fun _ => 1) steps (by simp [hsteps])
  simp only [DVEmb.linLoss_grad]
  obtain ⟨st, num, e1, hc, e2, -, hA, -⟩ := DVEmb.C54_stale false false (DVEmb.init : DVEmb.St ℝ 1) List.nodup_nil _ _ hch hwf
    ⟨_, List.mem_cons_self, rfl⟩ [[fun _ => 1]] (by simp)
  refine ⟨st, _, e1, e2, hA (by simp [DVEmb.init]), ?_, ?_, ?_⟩
  · have hn : 0 < num := by
      obtain ⟨-, c, -, i, -, q⟩ := hc
      omega
    rw [show ([[fun _ : Fin 1 => (1 : ℝ)]] : List (List (Fin 1 → ℝ))).flatten = [fun _ => 1] from rfl, DVEmb.entry_rows]
    simp [List.getElem?_range hn, DVEmb.init, DVEmb.recorded, hsteps, DVEmb.Step.call, hg1, DVEmb.specEmb, DVEmb.propagate, DVEmb.Call.eta, dotProduct,
      gradAt_const]
  · simp only [hsteps, DVEmb.OuterHessian, and_true, List.map_cons, List.map_nil, List.sum_cons, List.sum_nil, add_zero]
    refine ⟨DVEmb.nll_hess _ (by norm_num), ?_⟩
    rw [gradAt_const]
    ext j k
    simp [hessAt, gradAt_const, vecMulVec_apply]
  · have : (fun ε => DVEmb.linLoss (trainLoop ⟨1 / 100, 9 / 10, 0⟩ (weighted (fun t f => f t) (bumped 0 ε)) momEpochs (fun _ => 1))) =
        fun ε => 1 + (1 + ε) * (19 / 1000) := by
      funext ε
      rw [mom_trained _ _ (by norm_num)]
      simp [DVEmb.linLoss, bumped]
      ring
    rw [this]
    simpa using (((hasDerivAt_id (0 : ℝ)).const_add 1).mul_const (19 / 1000)).const_add 1

/-- **C152** (empty loaders). Without batches `train_mnist_lr` and `train_mnist_mlp` return the initial parameters, `train_cifar_resnet9` and `train_imagenet_resnet18` raise
`ZeroDivisionError` unless there are no epochs. -/
theorem C152_empty (loss : (Fin p → ℝ) → List X → ℝ) (init : ℕ → Fin p → ℝ) (initLr : ℕ → Fin (c * n + c) → ℝ) (seed epochNum : ℕ) :
    trainMnistLr initLr (fun _ => []) seed epochNum = initLr seed ∧
    trainMnistMlp loss init (fun _ => []) seed epochNum = init seed ∧
    trainCifar loss init (fun _ => []) 0 seed epochNum = (if epochNum = 0 then .ok (init seed) else .error .zeroDivisionError) ∧
    trainImagenet loss init (fun _ => []) 0 seed epochNum = (if epochNum = 0 then .ok (init seed) else .error .zeroDivisionError) := by
  have key : ∀ {q : ℕ} {Y : Type} (o : SGD) (loss : (Fin q → ℝ) → List Y → ℝ) (θ : Fin q → ℝ) (m : ℕ),
      trainLoop o loss ((List.range m).map fun _ => []) θ = θ := by
    intro q Y o loss θ m
    unfold trainLoop
    have : ∀ st : (Fin q → ℝ) × Option (Fin q → ℝ), ((List.range m).map fun _ => ([] : List (List Y))).foldl
        (fun st bs => bs.foldl (fun st b => o.step (gradAt (fun t => loss t b) st.1) st) st) st = st := by
      generalize List.range m = l
      induction l with
      | nil => intro st; rfl
      | cons a l ih => intro st; exact ih st
    rw [this]
  refine ⟨key _ _ _ _, key _ _ _ _, ?_, ?_⟩
  · unfold trainCifar
    by_cases h : epochNum = 0
    · subst h
      rw [if_neg (by simp), if_pos rfl, key]
    · rw [if_pos ⟨by omega, rfl⟩, if_neg h]
  · unfold trainImagenet
    by_cases h : epochNum = 0
    · subst h
      rw [if_neg (by simp), if_pos rfl, key]
    · rw [if_pos ⟨by omega, rfl⟩, if_neg h]

/-- Two epochs over three samples of one pixel and two classes, the third sample only in the last batch of the last epoch. -/
noncomputable def exLoader (e : ℕ) : List (List (ℕ × LogReg.Sample 1 2)) :=
  if e = 0 then [[(0, (fun _ => 1, 0)), (1, (fun _ => 2, 1))]] else [[(1, (fun _ => 2, 1))], [(0, (fun _ => 1, 0)), (2, (fun _ => 3, 1))]]

example : (∀ e < 2, ∀ b ∈ exLoader e, b ≠ []) ∧ (0 < 2 ∧ exLoader 0 ≠ []) ∧
    (∀ s ∈ (stepsOf (1 / 100) LogReg.sampleLoss ((List.range 2).map exLoader) 0).dropLast, ∀ z ∈ s.batch, z.1 ≠ 2) := by
  refine ⟨?_, ⟨by norm_num, by simp [exLoader]⟩, ?_⟩
  · intro e _ b hb
    unfold exLoader at hb
    split_ifs at hb <;> simp at hb
    · simp [hb]
    · rcases hb with rfl | rfl <;> simp
  · simp only [List.range_succ, List.range_zero, List.nil_append, List.map_cons, List.map_nil, exLoader, if_true, List.cons_append, stepsOf,
      one_ne_zero, if_false, List.append_nil, List.dropLast_cons_of_ne_nil (List.cons_ne_nil _ _), List.dropLast_singleton]
    intro s hs z hz
    simp only [List.mem_cons, List.not_mem_nil, or_false] at hs
    rcases hs with rfl | rfl
    · simp only [List.mem_cons, List.not_mem_nil, or_false] at hz
      rcases hz with rfl | rfl <;> norm_num
    · simp only [List.mem_cons, List.not_mem_nil, or_false] at hz
      subst hz
      norm_num

end Verif.Train
