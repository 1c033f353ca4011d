import Verif.Attr.GradModel
import Mathlib.Tactic.Common
import Mathlib.Algebra.Order.Group.Nat

/-!
# C220: which scores carry a gradient history, and what works under `torch.no_grad()`
-/

namespace Verif.GradMode

open Verif

variable {B : Type}

/-! ## Specification -/

/-- Whether the scores carry a gradient history: `g` is the gradient mode of `attribute`, `cachedDep ck` says
whether the cached training gradients of checkpoint `ck` carry one (DataInf). -/
def Attached (kind : Kind) (g : Bool) (T : Task B) (m : Option Relatif) (cachedDep : ℕ → Prop) (train test : List B) : Prop :=
  g = true ∧ ∃ ck < T.nck, ∃ b ∈ train, ∃ c ∈ test,
    match kind with
    | .arnoldi => False
    | .explicit | .cg | .lissa => T.lossDep ck b = true ∨ (m = some .l ∧ T.targetDep ck b = true)
    | .datainf => T.lossDep ck b = true ∨ T.targetDep ck c = true ∨ cachedDep ck
    | .ekfac => T.lossDep ck b = true ∨ T.targetDep ck c = true

/-- The cached gradients carry a history: `cache` was called with gradients on, and the gradient of one of the
batches it used depends on the weights. -/
def CachedDep (gc : Bool) (T : Task B) (k : ℕ) (full : List B) (ck : ℕ) : Prop :=
  gc = true ∧ ∃ f ∈ full.take k, T.lossDep ck f = true

/-- The numbers of rows and columns. -/
def Ten.sizes (t : Ten) : ℕ × ℕ := (t.rows, t.cols)

/-! ## Lemmas -/

theorem foldlM_flag {β : Type} {F : Ten → β → Except Err Ten} {flag : β → Bool} (l : List β)
    (h : ∀ out, ∀ x ∈ l, ∀ out', F out x = .ok out' → out'.tracked = (out.tracked || flag x) ∧ out'.sizes = out.sizes) :
    ∀ out out', l.foldlM F out = .ok out' → out'.tracked = (out.tracked || l.any flag) ∧ out'.sizes = out.sizes := by
  induction l with
  | nil =>
    intro out out' ho
    simp only [List.foldlM_nil, pure, Except.pure, Except.ok.injEq] at ho
    subst ho; simp
  | cons x l ih =>
    intro out out' ho
    rw [List.foldlM_cons] at ho
    rcases hx : F out x with e | o1
    · rw [hx] at ho; simp [bind, Except.bind] at ho
    · rw [hx] at ho
      simp only [bind, Except.bind] at ho
      have h1 := h out x (by simp) o1 hx
      have h2 := ih (fun o y hy => h o y (by simp [hy])) o1 out' ho
      refine ⟨?_, h2.2.trans h1.2⟩
      rw [h2.1, h1.1]; simp [Bool.or_assoc]

theorem bind_map_congr {α α' β β' γ δ : Type} {x : Except Err α} {x' : Except Err α'} {f : α → γ} {f' : α' → γ}
    {k : α → Except Err β} {k' : α' → Except Err β'} {h : β → δ} {h' : β' → δ}
    (hx : x.map f = x'.map f') (hk : ∀ a a', f a = f' a' → (k a).map h = (k' a').map h') :
    (x >>= k).map h = (x' >>= k').map h' := by
  rcases x with e | a <;> rcases x' with e' | a' <;> simp [Except.map] at hx
  · subst hx; rfl
  · exact hk a a' hx

theorem foldlM_map_congr {α α' β γ : Type} {F : α → β → Except Err α} {F' : α' → β → Except Err α'} {f : α → γ} {f' : α' → γ}
    (h : ∀ a a' x, f a = f' a' → (F a x).map f = (F' a' x).map f') (l : List β) :
    ∀ a a', f a = f' a' → (l.foldlM F a).map f = (l.foldlM F' a').map f' := by
  induction l with
  | nil => intro a a' ha; simp [pure, Except.pure, Except.map, ha]
  | cons x l ih =>
    intro a a' ha
    rw [List.foldlM_cons, List.foldlM_cons]
    exact bind_map_congr (h a a' x ha) ih

/-- The Hessian attributors' loop gives a tensor without history, or nothing for an empty loader. -/
theorem ihvpLoop_detached (g : Bool) (T : Task B) (test : Ten) (l : List B) : ∀ acc : Option Ten, (∀ a, acc = some a → a.tracked = false) →
    ∀ t, ihvpLoop g T test l acc = some t → t.tracked = false := by
  induction l with
  | nil => intro acc h t ht; exact h t ht
  | cons b l ih =>
    intro acc h t ht
    refine ih _ ?_ t ht
    intro a ha
    rcases acc with _ | a0
    · simp only [Option.some.injEq] at ha; subst ha; rfl
    · simp only [Option.some.injEq] at ha; subst ha
      simp [addInto, Ten.detach, h a0 rfl]

theorem ihvpLoop_sizes (g g' : Bool) (T : Task B) (test test' : Ten) (hs : test.sizes = test'.sizes) (l : List B) : ∀ acc acc' : Option Ten,
    acc.map Ten.sizes = acc'.map Ten.sizes → (ihvpLoop g T test l acc).map Ten.sizes = (ihvpLoop g' T test' l acc').map Ten.sizes := by
  induction l with
  | nil => intro acc acc' h; exact h
  | cons b l ih =>
    intro acc acc' h
    refine ih _ _ ?_
    simp only [Ten.sizes, Prod.mk.injEq] at hs
    rcases acc with _ | a <;> rcases acc' with _ | a' <;> simp [Ten.sizes] at h
    · simp [Ten.sizes, Ten.detach, op2, hs.1]
    · simp [Ten.sizes, addInto, h]

/-- Whether a block of scores carries a history. -/
def blockFlag (kind : Kind) (T : Task B) (m : Option Relatif) (rep : ℕ → Bool) (ck : ℕ) (b c : B) : Bool :=
  match kind with
  | .arnoldi => false
  | .explicit | .cg | .lissa => T.lossDep ck b || (m == some .l && T.targetDep ck b)
  | .datainf => T.lossDep ck b || T.targetDep ck c || rep ck
  | .ekfac => T.lossDep ck b || T.targetDep ck c

/-- The flag of the cached gradients in a state. -/
def repFlag (s : St B) (ck : ℕ) : Bool :=
  match s.reps with
  | none => false
  | some r => match r[ck]? with
    | none => false
    | some t => t.tracked

theorem transformTest_flag {kind : Kind} {g : Bool} {T : Task B} {s : St B} {ck : ℕ} {test t : Ten}
    (h : transformTest kind g T s ck test = .ok (some t)) :
    t.tracked = (match kind with
      | .datainf => g && (test.tracked || repFlag s ck)
      | .ekfac => g && test.tracked
      | _ => false) := by
  cases kind
  case explicit | cg | lissa =>
    simp only [transformTest, Except.ok.injEq] at h
    simpa using ihvpLoop_detached g T test _ none (by simp) t h
  case arnoldi =>
    simp only [transformTest] at h
    split at h
    · simp only [Except.ok.injEq, Option.some.injEq] at h; subst h; rfl
    · simp at h
  case datainf =>
    simp only [transformTest] at h
    rcases hr : s.reps with _ | r
    · rw [hr] at h; simp at h
    · rw [hr] at h
      simp only at h
      rcases hc : r[ck]? with _ | x
      · rw [hc] at h; simp at h
      · rw [hc] at h
        simp only [Except.ok.injEq, Option.some.injEq] at h
        subst h
        simp [op2, repFlag, hr, hc]
  case ekfac =>
    simp only [transformTest] at h
    split at h
    · simp at h
    · rcases hr : s.stats with _ | _ | _ <;> rw [hr] at h <;> simp at h
      subst h; rfl

theorem transformTrain_flag {kind : Kind} {g : Bool} {T : Task B} {s : St B} {train t : Ten}
    (h : transformTrain kind g T s train = .ok t) :
    t.tracked = (match kind with | .arnoldi => false | _ => train.tracked) := by
  cases kind
  case arnoldi =>
    simp only [transformTrain] at h
    split at h
    · simp only [Except.ok.injEq] at h; subst h; rfl
    · simp at h
  all_goals simp only [transformTrain, Except.ok.injEq] at h; subst h; rfl

theorem denom_flag {kind : Kind} {g : Bool} {T : Task B} {s : St B} {ck : ℕ} {b : B} {m : Relatif} {d : Ten}
    (h : denom kind g T s ck (trainRep g T ck b) (if m = .l then some (testRep g T ck b) else none) m = .ok d) :
    d.tracked = (match kind with
      | .explicit | .cg | .lissa => g && (m == .l && T.targetDep ck b)
      | _ => false) := by
  cases kind
  case explicit | cg | lissa =>
    simp only [denom, transformTest, bind, Except.bind] at h
    rcases ht : ihvpLoop g T (trainRep g T ck b) (s.full.getD []) none with _ | tr
    all_goals rw [ht] at h
    all_goals rcases m with _ | _ | _
    all_goals simp at h
    all_goals subst h
    · simp [op1, testRep, gradRep, getParam]
    · have := ihvpLoop_detached g T _ _ none (by simp) _ ht
      simp [op2, testRep, gradRep, getParam, this]
    · have := ihvpLoop_detached g T _ _ none (by simp) _ ht
      simp [op1, this]
  all_goals simp only [denom, Except.ok.injEq] at h; subst h; rfl

theorem testStep_flag {kind : Kind} {g : Bool} {T : Task B} {s : St B} {ck : ℕ} {train : Ten} {den : Option Ten} {out out' : Ten} {c : B}
    (h : testStep kind g T s ck train den out c = .ok out') :
    out'.tracked = (out.tracked || (g && (train.tracked || (den.any (·.tracked)) ||
      (match kind with
        | .datainf => T.targetDep ck c || repFlag s ck
        | .ekfac => T.targetDep ck c
        | _ => false)))) ∧ out'.sizes = out.sizes := by
  simp only [testStep, bind, Except.bind] at h
  rcases ht : transformTest kind g T s ck (testRep g T ck c) with e | t
  · rw [ht] at h; simp at h
  · rw [ht] at h
    rcases t with _ | t
    · simp at h
    · have hf := transformTest_flag ht
      rcases den with _ | d <;> simp only [Except.ok.injEq] at h <;> subst h <;>
        cases kind <;> cases g <;>
        simp_all [addInto, matmulT, op2, Ten.sizes, testRep, gradRep, getParam, Bool.or_assoc, Bool.or_comm, Bool.or_left_comm]

theorem trainStep_flag {kind : Kind} {g : Bool} {T : Task B} {s : St B} {m : Option Relatif} {test : List B} {ck : ℕ} {out out' : Ten} {b : B}
    (h : trainStep kind g T s m test ck out b = .ok out') :
    out'.tracked = (out.tracked || test.any (fun c : B => g && blockFlag kind T m (repFlag s) ck b c)) ∧ out'.sizes = out.sizes := by
  simp only [trainStep, bind, Except.bind, pure, Except.pure] at h
  rcases m with _ | m
  · simp only at h
    rcases ht : transformTrain kind g T s (trainRep g T ck b) with e | rep
    · rw [ht] at h; simp at h
    · rw [ht] at h
      simp only at h
      have hf := transformTrain_flag ht
      refine foldlM_flag test ?_ out out' h
      intro o c _ o' ho
      have := testStep_flag ho
      refine ⟨?_, this.2⟩
      rw [this.1, hf]
      cases kind <;> cases g <;> simp [blockFlag, trainRep, gradRep, getParam, Bool.or_assoc]
  · simp only at h
    rcases hd : denom kind g T s ck (trainRep g T ck b) (if m = .l then some (testRep g T ck b) else none) m with e | d
    · rw [hd] at h; simp at h
    · rw [hd] at h
      simp only at h
      have hdf := denom_flag hd
      rcases ht : transformTrain kind g T s (trainRep g T ck b) with e | rep
      · rw [ht] at h; simp at h
      · rw [ht] at h
        simp only at h
        have hf := transformTrain_flag ht
        refine foldlM_flag test ?_ out out' h
        intro o c _ o' ho
        have := testStep_flag ho
        refine ⟨?_, this.2⟩
        rw [this.1, hf]
        cases kind <;> cases g <;> cases m <;> simp_all [blockFlag, trainRep, gradRep, getParam, Bool.or_assoc]

theorem attribute_flag {kind : Kind} {g : Bool} {T : Task B} {m : Option Relatif} {train test : List B} {s : St B} {out : Ten}
    (h : attributeIF kind g T m train test s = .ok out) :
    out.tracked = (List.range T.nck).any (fun ck : ℕ => train.any (fun b : B => test.any (fun c : B =>
      g && blockFlag kind T m (repFlag s) ck b c))) ∧ out.sizes = ((train.map T.size).sum, (test.map T.size).sum) := by
  have := foldlM_flag (List.range T.nck) (fun o ck _ o' ho => foldlM_flag train (fun o b _ o' ho => trainStep_flag ho) o o' ho) _ _ h
  have hr : repFlag ({ s with full := some (s.full.getD train) } : St B) = repFlag s := rfl
  rw [hr] at this
  simpa [fresh, Ten.sizes] using this

theorem attached_iff (kind : Kind) (g : Bool) (T : Task B) (m : Option Relatif) (rep : ℕ → Bool) (P : ℕ → Prop) (train test : List B)
    (hP : ∀ ck < T.nck, rep ck = true ↔ P ck) :
    ((List.range T.nck).any (fun ck : ℕ => train.any (fun b : B => test.any (fun c : B => g && blockFlag kind T m rep ck b c))) = true) ↔
      Attached kind g T m P train test := by
  simp only [List.any_eq_true, List.mem_range, Attached, Bool.and_eq_true]
  constructor
  · rintro ⟨ck, hck, b, hb, c, hc, hg, hf⟩
    refine ⟨hg, ck, hck, b, hb, c, hc, ?_⟩
    cases kind <;> simp_all [blockFlag, or_assoc]
  · rintro ⟨hg, ck, hck, b, hb, c, hc, hf⟩
    refine ⟨ck, hck, b, hb, c, hc, hg, ?_⟩
    cases kind <;> simp_all [blockFlag, or_assoc]

theorem mapM_get {α β : Type} {f : α → Except Err β} (l : List α) : ∀ r : List β, l.mapM f = .ok r →
    ∀ (i : ℕ) (x : α), l[i]? = some x → ∃ y, f x = .ok y ∧ r[i]? = some y := by
  induction l with
  | nil => intro r _ i x h; simp at h
  | cons a l ih =>
    intro r hr i x hx
    rw [List.mapM_cons] at hr
    rcases ha : f a with e | y
    · rw [ha] at hr; simp [bind, Except.bind] at hr
    · rcases hl : l.mapM f with e | ys
      · rw [ha, hl] at hr; simp [bind, Except.bind] at hr
      · rw [ha, hl] at hr
        simp only [bind, Except.bind, pure, Except.pure, Except.ok.injEq] at hr
        subst hr
        rcases i with _ | i
        · simp only [List.getElem?_cons_zero, Option.some.injEq] at hx
          subst hx
          exact ⟨y, ha, by simp⟩
        · simp only [List.getElem?_cons_succ] at hx ⊢
          exact ih ys hl i x hx

theorem cat_flag {g : Bool} {l : List Ten} {t : Ten} (h : cat g l = .ok t) : t.tracked = (g && l.any (·.tracked)) := by
  rcases l with _ | ⟨a, l⟩
  · simp [cat] at h
  · simp only [cat, Except.ok.injEq] at h; subst h; rfl

/-- What `cache` of DataInf stores. -/
theorem cache_rep {gc : Bool} {T : Task B} {k : ℕ} {full : List B} {s0 s : St B} (h : cache .datainf gc T k full s0 = .ok s) (ck : ℕ) (hck : ck < T.nck) :
    repFlag s ck = true ↔ CachedDep gc T k full ck := by
  simp only [cache, bind, Except.bind, pure, Except.pure] at h
  rcases hm : (List.range T.nck).mapM (fun ck : ℕ => cat gc ((full.take k).map (trainRep gc T ck))) with e | reps
  · rw [hm] at h; simp at h
  · rw [hm] at h
    simp only [Except.ok.injEq] at h
    subst h
    obtain ⟨y, hy, hr⟩ := mapM_get _ reps hm ck ck (by simp [hck])
    have := cat_flag hy
    rw [List.any_map] at this
    simp only [repFlag, hr, this, CachedDep]
    cases gc <;> simp [trainRep, gradRep, getParam, -List.take_eq_nil_iff]

/-! ## The scores of the inner-product attributors -/

/-- **C220 (scores).** After `cache` (with gradients on or off) from any earlier state, the scores that `attribute`
returns have the sizes of the two sets and carry a gradient history exactly as specified: only if gradients are on in
`attribute`; never for Arnoldi; for the three Hessian attributors when the gradient of a training loss depends on the
weights (or, normalized with `"l"`, that of the target function at a training sample); for DataInf and EK-FAC also when
that of the target function at a test sample does; for DataInf also through the cached gradients. -/
theorem C220_scores (kind : Kind) (gc g : Bool) (T : Task B) (k : ℕ) (full train test : List B) (m : Option Relatif) (s0 s : St B) (out : Ten)
    (hc : cache kind gc T k full s0 = .ok s) (h : attributeIF kind g T m train test s = .ok out) :
    (out.tracked = true ↔ Attached kind g T m (CachedDep gc T k full) train test) ∧
      out.rows = (train.map T.size).sum ∧ out.cols = (test.map T.size).sum := by
  have hf := attribute_flag h
  refine ⟨?_, by simpa [Ten.sizes] using hf.2⟩
  rw [hf.1]
  by_cases hk : kind = .datainf
  · subst hk
    exact attached_iff _ g T m _ _ train test (fun ck hck => cache_rep hc ck hck)
  · have := attached_iff kind g T m (repFlag s) (fun ck : ℕ => repFlag s ck = true) train test (fun _ _ => Iff.rfl)
    rw [this]
    unfold Attached
    cases kind <;> simp_all

/-- **C220 (without `cache`).** The three Hessian attributors, in any state, with or without an earlier `cache`. -/
theorem C220_hessian (kind : Kind) (hk : kind = .explicit ∨ kind = .cg ∨ kind = .lissa) (g : Bool) (T : Task B) (train test : List B) (m : Option Relatif) (s : St B) (out : Ten)
    (h : attributeIF kind g T m train test s = .ok out) :
    out.tracked = true ↔ g = true ∧ test ≠ [] ∧ ∃ ck < T.nck, ∃ b ∈ train, T.lossDep ck b = true ∨ (m = some .l ∧ T.targetDep ck b = true) := by
  have hf := attribute_flag h
  have := attached_iff kind g T m (repFlag s) (fun ck : ℕ => repFlag s ck = true) train test (fun _ _ => Iff.rfl)
  rw [hf.1, this]
  have key : (∃ c : B, c ∈ test) ↔ test ≠ [] := by
    constructor
    · rintro ⟨c, hc⟩ rfl; simp at hc
    · exact List.exists_mem_of_ne_nil test
  unfold Attached
  rcases hk with rfl | rfl | rfl <;> rw [← key] <;> constructor
  all_goals first
    | (rintro ⟨hg, ck, hck, b, hb, c, hc, hd⟩; exact ⟨hg, ⟨c, hc⟩, ck, hck, b, hb, hd⟩)
    | (rintro ⟨hg, ⟨c, hc⟩, ck, hck, b, hb, hd⟩; exact ⟨hg, ck, hck, b, hb, c, hc, hd⟩)

/-- **C220 (no history under `torch.no_grad()`).** Whatever was cached and how, scores computed with gradients off
carry no history. -/
theorem C220_no_grad (kind : Kind) (T : Task B) (train test : List B) (m : Option Relatif) (s : St B) (out : Ten)
    (h : attributeIF kind false T m train test s = .ok out) : out.tracked = false := by
  rw [(attribute_flag h).1, Bool.eq_false_iff]
  simp

/-- Two states that agree up to the gradient history of the cached gradients. -/
def Same (s s' : St B) : Prop :=
  s.full = s'.full ∧ s.projectors = s'.projectors ∧ s.reps.map (·.map Ten.sizes) = s'.reps.map (·.map Ten.sizes) ∧ s.stats = s'.stats

theorem transformTest_sizes (kind : Kind) (g g' : Bool) (T : Task B) (s s' : St B) (hs : Same s s') (ck : ℕ) (test test' : Ten)
    (ht : test.sizes = test'.sizes) :
    (transformTest kind g T s ck test).map (Option.map Ten.sizes) = (transformTest kind g' T s' ck test').map (Option.map Ten.sizes) := by
  obtain ⟨h1, h2, h3, h4⟩ := hs
  have htr : test.rows = test'.rows := by simp [Ten.sizes] at ht; exact ht.1
  cases kind
  case explicit | cg | lissa =>
    simp only [transformTest, Except.map, Except.ok.injEq, h1]
    exact ihvpLoop_sizes g g' T test test' ht _ none none rfl
  case arnoldi =>
    simp only [transformTest, h2]
    split <;> simp [Except.map, Ten.sizes, Ten.detach, op1, htr]
  case datainf =>
    simp only [transformTest]
    rcases hr : s.reps with _ | r <;> rcases hr' : s'.reps with _ | r' <;> rw [hr, hr'] at h3 <;> simp at h3
    · have hc : (r[ck]?).map Ten.sizes = (r'[ck]?).map Ten.sizes := by rw [← List.getElem?_map, ← List.getElem?_map, h3]
      rcases hx : r[ck]? with _ | x <;> rcases hx' : r'[ck]? with _ | x' <;> rw [hx, hx'] at hc <;> simp at hc
      · simp only [hx, hx', Except.map]
      · simp only [hx, hx']
        simp [Except.map, Ten.sizes, op2, htr]
  case ekfac =>
    simp only [transformTest, h4]
    split
    · rfl
    · rcases s'.stats with _ | _ | _ <;> simp [Except.map, Ten.sizes, op1, htr]

theorem transformTrain_sizes (kind : Kind) (g g' : Bool) (T : Task B) (s s' : St B) (hs : Same s s') (train train' : Ten)
    (ht : train.sizes = train'.sizes) :
    (transformTrain kind g T s train).map Ten.sizes = (transformTrain kind g' T s' train').map Ten.sizes := by
  have htr : train.rows = train'.rows := by simp [Ten.sizes] at ht; exact ht.1
  cases kind
  case arnoldi =>
    simp only [transformTrain, hs.2.1]
    split <;> simp [Except.map, Ten.sizes, Ten.detach, op1, htr]
  all_goals simp only [transformTrain, Except.map, ht]

theorem denom_sizes (kind : Kind) (g g' : Bool) (T : Task B) (s s' : St B) (hs : Same s s') (ck : ℕ) (b : B) (m : Relatif) :
    (denom kind g T s ck (trainRep g T ck b) (if m = .l then some (testRep g T ck b) else none) m).map Ten.sizes =
      (denom kind g' T s' ck (trainRep g' T ck b) (if m = .l then some (testRep g' T ck b) else none) m).map Ten.sizes := by
  have hr : (trainRep g T ck b).sizes = (trainRep g' T ck b).sizes := rfl
  cases kind
  case explicit | cg | lissa =>
    refine bind_map_congr (transformTest_sizes _ g g' T s s' hs ck _ _ hr) ?_
    intro a a' ha
    rcases a with _ | a <;> rcases a' with _ | a' <;> simp at ha <;> cases m <;> rfl
  all_goals rfl

theorem testStep_sizes (kind : Kind) (g g' : Bool) (T : Task B) (s s' : St B) (hs : Same s s') (ck : ℕ) (train train' : Ten)
    (den den' : Option Ten) (hd : den.map Ten.sizes = den'.map Ten.sizes) (out out' : Ten) (c : B) (ho : out.sizes = out'.sizes) :
    (testStep kind g T s ck train den out c).map Ten.sizes = (testStep kind g' T s' ck train' den' out' c).map Ten.sizes := by
  refine bind_map_congr (transformTest_sizes kind g g' T s s' hs ck _ (testRep g' T ck c) rfl) ?_
  intro a a' ha
  rcases a with _ | a <;> rcases a' with _ | a' <;> simp at ha
  · rfl
  · simp [Ten.sizes] at ho
    rcases den with _ | d <;> rcases den' with _ | d' <;> simp at hd <;> simp [Except.map, Ten.sizes, addInto, ho]

theorem trainStep_sizes (kind : Kind) (g g' : Bool) (T : Task B) (s s' : St B) (hs : Same s s') (m : Option Relatif) (test : List B) (ck : ℕ)
    (out out' : Ten) (b : B) (ho : out.sizes = out'.sizes) :
    (trainStep kind g T s m test ck out b).map Ten.sizes = (trainStep kind g' T s' m test ck out' b).map Ten.sizes := by
  rcases m with _ | m
  · refine bind_map_congr (f := Ten.sizes) (f' := Ten.sizes) (transformTrain_sizes kind g g' T s s' hs _ _ rfl) ?_
    intro a a' _
    exact foldlM_map_congr (fun o o' c h => testStep_sizes kind g g' T s s' hs ck a a' none none rfl o o' c h) test out out' ho
  · simp only [trainStep]
    refine bind_map_congr (denom_sizes kind g g' T s s' hs ck b m) ?_
    intro d d' hd
    simp only [pure_bind]
    refine bind_map_congr (f := Ten.sizes) (f' := Ten.sizes) (transformTrain_sizes kind g g' T s s' hs _ _ rfl) ?_
    intro a a' _
    exact foldlM_map_congr (fun o o' c h => testStep_sizes kind g g' T s s' hs ck a a' (some d) (some d') (by simp [hd]) o o' c h) test out out' ho

/-- **C220 (same calls succeed).** Except for the history the gradient mode makes no difference to `attribute`: with
what was cached in any modes, it returns in one mode iff it returns in the other, with the same sizes, and raises the
same exception otherwise. -/
theorem C220_modes (kind : Kind) (g g' : Bool) (T : Task B) (train test : List B) (m : Option Relatif) (s s' : St B) (hs : Same s s') :
    (attributeIF kind g T m train test s).map Ten.sizes = (attributeIF kind g' T m train test s').map Ten.sizes := by
  refine foldlM_map_congr ?_ _ _ _ rfl
  intro o o' ck h
  refine foldlM_map_congr ?_ train o o' h
  intro o o' b h
  refine trainStep_sizes kind g g' T _ _ ?_ m test ck o o' b h
  obtain ⟨h1, h2, h3, h4⟩ := hs
  exact ⟨by simp [h1], h2, h3, h4⟩

theorem mapM_sizes {α : Type} {F F' : α → Except Err Ten} (h : ∀ x, (F x).map Ten.sizes = (F' x).map Ten.sizes) (l : List α) :
    (l.mapM F).map (List.map Ten.sizes) = (l.mapM F').map (List.map Ten.sizes) := by
  induction l with
  | nil => rfl
  | cons a l ih =>
    rw [List.mapM_cons, List.mapM_cons]
    refine bind_map_congr (h a) ?_
    intro x x' hx
    refine bind_map_congr ih ?_
    intro y y' hy
    simp [pure, Except.pure, Except.map, hx, hy]

/-- **C220 (`cache` in either mode).** `cache` of every attributor but EK-FAC does the same in both modes, up to the
history of what it stores: it raises in both, or the two states agree. -/
theorem C220_cache (kind : Kind) (hk : kind ≠ .ekfac) (g g' : Bool) (T : Task B) (k : ℕ) (full : List B) (s0 : St B) :
    (∃ e, cache kind g T k full s0 = .error e ∧ cache kind g' T k full s0 = .error e) ∨
      ∃ s s', cache kind g T k full s0 = .ok s ∧ cache kind g' T k full s0 = .ok s' ∧ Same s s' := by
  cases kind
  case explicit | cg | lissa => exact Or.inr ⟨_, _, rfl, rfl, rfl, rfl, rfl, rfl⟩
  case arnoldi =>
    simp only [cache]
    split
    · exact Or.inl ⟨_, rfl, rfl⟩
    · exact Or.inr ⟨_, _, rfl, rfl, rfl, rfl, rfl, rfl⟩
  case datainf =>
    have hcat : ∀ ck : ℕ, (cat g ((full.take k).map (trainRep g T ck))).map Ten.sizes = (cat g' ((full.take k).map (trainRep g' T ck))).map Ten.sizes := by
      intro ck
      rcases full.take k with _ | ⟨a, l⟩
      · rfl
      · simp [cat, Except.map, Ten.sizes, trainRep, gradRep, getParam, Function.comp_def]
    have hm := mapM_sizes hcat (List.range T.nck)
    simp only [cache, bind, Except.bind, pure, Except.pure]
    rcases h1 : (List.range T.nck).mapM (fun ck : ℕ => cat g ((full.take k).map (trainRep g T ck))) with e | r <;>
      rcases h2 : (List.range T.nck).mapM (fun ck : ℕ => cat g' ((full.take k).map (trainRep g' T ck))) with e' | r' <;>
      rw [h1, h2] at hm <;> simp [Except.map] at hm
    · subst hm; exact Or.inl ⟨_, rfl, rfl⟩
    · exact Or.inr ⟨_, _, rfl, rfl, rfl, rfl, by simp [hm], rfl⟩
  case ekfac => exact absurd rfl hk

theorem ekfacPass_true (T : Task B) (full : List B) : ekfacPass true T full = .ok () := by
  unfold ekfacPass
  induction full with
  | nil => rfl
  | cons b l ih =>
    rw [List.forM_eq_forM] at ih ⊢
    rw [List.forM_cons, ih]
    simp [retainGrad, backward, op1, getParam, bind, Except.bind]

theorem ekfacPass_false (T : Task B) (full : List B) (h : full ≠ []) : ekfacPass false T full = .error .runtimeError := by
  rcases full with _ | ⟨b, l⟩
  · exact absurd rfl h
  · simp [ekfacPass, retainGrad, op1, bind, Except.bind]

/-- **C220 (EK-FAC's `cache`).** With gradients on it succeeds (as far as gradients are concerned); with gradients off
it raises RuntimeError as soon as there is a batch. -/
theorem C220_ekfac (g : Bool) (T : Task B) (k : ℕ) (full : List B) (s0 : St B) (h : full ≠ []) :
    cache .ekfac g T k full s0 = if g then .ok { s0 with full := some full, stats := some true } else .error .runtimeError := by
  cases g
  · simp [cache, ekfacPass_false T full h, bind, Except.bind]
  · have : full.isEmpty = false := by simpa using h
    simp [cache, ekfacPass_true, bind, Except.bind, pure, Except.pure, this]

/-! ## The other attributors -/

theorem foldl_inv {α β : Type} {P : α → Prop} {f : α → β → α} (l : List β) (h : ∀ a, ∀ x ∈ l, P a → P (f a x)) : ∀ a, P a → P (l.foldl f a) := by
  induction l with
  | nil => intro a ha; exact ha
  | cons x l ih => intro a ha; exact ih (fun a y hy => h a y (by simp [hy])) _ (h a x (by simp) ha)

/-- **C220 (TracIn).** The scores carry no history in either mode, and have the sizes of the two sets. -/
theorem C220_tracin (g : Bool) (T : Task B) (train test : List B) :
    tracin g T train test = ⟨(train.map T.size).sum, (test.map T.size).sum, false⟩ := by
  unfold tracin
  refine foldl_inv (P := fun t : Ten => t = ⟨(train.map T.size).sum, (test.map T.size).sum, false⟩) _ ?_ _ rfl
  intro a ck _ ha
  refine foldl_inv (P := fun t : Ten => t = ⟨(train.map T.size).sum, (test.map T.size).sum, false⟩) _ ?_ _ ha
  intro a b _ ha
  refine foldl_inv (P := fun t : Ten => t = ⟨(train.map T.size).sum, (test.map T.size).sum, false⟩) _ ?_ _ ha
  intro a c _ ha
  subst ha
  simp [addInto, Ten.detach]

theorem foldlM_inv {α β : Type} {P : α → Prop} {F : α → β → Except Err α} (l : List β) (h : ∀ a x a', P a → F a x = .ok a' → P a') :
    ∀ a a', P a → l.foldlM F a = .ok a' → P a' := by
  induction l with
  | nil =>
    intro a a' ha ho
    simp only [List.foldlM_nil, pure, Except.pure, Except.ok.injEq] at ho
    subst ho; exact ha
  | cons x l ih =>
    intro a a' ha ho
    rw [List.foldlM_cons] at ho
    rcases hx : F a x with e | a1
    · rw [hx] at ho; simp [bind, Except.bind] at ho
    · rw [hx] at ho
      exact ih a1 a' (h a x a1 ha hx) ho

theorem cat_untracked {g : Bool} {l : List Ten} (hl : ∀ t ∈ l, t.tracked = false) {t : Ten} (h : cat g l = .ok t) : t.tracked = false := by
  have : l.any (·.tracked) = false := by
    rw [Bool.eq_false_iff, ne_eq, List.any_eq_true]
    rintro ⟨x, hx, h1⟩
    rw [hl x hx] at h1; simp at h1
  rw [cat_flag h, this]; simp

/-- **C220 (TRAK).** The same for TRAK. -/
theorem C220_trak (g : Bool) (T : Task B) (train test : List B) (out : Ten) (h : trak g T train test = .ok out) :
    out.tracked = false := by
  refine foldlM_inv (P := fun t : Ten => t.tracked = false) (List.range T.nck) ?_ _ _ rfl h
  · intro o ck o' hp ho
    simp only [trakStep, bind, Except.bind, pure, Except.pure, trakGrads] at ho
    rcases h1 : cat g (train.map fun b : B => (op1 g (trainRep g T ck b).rows (trainRep g T ck b).cols (trainRep g T ck b)).detach) with e | phi
    · rw [h1] at ho; simp at ho
    · rcases h2 : cat g (train.map fun b : B => (op1 g (T.size b) 1 (getParam g T)).detach) with e | q
      · rw [h1, h2] at ho; simp at ho
      · rcases h3 : cat g (test.map fun b : B => (op1 g (testRep g T ck b).rows (testRep g T ck b).cols (testRep g T ck b)).detach) with e | psi
        · rw [h1, h2, h3] at ho; simp at ho
        · rw [h1, h2, h3] at ho
          simp only [Except.ok.injEq] at ho
          have hd : ∀ (l : List B) (F : B → Ten), ∀ t ∈ l.map (fun b : B => (F b).detach), t.tracked = false := by
            intro l F t ht
            simp only [List.mem_map] at ht
            obtain ⟨b, _, rfl⟩ := ht
            rfl
          have e1 := cat_untracked (hd train _) h1
          have e2 := cat_untracked (hd train _) h2
          have e3 := cat_untracked (hd test _) h3
          subst ho
          simp [op2, e1, e2, e3, hp]

/-- **C220 (RPS).** The scores of RPS carry no history in either mode. -/
theorem C220_rps (g : Bool) (epochs stop classes : ℕ) (T : Task B) (train test : List B) (theta : Option Ten)
    (ht : ∀ t, theta = some t → t.tracked = false) (out : Ten) (h : rps g epochs stop classes T train test theta = .ok out) :
    out.tracked = false := by
  simp only [rps, bind, Except.bind, pure, Except.pure] at h
  have hd : ∀ (l : List B), ∀ t ∈ l.map (fun b : B => fresh (T.size b) T.p), t.tracked = false := by
    intro l t ht
    simp only [List.mem_map] at ht
    obtain ⟨b, _, rfl⟩ := ht
    rfl
  rcases h1 : cat g (train.map fun b : B => fresh (T.size b) T.p) with e | x
  · rw [h1] at h; simp at h
  · rcases h2 : cat g (test.map fun b : B => fresh (T.size b) T.p) with e | x'
    · rw [h1, h2] at h
      rcases theta with _ | t
      · rcases hf : finetune g epochs stop classes T.p with e | t <;> rw [hf] at h <;> simp at h
      · simp at h
    · rw [h1, h2] at h
      have e1 := cat_untracked (hd train) h1
      have e2 := cat_untracked (hd test) h2
      rcases theta with _ | t
      · rcases hf : finetune g epochs stop classes T.p with e | t <;> rw [hf] at h <;> simp at h
        have e3 : t.tracked = false := by
          simp only [finetune, bind, Except.bind] at hf
          split at hf
          · simp at hf
          · split at hf
            · simp at hf
            · simp only [Except.ok.injEq] at hf; subst hf; rfl
        subst h
        simp [op2, matmulT, gradRep, e1, e2, e3]
      · simp at h
        have e3 := ht t rfl
        subst h
        simp [op2, matmulT, gradRep, e1, e2, e3]

theorem finetune_eq (g : Bool) (epochs stop rows cols : ℕ) : finetune g epochs stop rows cols =
    if epochs = 0 then .error .unboundLocalError else if g then .ok ⟨rows, cols, false⟩ else .error .runtimeError := by
  have key : ∀ n : ℕ, (List.range n).forM (fun _ : ℕ => backward (op1 g 1 1 ⟨rows, cols, true⟩)) =
      if g ∨ n = 0 then .ok () else .error .runtimeError := by
    intro n
    cases g
    · rcases n with _ | n
      · rfl
      · rw [List.range_succ_eq_map, List.forM_eq_forM, List.forM_cons]
        simp [backward, op1, bind, Except.bind]
    · have hb : backward (op1 true 1 1 ⟨rows, cols, true⟩) = .ok () := rfl
      rw [hb, List.forM_eq_forM]
      generalize List.range n = l
      simp only [true_or, if_true]
      induction l with
      | nil => rfl
      | cons a l ih => rw [List.forM_cons, ih]; rfl
  simp only [finetune, key]
  rcases epochs with _ | n
  · simp [bind, Except.bind]
  · have : min (n + 1) (stop + 1) ≠ 0 := by omega
    cases g <;> simp [bind, Except.bind]

/-- **C220 (RPS with gradients off).** `cache` fine-tunes with `backward`: with gradients off it raises RuntimeError, and
so does `attribute` without `cache`; after `cache` with gradients on, `attribute` works in both modes. -/
theorem C220_rps_no_grad (g : Bool) (epochs stop classes : ℕ) (he : epochs ≠ 0) (T : Task B) (train test : List B)
    (h1 : train ≠ []) (h2 : test ≠ []) (t : Ten) :
    finetune g epochs stop classes T.p = (if g then .ok ⟨classes, T.p, false⟩ else .error .runtimeError) ∧
    (rps g epochs stop classes T train test none).isOk = g ∧
    (g = false → rps g epochs stop classes T train test none = .error .runtimeError) ∧
    (rps g epochs stop classes T train test (some t)).isOk = true := by
  obtain ⟨b, l, rfl⟩ := List.exists_cons_of_ne_nil h1
  obtain ⟨c, l', rfl⟩ := List.exists_cons_of_ne_nil h2
  have hf := finetune_eq g epochs stop classes T.p
  rw [if_neg he] at hf
  refine ⟨hf, ?_, ?_, ?_⟩
  · cases g <;> simp [rps, hf, cat, bind, Except.bind, pure, Except.pure, Except.isOk, Except.toBool]
  · rintro rfl
    simp [rps, hf, cat, bind, Except.bind]
  · simp [rps, cat, bind, Except.bind, pure, Except.pure, Except.isOk, Except.toBool]

theorem mapM_const_error {α β : Type} {f : α → Except Err β} {e : Err} (l : List α) (hl : l ≠ []) (h : ∀ x, f x = .error e) : l.mapM f = .error e := by
  obtain ⟨a, l, rfl⟩ := List.exists_cons_of_ne_nil hl
  rw [List.mapM_cons, h a]; rfl

theorem mapM_ok {α β : Type} {f : α → Except Err β} {F : α → β} (l : List α) (h : ∀ x, f x = .ok (F x)) : l.mapM f = .ok (l.map F) := by
  induction l with
  | nil => rfl
  | cons a l ih => rw [List.mapM_cons, h a, ih]; rfl

/-- **C220 (block-projected attributors).** Recording gradients (in `cache` and for the test set in `attribute`) works
with gradients on and raises RuntimeError with gradients off as soon as there is a batch; scores carry no history. -/
theorem C220_block (g : Bool) (T : Task B) (train test : List B) (h : test ≠ []) :
    (blockGrads g T test = if g then .ok (test.map fun b : B => fresh (T.size b) T.p) else .error .runtimeError) ∧
    ∀ gs, blockGrads true T train = .ok gs →
      block g T gs test = if g then .ok ⟨(train.map T.size).sum, (test.map T.size).sum, false⟩ else .error .runtimeError := by
  have key : ∀ l : List B, l ≠ [] → blockGrads g T l = if g then .ok (l.map fun b : B => fresh (T.size b) T.p) else .error .runtimeError := by
    intro l hl
    cases g
    · exact mapM_const_error l hl (fun x => rfl)
    · exact mapM_ok l (fun x => rfl)
  refine ⟨key test h, ?_⟩
  intro gs hgs
  have hgs' : gs = train.map fun b : B => fresh (T.size b) T.p := by
    have := mapM_ok (f := fun b : B => (do
      backward (op1 true 1 1 ⟨1, T.p, true⟩)
      pure (fresh (T.size b) T.p) : Except Err Ten)) (F := fun b : B => fresh (T.size b) T.p) train (fun x => rfl)
    unfold blockGrads at hgs
    rw [this] at hgs
    simpa using hgs.symm
  subst hgs'
  simp only [block, key test h]
  cases g
  · rfl
  · simp only [if_true, bind, Except.bind, pure, Except.pure, Except.ok.injEq]
    refine foldl_inv (P := fun t : Ten => t = ⟨(train.map T.size).sum, (test.map T.size).sum, false⟩) _ ?_ _ ?_
    · intro o a ha ho
      refine foldl_inv (P := fun t : Ten => t = ⟨(train.map T.size).sum, (test.map T.size).sum, false⟩) _ ?_ _ ho
      intro o c hc ho
      simp only [List.mem_map] at ha hc
      obtain ⟨x, _, rfl⟩ := ha
      obtain ⟨y, _, rfl⟩ := hc
      subst ho
      simp [addInto, matmulT, op2, fresh]
    · simp [fresh, Function.comp_def]

/-- **C220 (data value embeddings).** Recorded gradients and scores carry no history; recording and `attribute` raise
RuntimeError exactly when gradient factors are used with gradients off. -/
theorem C220_dvemb (factors g : Bool) (T : Task B) (emb : Ten) (he : emb.tracked = false) (test : List B) (h : test ≠ []) :
    (∀ b, dvGrads factors g T b = if factors && !g then .error .runtimeError else .ok ⟨T.size b, T.p, false⟩) ∧
    dvemb factors g T emb test = if factors && !g then .error .runtimeError else .ok ⟨emb.rows, (test.map T.size).sum, false⟩ := by
  have key : ∀ b, dvGrads factors g T b = if factors && !g then .error .runtimeError else .ok ⟨T.size b, T.p, false⟩ := by
    intro b
    cases factors <;> cases g <;> simp [dvGrads, backward, op1, bind, Except.bind, pure, Except.pure, fresh, gradRep, getParam, Ten.detach]
  refine ⟨key, ?_⟩
  by_cases hc : (factors && !g) = true
  · simp only [hc, if_true] at key ⊢
    simp only [dvemb, mapM_const_error test h key]
    rfl
  · simp only [hc, if_false, Bool.false_eq_true] at key ⊢
    simp only [dvemb, mapM_ok test key]
    obtain ⟨c, l, rfl⟩ := List.exists_cons_of_ne_nil h
    simp only [bind, Except.bind, List.map_cons, cat, pure, Except.pure, Except.ok.injEq, matmulT, op2, he]
    simp [Function.comp_def]

/-! ## The metrics -/

theorem forM_numpy {α : Type} {f : α → Except Err Unit} {x : Except Err Unit} (l : List α) (h : ∀ a ∈ l, f a = x) :
    l.forM f = if l = [] then .ok () else x := by
  rw [List.forM_eq_forM]
  induction l with
  | nil => rfl
  | cons a l ih =>
    rw [List.forM_cons, h a (by simp), ih (fun b hb => h b (by simp [hb]))]
    rcases x with e | u
    · simp [bind, Except.bind]
    · simp [bind, Except.bind]

/-- **C220 (LDS and leave-one-out correlation).** For shapes that fit, `lds` and `loo_corr` raise RuntimeError exactly
when gradients are on and the scores or the ground truth carry a history; otherwise they return. -/
theorem C220_correlations (g : Bool) (score gt : Ten) (indices : List (List ℕ)) (hc : 0 < score.cols) (hgt : score.cols ≤ gt.cols) :
    (indices ≠ [] → (∀ l ∈ indices, ∀ i ∈ l, i < score.rows) → gt.rows = indices.length →
      lds g score gt indices = if g && (score.tracked || gt.tracked) then .error .runtimeError else .ok ()) ∧
    (gt.rows = score.rows → 2 ≤ score.rows →
      looCorr g score gt = if g && (score.tracked || gt.tracked) then .error .runtimeError else .ok ()) := by
  have hr : List.range score.cols ≠ [] := by simp; omega
  constructor
  · intro hi hidx hrows
    have hi' : indices.length ≠ 0 := by simpa using hi
    have hany : indices.any (fun l : List ℕ => l.any (fun i : ℕ => decide (score.rows ≤ i))) = false := by
      rw [Bool.eq_false_iff, ne_eq, List.any_eq_true]
      rintro ⟨l, hl, h⟩
      rw [List.any_eq_true] at h
      obtain ⟨i, hi, h⟩ := h
      have := hidx l hl i hi
      simp at h; omega
    have hs : ∀ i ∈ List.range score.cols, (do
        if gt.cols ≤ i then throw .indexError
        numpy g (op1 g indices.length 1 (op1 g indices.length score.cols score))
        numpy g (op1 g gt.rows 1 gt)
        if indices.length ≠ gt.rows then throw .valueError : Except Err Unit) = if g && (score.tracked || gt.tracked) then .error .runtimeError else .ok () := by
      intro i hi
      rw [List.mem_range] at hi
      have h1 : ¬ gt.cols ≤ i := by omega
      have h2 : ¬ indices.length ≠ gt.rows := by omega
      cases g <;> rcases hs : score.tracked <;> rcases ht : gt.tracked <;>
        simp [h1, h2, numpy, op1, hs, ht, bind, Except.bind, pure, Except.pure]
    have hf := forM_numpy (List.range score.cols) hs
    rw [if_neg hr] at hf
    have hc' : score.cols ≠ 0 := by omega
    simp only [lds, hany, hi', hf, hc']
    rcases (g && (score.tracked || gt.tracked)) with _ | _ <;> rfl
  · intro hrows hmin
    have hs : ∀ i ∈ List.range score.cols, (do
        if gt.cols ≤ i then throw .indexError
        numpy g (op1 g score.rows 1 score)
        numpy g (op1 g gt.rows 1 gt)
        if score.rows ≠ gt.rows ∨ score.rows < 2 then throw .valueError : Except Err Unit) = if g && (score.tracked || gt.tracked) then .error .runtimeError else .ok () := by
      intro i hi
      rw [List.mem_range] at hi
      have h1 : ¬ gt.cols ≤ i := by omega
      have h2 : ¬ (score.rows ≠ gt.rows ∨ score.rows < 2) := by omega
      cases g <;> rcases hs : score.tracked <;> rcases ht : gt.tracked <;>
        simp [h1, h2, numpy, op1, hs, ht, bind, Except.bind, pure, Except.pure]
    have hf := forM_numpy (List.range score.cols) hs
    rw [if_neg hr] at hf
    have hc' : score.cols ≠ 0 := by omega
    simp only [looCorr, hf, hc']
    rcases (g && (score.tracked || gt.tracked)) with _ | _ <;> rfl

/-- **C220 (the other metrics).** `mislabel_detection_auc` never raises because of a history; `brittleness` raises
exactly when gradients are on and the scores carry one. -/
theorem C220_other_metrics (g : Bool) (score : Ten) :
    aucConversions g score = .ok () ∧
    brittlenessConversion g score = if g && score.tracked then .error .runtimeError else .ok () := by
  refine ⟨?_, rfl⟩
  have h1 : ∀ r c, numpy g (fresh r c) = .ok () := by intro r c; simp [numpy, fresh]
  have := forM_numpy (f := fun i : ℕ => numpy g (fresh 1 (i + 1))) (x := .ok ()) (List.range score.rows) (fun i _ => h1 1 (i + 1))
  rw [ite_self] at this
  unfold aucConversions
  rw [h1, this]
  rfl

/-- **C220 (ground truth).** The ground truth carries a history exactly when gradients are on and one of the values of
the user's target function carries one. -/
theorem C220_ground_truth (g : Bool) (n : ℕ) (values : List (List Ten)) :
    (groundTruth g n values).tracked = true ↔ g = true ∧ ∃ row ∈ values, ∃ v ∈ row, v.tracked = true := by
  have row : ∀ (l : List Ten) (o : Ten), (l.foldl (addInto g) o).tracked = true ↔ o.tracked = true ∨ (g = true ∧ ∃ v ∈ l, v.tracked = true) := by
    intro l
    induction l with
    | nil => intro o; simp
    | cons a l ih =>
      intro o
      rw [List.foldl_cons, ih]
      simp only [addInto, List.mem_cons, exists_eq_or_imp, Bool.or_eq_true, Bool.and_eq_true]
      tauto
  have all : ∀ (l : List (List Ten)) (o : Ten), (l.foldl (fun (out : Ten) (row : List Ten) => row.foldl (addInto g) out) o).tracked = true ↔
      o.tracked = true ∨ (g = true ∧ ∃ row ∈ l, ∃ v ∈ row, v.tracked = true) := by
    intro l
    induction l with
    | nil => intro o; simp
    | cons a l ih =>
      intro o
      rw [List.foldl_cons, ih, row]
      simp only [List.mem_cons, exists_eq_or_imp]
      rw [and_or_left, or_assoc]
  unfold groundTruth
  rw [all]
  simp [fresh]

/-! ## Attribution followed by the metric -/

/-- **C220 (attribution and LDS).** For every inner-product attributor: caching with gradients on (or off), attributing
in mode `g` and computing the LDS in mode `gm` with ground truth of the right shape and without history raises
RuntimeError exactly when the LDS is computed with gradients on and the scores carry a history by the specification; in
particular never if `attribute` ran under `torch.no_grad()`. -/
theorem C220_lds (kind : Kind) (gc g gm : Bool) (T : Task B) (k : ℕ) (full train test : List B) (m : Option Relatif) (s0 s : St B) (out gt : Ten)
    (indices : List (List ℕ)) (hc : cache kind gc T k full s0 = .ok s) (h : attributeIF kind g T m train test s = .ok out)
    (hn : 0 < (test.map T.size).sum) (hgt : gt.cols = (test.map T.size).sum) (hrows : gt.rows = indices.length) (hi : indices ≠ [])
    (hidx : ∀ l ∈ indices, ∀ i ∈ l, i < (train.map T.size).sum) (hgt' : gt.tracked = false) :
    (lds gm out gt indices = .error .runtimeError ↔ gm = true ∧ Attached kind g T m (CachedDep gc T k full) train test) ∧
    (¬ (gm = true ∧ Attached kind g T m (CachedDep gc T k full) train test) → lds gm out gt indices = .ok ()) ∧
    (g = false → lds gm out gt indices = .ok ()) := by
  obtain ⟨hs, hr, hcols⟩ := C220_scores kind gc g T k full train test m s0 s out hc h
  have hl := (C220_correlations gm out gt indices (by omega) (by omega)).1 hi (by rw [hr]; exact hidx) hrows
  rw [hl, hgt', Bool.or_false]
  rw [← hs]
  refine ⟨?_, ?_, ?_⟩
  · cases gm <;> cases out.tracked <;> simp
  · cases gm <;> cases out.tracked <;> simp
  · intro hg
    have : out.tracked = false := by
      rcases ht : out.tracked with _ | _
      · rfl
      · exact absurd (hs.1 ht).1 (by simp [hg])
    simp [this]

/-! ## Concrete cases -/

/-- A task with one checkpoint and cross-entropy: batches are given by their sizes. -/
def exTask : Task ℕ := ⟨id, 1, 5, fun _ _ => true, fun _ _ => true⟩

/-- A loss that is linear in the weights, a target function that is not. -/
def exLinear : Task ℕ := ⟨id, 2, 5, fun _ _ => false, fun _ _ => true⟩

-- `attribute` as in the README (`cache` outside, `attribute` under `torch.no_grad()`), then LDS
example : (do let s ← cache .cg true exTask 2 [2, 1] {}; let o ← attributeIF .cg false exTask none [2, 1] [3] s; lds true o ⟨2, 3, false⟩ [[0, 1], [1, 2]])
    = .ok () := rfl

-- without `torch.no_grad()` LDS raises
example : (do let s ← cache .cg true exTask 2 [2, 1] {}; let o ← attributeIF .cg true exTask none [2, 1] [3] s; lds true o ⟨2, 3, false⟩ [[0, 1], [1, 2]])
    = .error .runtimeError := rfl

-- but not for Arnoldi
example : (do let s ← cache .arnoldi true exTask 2 [2, 1] {}; let o ← attributeIF .arnoldi true exTask none [2, 1] [3] s; lds true o ⟨2, 3, false⟩ [[0, 1], [1, 2]])
    = .ok () := rfl

-- EK-FAC: `cache` and `attribute` under one `torch.no_grad()` raise
example : (do let s ← cache .ekfac false exTask 2 [2, 1] {}; attributeIF .ekfac false exTask none [2, 1] [3] s) = .error .runtimeError := rfl
example : (do let s ← cache .ekfac true exTask 2 [2, 1] {}; attributeIF .ekfac false exTask none [2, 1] [3] s) = .ok ⟨3, 3, false⟩ := rfl

-- a linear loss: no history, except for DataInf and EK-FAC through the test gradients, and for normalization "l"
example : (do let s ← cache .cg true exLinear 2 [2, 1] {}; attributeIF .cg true exLinear none [2, 1] [3] s) = .ok ⟨3, 3, false⟩ := rfl
example : (do let s ← cache .cg true exLinear 2 [2, 1] {}; attributeIF .cg true exLinear (some .l) [2, 1] [3] s) = .ok ⟨3, 3, true⟩ := rfl
example : (do let s ← cache .cg true exLinear 2 [2, 1] {}; attributeIF .cg true exLinear (some .theta) [2, 1] [3] s) = .ok ⟨3, 3, false⟩ := rfl
example : (do let s ← cache .datainf true exLinear 2 [2, 1] {}; attributeIF .datainf true exLinear none [2, 1] [3] s) = .ok ⟨3, 3, true⟩ := rfl

-- the other attributors
example : trak true exTask [2, 1] [3] = .ok ⟨3, 3, false⟩ := rfl
example : rps true 10 4 2 exTask [2, 1] [3] none = .ok ⟨3, 3, false⟩ := rfl
example : rps false 10 4 2 exTask [2, 1] [3] none = .error .runtimeError := rfl
example : blockGrads false exTask [2, 1] = .error .runtimeError := rfl
example : looCorr true ⟨3, 2, true⟩ ⟨3, 2, false⟩ = .error .runtimeError ∧ looCorr false ⟨3, 2, true⟩ ⟨3, 2, false⟩ = .ok () := ⟨rfl, rfl⟩
example : (groundTruth true 2 [[⟨1, 2, false⟩], [⟨1, 2, true⟩]]).tracked = true := rfl

/-! ## Which calls succeed -/

theorem foldlM_all_ok {α β : Type} {F : α → β → Except Err α} (l : List β) (h : ∀ a, ∀ x ∈ l, ∃ a', F a x = .ok a') :
    ∀ a, ∃ a', l.foldlM F a = .ok a' := by
  induction l with
  | nil => intro a; exact ⟨a, rfl⟩
  | cons x l ih =>
    intro a
    obtain ⟨a1, h1⟩ := h a x (by simp)
    obtain ⟨a2, h2⟩ := ih (fun a y hy => h a y (by simp [hy])) a1
    refine ⟨a2, ?_⟩
    rw [List.foldlM_cons, h1]
    exact h2

theorem foldlM_first_error {α β : Type} {F : α → β → Except Err α} {e : Err} (l : List β) (hl : l ≠ []) (h : ∀ a x, F a x = .error e) (a : α) :
    l.foldlM F a = .error e := by
  rcases l with _ | ⟨x, l⟩
  · exact absurd rfl hl
  · rw [List.foldlM_cons, h]; rfl

theorem checkpoint_ok {kind : Kind} {g : Bool} {T : Task B} {s : St B} {ck : ℕ} (train test : List B)
    (h1 : ∀ t : Ten, ∃ r, transformTest kind g T s ck t = .ok (some r)) (h2 : ∀ t : Ten, ∃ r, transformTrain kind g T s t = .ok r) (out : Ten) :
    ∃ out', train.foldlM (trainStep kind g T s none test ck) out = .ok out' := by
  refine foldlM_all_ok train (fun out b _ => ?_) out
  obtain ⟨r, hr⟩ := h2 (trainRep g T ck b)
  simp only [trainStep, bind, Except.bind, pure, Except.pure, hr]
  refine foldlM_all_ok test (fun out c _ => ?_) out
  obtain ⟨t, ht⟩ := h1 (testRep g T ck c)
  exact ⟨addInto g out (matmulT g r t), by simp [testStep, bind, Except.bind, ht]⟩

theorem checkpoint_error {kind : Kind} {g : Bool} {T : Task B} {s : St B} {ck : ℕ} {e : Err} (train test : List B) (hr : train ≠ []) (hs : test ≠ [])
    (h1 : ∀ c : B, ∀ out r : Ten, testStep kind g T s ck r none out c = .error e) (h2 : ∀ t : Ten, ∃ r, transformTrain kind g T s t = .ok r) (out : Ten) :
    train.foldlM (trainStep kind g T s none test ck) out = .error e := by
  refine foldlM_first_error train hr (fun out b => ?_) out
  obtain ⟨r, hr⟩ := h2 (trainRep g T ck b)
  simp only [trainStep, bind, Except.bind, pure, Except.pure, hr]
  exact foldlM_first_error test hs (fun out c => h1 c out r) out

theorem range_error {α : Type} {F : α → ℕ → Except Err α} {e : Err} (n : ℕ) (hn : 0 < n) (h : ∀ a, F a 0 = .error e) (a : α) :
    (List.range n).foldlM F a = .error e := by
  obtain ⟨k, rfl⟩ := Nat.exists_eq_succ_of_ne_zero (Nat.pos_iff_ne_zero.1 hn)
  rw [List.range_succ_eq_map, List.foldlM_cons, h]; rfl

theorem ihvpLoop_some (g : Bool) (T : Task B) (test : Ten) (l : List B) : ∀ acc : Option Ten, l ≠ [] ∨ acc ≠ none → ∃ t, ihvpLoop g T test l acc = some t := by
  induction l with
  | nil =>
    intro acc h
    rcases acc with _ | a
    · simp at h
    · exact ⟨a, rfl⟩
  | cons b l ih => intro acc _; exact ih _ (Or.inr (by simp))

/-- **C220 (which calls succeed).** After a successful `cache`, `attribute` on non-empty loaders, in whatever gradient modes: the three Hessian attributors need a
non-empty cached loader, Arnoldi and DataInf always succeed, and EK-FAC needs a non-empty cached loader and a single checkpoint. -/
theorem C220_calls (kind : Kind) (gc g : Bool) (T : Task B) (k : ℕ) (full train test : List B) (s0 s : St B)
    (hc : cache kind gc T k full s0 = .ok s) (hn : 0 < T.nck) (hr : train ≠ []) (hs : test ≠ []) :
    match kind with
    | .explicit | .cg | .lissa => if full = [] then attributeIF kind g T none train test s = .error .attributeError
        else ∃ out, attributeIF kind g T none train test s = .ok out
    | .arnoldi | .datainf => ∃ out, attributeIF kind g T none train test s = .ok out
    | .ekfac => if full = [] then attributeIF kind g T none train test s = .error .keyError
        else if T.nck = 1 then ∃ out, attributeIF kind g T none train test s = .ok out
        else attributeIF kind g T none train test s = .error .valueError := by
  cases kind
  case explicit | cg | lissa =>
    simp only [cache, Except.ok.injEq] at hc
    subst hc
    simp only
    split
    · rename_i hf
      subst hf
      refine range_error T.nck hn (fun out => checkpoint_error train test hr hs (fun c out r => ?_) (fun t => ⟨t, rfl⟩) out) _
      simp [testStep, transformTest, ihvpLoop, bind, Except.bind]
    · rename_i hf
      refine foldlM_all_ok _ (fun out ck _ => checkpoint_ok train test (fun t => ?_) (fun t => ⟨t, rfl⟩) out) _
      obtain ⟨r, h⟩ := ihvpLoop_some g T t full none (Or.inl hf)
      exact ⟨r, by simp [transformTest, h]⟩
  case arnoldi =>
    simp only [cache] at hc
    split at hc
    · simp at hc
    · simp only [Except.ok.injEq] at hc
      subst hc
      exact foldlM_all_ok _ (fun out ck _ => checkpoint_ok train test (fun t => ⟨_, rfl⟩) (fun t => ⟨_, rfl⟩) out) _
  case datainf =>
    simp only [cache, bind, Except.bind, pure, Except.pure] at hc
    rcases hm : (List.range T.nck).mapM (fun ck : ℕ => cat gc ((full.take k).map (trainRep gc T ck))) with e | reps
    · rw [hm] at hc; simp at hc
    · rw [hm] at hc
      simp only [Except.ok.injEq] at hc
      subst hc
      refine foldlM_all_ok _ (fun out ck hck => checkpoint_ok train test (fun t => ?_) (fun t => ⟨t, rfl⟩) out) _
      obtain ⟨y, hy, hrr⟩ := mapM_get _ reps hm ck ck (by rw [List.mem_range] at hck; simp [hck])
      exact ⟨op2 g t.rows T.p t y, by simp only [transformTest, hrr]⟩
  case ekfac =>
    simp only [cache, bind, Except.bind, pure, Except.pure] at hc
    rcases hp : ekfacPass gc T full with e | u
    · rw [hp] at hc; simp at hc
    · rw [hp] at hc
      simp only [Except.ok.injEq] at hc
      subst hc
      simp only
      split
      · rename_i hf
        subst hf
        refine range_error T.nck hn (fun out => checkpoint_error train test hr hs (fun c out r => ?_) (fun t => ⟨t, rfl⟩) out) _
        simp [testStep, transformTest, bind, Except.bind]
      · rename_i hf
        have hst : (!full.isEmpty) = true := by rcases full with _ | ⟨a, l⟩ <;> simp_all
        have h0 : ∀ out, ∃ out', train.foldlM (trainStep .ekfac g T
            ({ s0 with full := some ((some full).getD train), stats := some (!full.isEmpty) } : St B) none test 0) out = .ok out' :=
          fun out => checkpoint_ok train test (fun t => ⟨op1 g t.rows T.p t, by simp [transformTest, hst]⟩) (fun t => ⟨t, rfl⟩) out
        split
        · rename_i h1
          refine foldlM_all_ok _ (fun out ck hck => ?_) _
          have : ck = 0 := by rw [h1] at hck; simpa using hck
          subst this
          exact h0 out
        · rename_i h1
          obtain ⟨j, hj⟩ : ∃ j, T.nck = j + 2 := ⟨T.nck - 2, by omega⟩
          obtain ⟨o1, ho1⟩ := h0 (fresh (train.map T.size).sum (test.map T.size).sum)
          have h2 : ∀ out, train.foldlM (trainStep .ekfac g T
            ({ s0 with full := some ((some full).getD train), stats := some (!full.isEmpty) } : St B) none test 1) out = .error .valueError := by
            refine fun out => checkpoint_error train test hr hs (fun c out r => ?_) (fun t => ⟨t, rfl⟩) out
            simp [testStep, transformTest, bind, Except.bind]
          unfold attributeIF
          rw [hj, List.range_succ_eq_map, List.range_succ_eq_map, List.map_cons, List.foldlM_cons]
          refine (congrArg (fun x : Except Err Ten => x >>= _) ho1).trans ?_
          simp only [bind, Except.bind]
          rw [List.foldlM_cons]
          exact (congrArg (fun x : Except Err Ten => x >>= _) (h2 o1)).trans rfl

/-- **C220 (which caches succeed).** Caching the training set: Arnoldi needs a batch (`IndexError`), DataInf a batch per checkpoint (`RuntimeError`), EK-FAC gradients unless the
loader is empty (`RuntimeError`); the others always succeed. -/
theorem C220_cache_calls (kind : Kind) (g : Bool) (T : Task B) (k : ℕ) (full : List B) (s0 : St B) :
    (∀ e, cache kind g T k full s0 = .error e ↔
      (kind = .arnoldi ∧ full.take k = [] ∧ e = .indexError) ∨ (kind = .datainf ∧ full.take k = [] ∧ 0 < T.nck ∧ e = .runtimeError) ∨
      (kind = .ekfac ∧ g = false ∧ full ≠ [] ∧ e = .runtimeError)) := by
  intro e
  cases kind
  case explicit | cg | lissa => simp [cache]
  case arnoldi =>
    simp only [cache]
    split
    · rename_i h; simp [h, eq_comm]
    · rename_i h; simp [h]
  case datainf =>
    simp only [cache, bind, Except.bind, pure, Except.pure]
    by_cases hk : full.take k = []
    · rcases hn : T.nck with _ | n
      · simp [List.mapM_nil, pure, Except.pure]
      · rw [List.range_succ_eq_map, List.mapM_cons]
        simp [hk, cat, bind, Except.bind, eq_comm]
    · obtain ⟨x, l, hx⟩ := List.exists_cons_of_ne_nil hk
      have : ∃ r, (List.range T.nck).mapM (fun ck : ℕ => cat g ((full.take k).map (trainRep g T ck))) = .ok r := by
        refine ⟨_, mapM_ok (F := fun ck : ℕ => (⟨(((x :: l).map (trainRep g T ck)).map (·.rows)).sum, (trainRep g T ck x).cols,
          g && ((x :: l).map (trainRep g T ck)).any (·.tracked)⟩ : Ten)) _ (fun ck => ?_)⟩
        rw [hx]; rfl
      obtain ⟨r, hr⟩ := this
      rw [hr]
      simp [hk]
  case ekfac =>
    simp only [cache, bind, Except.bind, pure, Except.pure]
    by_cases hf : full = []
    · subst hf; simp [ekfacPass, pure, Except.pure]
    · cases g
      · rw [ekfacPass_false T full hf]; simp [hf]; exact eq_comm
      · rw [ekfacPass_true]; simp

/-- Two batches, a cross-entropy-like loss and two checkpoints: EK-FAC with gradients on cannot attribute, the Hessian attributors can. -/
example : (cache .ekfac true (⟨fun n : ℕ => n, 2, 3, fun _ _ => true, fun _ _ => true⟩ : Task ℕ) 2 [1, 2] {}).isOk = true ∧
    (attributeIF .explicit true (⟨fun n : ℕ => n, 2, 3, fun _ _ => true, fun _ _ => true⟩ : Task ℕ) none [1, 2] [3] { full := some [1] }).isOk = true := by
  decide

end Verif.GradMode
