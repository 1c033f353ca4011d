import Mathlib.Algebra.BigOperators.Group.Finset.Basic
import Mathlib.Algebra.Field.Rat
import Mathlib.Tactic.NormNum
import Verif.DVEmb.CacheLemmas

/-!
# C52, C53, C54, C88, C90: data value embeddings
-/

namespace Verif.DVEmb

open Verif Matrix

variable {K : Type} [Field K] {d : ℕ}

/-! ## C52: the embedding recursion -/

/-- **C52.**  Whatever the attributor held before, clear it, record any well-formed run that has an
epoch `0`, in any call order, and call `cache`.  Both succeed, and the stored embedding of sample
`i` in epoch `e` is the sum over its occurrences in that epoch of step size times gradient, carried
through all later steps of the run in chronological order. -/
theorem C52_embedding (factor ms : Bool) (s : St K d) (calls chron : List (Call K d))
    (hch : Chronological calls chron) (hwf : WellFormed calls) (h0 : ∃ c ∈ calls, c.epoch = 0) :
    ∃ s', record (clearCache s) calls = .ok s' ∧
      (cache factor s' none none ms).res = .ok () ∧
      ∃ num, IsCount calls num ∧ ∀ e, (∃ c ∈ calls, c.epoch = e) →
        ∃ E, (cache factor s' none none ms).st.emb.lookup e = some ⟨num, E⟩ ∧
          ∀ i, E i = specEmb e i chron := by
  obtain ⟨s', h1, h2, _⟩ := record_holds (s := clearCache s) (L := [])
    (holds_nil rfl rfl rfl) calls (fun c hc => (hwf c hc).1)
  rw [List.nil_append] at h2
  obtain ⟨h3, num, h4, h5, _⟩ := cache_ok factor ms h2 hch hwf h0
  exact ⟨s', h1, h3, num, h4, h5⟩

/-- The matrix `I - eta * H` of a step, `H` the sum of outer products of its gradients. -/
def stepMatrix (c : Call K d) : Matrix (Fin d) (Fin d) K :=
  1 - c.eta • (c.g.map fun x => vecMulVec x x).sum

/-- **C52.**  Carrying a displacement through the later steps multiplies by the product of the
one-step propagators, the latest step leftmost. -/
theorem C52_product (rest : List (Call K d)) (δ : Fin d → K) :
    propagate rest δ = (rest.foldl (fun A c => stepMatrix c * A) 1) *ᵥ δ := by
  induction rest using List.reverseRecOn generalizing δ with
  | nil => simp [propagate]
  | append_singleton L c ih =>
    rw [propagate_append, ih, List.foldl_append, List.foldl_cons, List.foldl_nil, ← mulVec_mulVec]
    simp only [propagate, stepMatrix]
    rw [sub_mulVec, one_mulVec, smul_mulVec]
    congr 2
    have := sum_vecMulVec_mulVec (c.g.map fun x => (x, x))
      (List.foldl (fun A c => stepMatrix c * A) 1 L *ᵥ δ)
    rw [List.map_map, List.map_map] at this
    exact this.symm

/-- One step of the linearised training run: the gradient at `θ` is `b + H θ`. -/
def linStep (b : Call K d → Fin d → K) (θ : Fin d → K) (c : Call K d) : Fin d → K :=
  θ - c.eta • (b c + (c.g.map fun x => (x ⬝ᵥ θ) • x).sum)

/-- **C52.**  In the linearised run the final parameters move by exactly the propagated
displacement when the parameters after some step are displaced by `δ`, whatever the offsets. -/
theorem C52_displacement (b : Call K d → Fin d → K) (rest : List (Call K d)) (θ δ : Fin d → K) :
    rest.foldl (linStep b) (θ + δ) - rest.foldl (linStep b) θ = propagate rest δ := by
  induction rest generalizing θ δ with
  | nil => simp [propagate]
  | cons c t ih =>
    rw [List.foldl_cons, List.foldl_cons, propagate, ← ih (linStep b θ c)]
    congr 2
    unfold linStep
    have : (c.g.map fun x => (x ⬝ᵥ (θ + δ)) • x).sum =
        (c.g.map fun x => (x ⬝ᵥ θ) • x).sum + (c.g.map fun x => (x ⬝ᵥ δ) • x).sum := by
      rw [← List.sum_map_add]
      congr 1
      apply List.map_congr_left
      intro z _
      rw [dotProduct_add, add_smul]
    rw [this]
    module

/-- A two-epoch run with a repeated sample. -/
def exRun : List (Call ℚ 1) :=
  [⟨0, 1, [0, 1], [fun _ => 1, fun _ => 2]⟩, ⟨0, 1, [0], [fun _ => 3]⟩, ⟨1, 1, [1], [fun _ => 1 / 2]⟩]

example : Chronological exRun exRun ∧ WellFormed exRun ∧ ∃ c ∈ exRun, c.epoch = 0 := by
  refine ⟨⟨?_, fun _ => rfl⟩, ?_, ⟨_, List.mem_cons_self, rfl⟩⟩
  · simp [exRun]
  · intro c hc
    simp only [exRun, List.mem_cons, List.not_mem_nil, or_false] at hc
    rcases hc with rfl | rfl | rfl <;> simp

/-- Sample 0 in epoch 0 of the example: `1/2 * 1` carried through two steps plus `3` carried
through one. -/
example : specEmb 0 0 exRun 0 = (1 / 2) * (1 - 9) * (1 - 1 / 4) + 3 * (1 - 1 / 4) := by
  simp [exRun, specEmb, propagate, Call.eta, dotProduct]
  norm_num

/-! ## C53: the total is the sum over epochs -/

omit [Field K] in
theorem mapM_pyIndex_n (n : ℕ) (l : List ℤ) {r : List ℕ} (h : l.mapM (pyIndex n) = .ok r) :
    ∀ i ∈ r, i < n := by
  induction l generalizing r with
  | nil =>
    simp only [List.mapM_nil, pure, Except.pure, Except.ok.injEq] at h
    subst h; intro i hi; cases hi
  | cons a t ih =>
    simp only [List.mapM_cons, bind, Except.bind, pure, Except.pure] at h
    cases h1 : pyIndex n a with
    | error x => rw [h1] at h; cases h
    | ok v =>
      rw [h1] at h
      cases h2 : t.mapM (pyIndex n) with
      | error x => rw [h2] at h; cases h
      | ok w =>
        rw [h2] at h
        simp only [Except.ok.injEq] at h
        subst h
        intro i hi
        rcases List.mem_cons.1 hi with rfl | hi
        · unfold pyIndex at h1
          split_ifs at h1 with h3 h4 <;> simp only [Except.ok.injEq] at h1 <;> omega
        · exact ih h2 i hi

theorem stackSum_ok {m : Dict (Emb K d)} {n : ℕ} (hm : m ≠ []) (h : ∀ p ∈ m, p.2.n = n) :
    stackSum m = .ok ⟨n, fun i => (m.map fun p => p.2.row i).sum⟩ := by
  cases m with
  | nil => exact absurd rfl hm
  | cons p t =>
    simp only [stackSum]
    have hp := h p List.mem_cons_self
    rw [if_pos fun q hq => (h q (List.mem_cons_of_mem _ hq)).trans hp.symm, hp]

theorem stackSum_inv {m : Dict (Emb K d)} {E : Emb K d} (h : stackSum m = .ok E) :
    (∀ p ∈ m, p.2.n = E.n) ∧ E.row = fun i => (m.map fun p => p.2.row i).sum := by
  cases m with
  | nil => cases h
  | cons p t =>
    simp only [stackSum] at h
    split_ifs at h with h1
    cases h
    refine ⟨?_, rfl⟩
    intro q hq
    rcases List.mem_cons.1 hq with rfl | hq
    · rfl
    · exact h1 q hq

theorem stackSum_error {m : Dict (Emb K d)} {p q : ℤ × Emb K d} (hp : p ∈ m) (hq : q ∈ m)
    (h : p.2.n ≠ q.2.n) : stackSum m = .error .runtimeError := by
  cases hs : stackSum m with
  | ok E =>
    have := (stackSum_inv hs).1
    exact absurd ((this p hp).trans (this q hq).symm) h
  | error x =>
    cases m with
    | nil => cases hp
    | cons a t =>
      simp only [stackSum] at hs
      split_ifs at hs
      cases hs
      rfl

/-- Entry `(i, j)` of a result matrix. -/
def entry (A : List (List K)) (i j : ℕ) : K := (A.getD i []).getD j 0

theorem entry_rows (rows : List ℕ) (test : List (Fin d → K)) (f : ℕ → Fin d → K) (i j : ℕ) :
    entry (rows.map fun r => test.map fun x => f r ⬝ᵥ x) i j =
      match rows[i]?, test[j]? with
      | some r, some x => f r ⬝ᵥ x
      | _, _ => 0 := by
  unfold entry
  rw [List.getD_eq_getElem?_getD, List.getD_eq_getElem?_getD, List.getElem?_map]
  cases rows[i]? with
  | none => simp
  | some r =>
    simp only [Option.map_some, Option.getD_some, List.getElem?_map]
    cases test[j]? <;> rfl

theorem sum_dotProduct (l : List (Fin d → K)) (x : Fin d → K) :
    l.sum ⬝ᵥ x = (l.map fun v => v ⬝ᵥ x).sum := by
  induction l with
  | nil => simp
  | cons a t ih => rw [List.sum_cons, add_dotProduct, List.map_cons, List.sum_cons, ih]

/-- **C53.**  Whenever `attribute` without an epoch succeeds, `attribute` succeeds for each stored
epoch with the same row selection, all results have the same shape, and the total is the entrywise
sum of the per-epoch results. -/
theorem C53_total (s : St K d) (hk : (s.emb.map Prod.fst).Nodup)
    (test : List (List (Fin d → K))) (sel : Option (List ℤ)) (A : List (List K))
    (hA : attribute' s test none sel = .ok A) :
    ∃ B : ℤ → List (List K),
      (∀ e ∈ s.emb.map Prod.fst, attribute' s test (some e) sel = .ok (B e) ∧
        (B e).map List.length = A.map List.length) ∧
      ∀ i j, entry A i j = ((s.emb.map Prod.fst).map fun e => entry (B e) i j).sum := by
  unfold attribute' at hA ⊢
  split_ifs at hA with h1 h2
  simp only [bind, Except.bind, pure, Except.pure, active] at hA
  cases hs : stackSum s.emb with
  | error x => rw [hs] at hA; cases hA
  | ok E =>
    rw [hs] at hA
    obtain ⟨h3, h4⟩ := stackSum_inv hs
    simp only at hA
    cases hr : selectRows E.n sel with
    | error x => rw [hr] at hA; cases hA
    | ok rows =>
      rw [hr] at hA
      simp only [Except.ok.injEq] at hA
      subst hA
      refine ⟨fun e => rows.map fun i => test.flatten.map fun x =>
        ((s.emb.lookup e).elim (0 : ℕ → Fin d → K) Emb.row) i ⬝ᵥ x, ?_, ?_⟩
      · intro e he
        rw [← lookup_isSome] at he
        obtain ⟨Ee, hEe⟩ := Option.isSome_iff_exists.1 he
        have hn : Ee.n = E.n := h3 _ (mem_of_lookup hEe)
        constructor
        · rw [if_neg h1, if_neg h2]
          simp only [active, hEe, bind, Except.bind, hn, hr, pure, Except.pure, Option.elim_some]
        · simp [Function.comp_def]
      · intro i j
        rw [entry_rows, List.map_map]
        have hB : ∀ e, entry (rows.map fun i => test.flatten.map fun x =>
            ((s.emb.lookup e).elim (0 : ℕ → Fin d → K) Emb.row) i ⬝ᵥ x) i j = _ :=
          fun e => entry_rows rows test.flatten ((s.emb.lookup e).elim 0 Emb.row) i j
        simp only [Function.comp_def, hB]
        cases rows[i]? with
        | none => simp
        | some r =>
          cases test.flatten[j]? with
          | none => simp
          | some x =>
            simp only
            rw [h4]
            simp only
            rw [sum_dotProduct, List.map_map]
            congr 1
            apply List.map_congr_left
            intro p hp
            simp only [Function.comp]
            rw [lookup_of_mem hk hp]
            rfl

/-- **C53.**  An epoch that is not stored raises `ValueError` (given computed embeddings and at
least one test batch). -/
theorem C53_unknown_epoch (s : St K d) (test : List (List (Fin d → K))) (sel : Option (List ℤ))
    (e : ℤ) (he : e ∉ s.emb.map Prod.fst) (hs : s.emb ≠ []) (ht : test ≠ []) :
    attribute' s test (some e) sel = .error .valueError := by
  unfold attribute'
  rw [if_neg hs, if_neg ht]
  have : s.emb.lookup e = none := by
    rw [← Option.not_isSome_iff_eq_none, lookup_isSome]; exact he
  simp only [active, this, bind, Except.bind]

/-- **C53.**  Before `cache` every `attribute` call raises `RuntimeError`. -/
theorem C53_not_cached (s : St K d) (test : List (List (Fin d → K))) (ep : Option ℤ)
    (sel : Option (List ℤ)) (hs : s.emb = []) :
    attribute' s test ep sel = .error .runtimeError := by
  unfold attribute'
  rw [if_pos hs]

/-- **C53.**  A test loader without a batch raises `RuntimeError`, whatever the epoch. -/
theorem C53_no_test_batch (s : St K d) (ep : Option ℤ) (sel : Option (List ℤ)) :
    attribute' s [] ep sel = .error .runtimeError := by
  unfold attribute'
  rw [if_pos rfl, ite_self]

/-- Two stored epochs with two samples. -/
def exSt : St ℚ 1 :=
  ⟨[], [], [], [(1, ⟨2, fun i _ => (i : ℚ) + 1⟩), (0, ⟨2, fun i _ => 10 * (i : ℚ)⟩)]⟩

example : attribute' exSt [[fun _ => 2]] none none = .ok [[2], [24]] := by decide +kernel
example : attribute' exSt [[fun _ => 2]] (some 0) (some [-1]) = .ok [[20]] := by decide +kernel
example : attribute' exSt [[fun _ => 2]] (some 7) none = .error .valueError := by decide +kernel

/-! ## C54: stale epochs -/

theorem sum_dict {α : Type} {m : Dict α} (hk : (m.map Prod.fst).Nodup) {β : Type}
    [AddCommMonoid β] (f : α → β) :
    (m.map fun p => f p.2).sum =
      ∑ e ∈ (m.map Prod.fst).toFinset, (m.lookup e).elim 0 f := by
  rw [List.sum_toFinset _ hk, List.map_map]
  congr 1
  apply List.map_congr_left
  intro p hp
  simp only [Function.comp, lookup_of_mem hk hp, Option.elim_some]

theorem addKeys_nodup {ks : List ℤ} (h : ks.Nodup) (es : List ℤ) : (addKeys ks es).Nodup := by
  unfold addKeys
  induction es generalizing ks with
  | nil => exact h
  | cons e t ih =>
    rw [List.foldl_cons]
    apply ih
    split_ifs with h1
    · exact h
    · exact List.nodup_append.2 ⟨h, by simp, by
        intro a ha b hb hab
        rw [List.mem_singleton] at hb
        exact h1 (hb ▸ hab ▸ ha)⟩

theorem addKeys_mem (ks es : List ℤ) (e : ℤ) : e ∈ addKeys ks es ↔ e ∈ ks ∨ e ∈ es := by
  unfold addKeys
  induction es generalizing ks with
  | nil => simp
  | cons a t ih =>
    rw [List.foldl_cons, ih, List.mem_cons]
    split_ifs with h1
    · constructor
      · rintro (h | h)
        · exact Or.inl h
        · exact Or.inr (Or.inr h)
      · rintro (h | rfl | h)
        · exact Or.inl h
        · exact Or.inl h1
        · exact Or.inr h
    · rw [List.mem_append, List.mem_singleton, or_assoc]

/-- **C54.**  Start from any attributor holding embeddings of earlier runs, clear its cache, record
a new run and call `cache`.  Every epoch absent from the new run keeps its old embedding, and the
total attribution is the new run's plus that of those stale epochs, provided they have as many
samples as the new run. -/
theorem C54_stale (factor ms : Bool) (s : St K d) (hk : (s.emb.map Prod.fst).Nodup)
    (calls chron : List (Call K d)) (hch : Chronological calls chron) (hwf : WellFormed calls)
    (h0 : ∃ c ∈ calls, c.epoch = 0) (test : List (List (Fin d → K))) (ht : test ≠ []) :
    ∃ s' num, record (clearCache s) calls = .ok s' ∧ IsCount calls num ∧
      (cache factor s' none none ms).res = .ok () ∧
      (∀ e, (∀ c ∈ calls, c.epoch ≠ e) →
        (cache factor s' none none ms).st.emb.lookup e = s.emb.lookup e) ∧
      ((∀ p ∈ s.emb, (∀ c ∈ calls, c.epoch ≠ p.1) → p.2.n = num) →
        attribute' (cache factor s' none none ms).st test none none =
          .ok ((List.range num).map fun i => test.flatten.map fun x =>
            (∑ e ∈ (calls.map Call.epoch).toFinset, specEmb e i chron
             + ∑ e ∈ (s.emb.map Prod.fst).toFinset \ (calls.map Call.epoch).toFinset,
                 ((s.emb.lookup e).elim 0 fun E => E.row i)) ⬝ᵥ x)) ∧
      ((∃ p ∈ s.emb, (∀ c ∈ calls, c.epoch ≠ p.1) ∧ p.2.n ≠ num) →
        attribute' (cache factor s' none none ms).st test none none = .error .runtimeError) := by
  obtain ⟨s', h1, h2, hemb⟩ := record_holds (s := clearCache s) (L := [])
    (holds_nil rfl rfl rfl) calls (fun c hc => (hwf c hc).1)
  rw [List.nil_append] at h2
  have hemb : s'.emb = s.emb := hemb
  obtain ⟨h3, num, h4, h5, h6, h7⟩ := cache_ok factor ms h2 hch hwf h0
  set o := (cache factor s' none none ms).st with ho
  rw [hemb] at h6 h7
  have hnd : (o.emb.map Prod.fst).Nodup := by rw [h7]; exact addKeys_nodup hk _
  have hmem : ∀ e, e ∈ o.emb.map Prod.fst ↔
      e ∈ s.emb.map Prod.fst ∨ ∃ c ∈ calls, c.epoch = e := by
    intro e; rw [h7, addKeys_mem, visit_mem h2]
  have hne : o.emb ≠ [] := by
    obtain ⟨c, hc, _⟩ := h0
    have := (hmem c.epoch).2 (Or.inr ⟨c, hc, rfl⟩)
    intro h
    rw [h] at this
    cases this
  refine ⟨s', num, h1, h4, h3, h6, ?_, ?_⟩
  · intro hn
    have hall : ∀ p ∈ o.emb, p.2.n = num := by
      intro p hp
      have hl := lookup_of_mem hnd hp
      by_cases hc : ∃ c ∈ calls, c.epoch = p.1
      · obtain ⟨E, hE, _⟩ := h5 p.1 hc
        rw [hE] at hl
        rw [← Option.some.inj hl]
      · push Not at hc
        rw [h6 p.1 hc] at hl
        exact hn p (mem_of_lookup hl) hc
    rw [← ho]
    unfold attribute'
    rw [if_neg hne, if_neg ht]
    simp only [active, stackSum_ok hne hall, bind, Except.bind, selectRows, pure, Except.pure,
      Except.ok.injEq]
    apply List.map_congr_left
    intro i _
    apply List.map_congr_left
    intro x _
    congr 1
    rw [sum_dict hnd (fun E => E.row i)]
    have hset : (o.emb.map Prod.fst).toFinset = (calls.map Call.epoch).toFinset ∪
        ((s.emb.map Prod.fst).toFinset \ (calls.map Call.epoch).toFinset) := by
      ext e
      rw [List.mem_toFinset, hmem]
      simp only [Finset.mem_union, Finset.mem_sdiff, List.mem_toFinset, List.mem_map]
      by_cases hx : ∃ c ∈ calls, c.epoch = e
      · simp only [hx, or_true, not_true, and_false, or_false]
      · simp only [hx, or_false, not_false_iff, and_true, false_or]
    rw [hset, Finset.sum_union Finset.disjoint_sdiff]
    congr 1
    · apply Finset.sum_congr rfl
      intro e he
      rw [List.mem_toFinset, List.mem_map] at he
      obtain ⟨E, hE, hEi⟩ := h5 e he
      rw [hE]
      exact hEi i
    · apply Finset.sum_congr rfl
      intro e he
      rw [Finset.mem_sdiff, List.mem_toFinset, List.mem_toFinset] at he
      rw [h6 e fun c hc hce => he.2 (List.mem_map.2 ⟨c, hc, hce⟩)]
  · rintro ⟨p, hp, hpc, hpn⟩
    obtain ⟨c, hc, _⟩ := h0
    obtain ⟨E, hE, _⟩ := h5 c.epoch ⟨c, hc, rfl⟩
    have h8 : o.emb.lookup p.1 = some p.2 := by
      rw [h6 p.1 hpc]; exact lookup_of_mem hk hp
    rw [← ho]
    unfold attribute'
    rw [if_neg hne, if_neg ht]
    simp only [active, stackSum_error (mem_of_lookup h8) (mem_of_lookup hE) hpn, bind,
      Except.bind]

/-- The hypotheses are met by the two stored epochs above and a new one-epoch run over two
samples; epoch 1 is stale. -/
example : (exSt.emb.map Prod.fst).Nodup ∧
    (∀ p ∈ exSt.emb, (∀ c ∈ [(⟨0, 1, [1], [fun _ => 2]⟩ : Call ℚ 1)], c.epoch ≠ p.1) →
      p.2.n = 2) ∧ IsCount [(⟨0, 1, [1], [fun _ => 2]⟩ : Call ℚ 1)] 2 := by
  refine ⟨by decide, ?_, ?_, ?_⟩
  · intro p hp _
    simp only [exSt, List.mem_cons, List.not_mem_nil, or_false] at hp
    rcases hp with rfl | rfl <;> rfl
  · intro c hc i hi
    simp only [List.mem_cons, List.not_mem_nil, or_false] at hc
    subst hc
    simp at hi; omega
  · exact ⟨_, List.mem_cons_self, 1, by simp, rfl⟩

/-! ## C88: external dictionaries -/

/-- **C88.**  A successful `cache` call with external gradients and learning rates and the default
`memory_saving=True` empties the dictionaries the caller passed, so repeating the call with the
same objects raises `ValueError`. -/
theorem C88_caller_cleared (factor : Bool) (s : St K d)
    (G : Dict (List (List (Fin d → K)))) (L : Option (Dict (List K)))
    (h : (cache factor s (some G) L true).res = .ok ()) :
    (cache factor s (some G) L true).callerGrads = some [] ∧
    (cache factor s (some G) L true).callerLrs = L.map (fun _ => []) ∧
    (cache factor (cache factor s (some G) L true).st
      (cache factor s (some G) L true).callerGrads
      (cache factor s (some G) L true).callerLrs true).res = .error .valueError := by
  have key : (cache factor s (some G) L true).callerGrads = some [] ∧
      (cache factor s (some G) L true).callerLrs = L.map (fun _ => []) := by
    unfold cache at h ⊢
    simp only [Option.getD_some, Option.isSome_some, and_true] at h ⊢
    split_ifs at h ⊢ with h1 h2
    revert h
    cases numSamples s.idxs with
    | error x => intro h; cases h
    | ok num =>
      simp only
      cases probe G with
      | error x => intro h; cases h
      | ok g =>
        simp only
        generalize epochLoop _ num _ 0 s.emb = r
        cases r.2 with
        | error x => intro h; cases h
        | ok u => intro _; exact ⟨rfl, rfl⟩
  refine ⟨key.1, key.2, ?_⟩
  rw [key.1]
  generalize (cache factor s (some G) L true).st = s2
  generalize (cache factor s (some G) L true).callerLrs = L2
  unfold cache
  split_ifs with h1 h2
  · rfl
  · rfl
  · exact absurd rfl h2

/-- **C88.**  With `memory_saving=False`, or when the call raises, the caller's dictionaries are
left as they were. -/
theorem C88_caller_kept (factor ms : Bool) (s : St K d)
    (G : Option (Dict (List (List (Fin d → K))))) (L : Option (Dict (List K)))
    (h : ms = false ∨ (cache factor s G L ms).res ≠ .ok ()) :
    (cache factor s G L ms).callerGrads = G ∧ (cache factor s G L ms).callerLrs = L := by
  unfold cache at h ⊢
  simp only at h ⊢
  by_cases h1 : factor = true ∧ G.isSome = true
  · rw [if_pos h1]; exact ⟨rfl, rfl⟩
  · rw [if_neg h1] at h ⊢
    by_cases h2 : ∀ p ∈ G.getD s.grads, p.2 = []
    · rw [if_pos h2]; exact ⟨rfl, rfl⟩
    · rw [if_neg h2] at h ⊢
      revert h
      cases numSamples s.idxs with
      | error x => intro _; exact ⟨rfl, rfl⟩
      | ok num =>
        simp only
        cases probe (G.getD s.grads) with
        | error x => intro _; exact ⟨rfl, rfl⟩
        | ok g =>
          simp only
          generalize epochLoop _ num _ 0 s.emb = r
          cases r.2 with
          | error x => intro _; exact ⟨rfl, rfl⟩
          | ok u =>
            cases ms with
            | false => intro _; exact ⟨rfl, rfl⟩
            | true =>
              intro h
              rcases h with h | h
              · cases h
              · exact absurd rfl h

/-- **C88.**  External gradients cannot replace recording: without recorded batches the call always
raises, because the sample indices are missing; before that, factorised projections and empty gradients
are refused. -/
theorem C88_needs_indices (factor : Bool) (s : St K d) (hs : s.idxs = [])
    (G : Dict (List (List (Fin d → K)))) (L : Option (Dict (List K))) (ms : Bool) :
    (cache factor s (some G) L ms).res =
      .error (if factor = true ∨ ∀ p ∈ G, p.2 = [] then .valueError else .runtimeError) := by
  unfold cache
  cases factor
  · simp only [Bool.false_eq_true, false_and, if_false, Option.getD_some, false_or]
    by_cases h : ∀ p ∈ G, p.2 = []
    · rw [if_pos h, if_pos h]
    · rw [if_neg h, if_neg h]
      have : numSamples s.idxs = .error .runtimeError := by
        unfold numSamples
        rw [hs]; rfl
      rw [this]
  · simp

/-- A recorded batch and external gradients for it. -/
example : (cache false (⟨[], [], [(0, [[0]])], []⟩ : St ℚ 1) (some [(0, [[fun _ => 2]])])
    (some [(0, [1 / 2])]) true).res = .ok () := by
  unfold cache
  simp only [List.map_cons, List.map_nil, List.mergeSort_singleton, Option.getD_some]
  decide +kernel

/-! ## C90: epoch zero is required -/

/-- **C90.**  A recorded run without an epoch numbered `0` cannot be processed: `cache` raises
`KeyError` and stores nothing. -/
theorem C90_no_epoch_zero (factor ms : Bool) (s : St K d) (calls : List (Call K d))
    (hne : calls ≠ []) (hwf : WellFormed calls) (h0 : ∀ c ∈ calls, c.epoch ≠ 0) :
    ∃ s', record (clearCache s) calls = .ok s' ∧
      (cache factor s' none none ms).res = .error .keyError ∧
      (cache factor s' none none ms).st.emb = s.emb := by
  obtain ⟨s', h1, h2, h3⟩ := record_holds (s := clearCache s) (L := [])
    (holds_nil rfl rfl rfl) calls (fun c hc => (hwf c hc).1)
  rw [List.nil_append] at h2
  obtain ⟨num, hnum, _⟩ := numSamples_ok h2 hne fun c hc => (hwf c hc).1
  have : (cache factor s' none none ms).res = .error .keyError ∧
      (cache factor s' none none ms).st.emb = s'.emb := by
    unfold cache
    simp only [Option.isSome_none, Bool.false_eq_true, and_false, if_false, Option.getD_none]
    rw [if_neg (notAllEmpty h2 hne), hnum]
    simp only [probe_error h2 h0, and_self]
  exact ⟨s', h1, this.1, this.2.trans h3⟩

example : WellFormed [(⟨1, 1, [0], [fun _ => 1]⟩ : Call ℚ 1), ⟨2, 1, [1], [fun _ => 1]⟩] ∧
    ∀ c ∈ [(⟨1, 1, [0], [fun _ => 1]⟩ : Call ℚ 1), ⟨2, 1, [1], [fun _ => 1]⟩], c.epoch ≠ 0 := by
  constructor <;> intro c hc <;>
  · simp only [List.mem_cons, List.not_mem_nil, or_false] at hc
    rcases hc with rfl | rfl <;> simp

end Verif.DVEmb
