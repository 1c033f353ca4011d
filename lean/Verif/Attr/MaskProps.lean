import Verif.Attr.MaskModel
import Mathlib.Algebra.BigOperators.Group.Finset.Basic
import Mathlib.Tactic.Ring

/-! # C234: random masks of active dropout layers during attribution -/

namespace Verif.Mask

open Verif

variable {X V : Type}

/-- Specification: draw `j`, or none if no dropout layer is active. -/
def lab (on : Bool) (j : ℕ) : Option ℕ := if on then some j else none

/-- Specification: number of draws. -/
def cnt (on : Bool) (j : ℕ) : ℕ := if on then j else 0

lemma forward_different (on : Bool) (n k : ℕ) : forward on (some (.different, n)) k = .ok (fun i => lab on (k + i), k + cnt on n) := by
  cases on <;> rfl

lemma forward_none (on : Bool) (k : ℕ) : forward on none k = .ok (fun _ => lab on k, k + cnt on 1) := by
  cases on <;> rfl

lemma grads_eq (on : Bool) (g : Option ℕ → X → V) (b : Batch X) (k : ℕ) :
    grads on g b k = .ok (fun i => g (lab on (k + i)) (b.x i), k + cnt on b.n) := by
  unfold grads
  rw [forward_different]
  rfl

lemma lissaRep_eq (on : Bool) (F : Fns X V) (depth : ℕ) (smp : ℕ → ℕ → Batch X) (next : V → V → V → V) (m : ℕ) (vs : ℕ → V) (k : ℕ) :
    lissaRep on F depth smp next m vs k = .ok (fun i => (List.range depth).foldl (fun cur d =>
      next (vs i) cur (F.hvp (lab on (k + d * m + i)) (smp d i) cur)) (vs i), k + cnt on (depth * m)) := by
  unfold lissaRep
  induction depth with
  | zero => cases on <;> simp [cnt, pure, Except.pure]
  | succ d ih =>
    rw [List.range_succ, List.foldlM_append, ih]
    simp only [List.foldlM_cons, List.foldlM_nil, bind, Except.bind, forward_different, pure, Except.pure, List.foldl_append, List.foldl_cons, List.foldl_nil]
    congr 2
    · funext i
      cases on <;> simp [lab, cnt]
    · cases on
      · rfl
      · simp only [cnt, if_true]
        ring

/-- **C234** (gradients). The gradients of a batch: the loss of every sample is evaluated with a mask of its own. -/
theorem C234_gradients (F : Fns X V) (b : Batch X) (k : ℕ) :
    grads true F.gTrain b k = .ok (fun i => F.gTrain (some (k + i)) (b.x i), k + b.n) ∧
    grads true F.gTest b k = .ok (fun i => F.gTest (some (k + i)) (b.x i), k + b.n) :=
  ⟨grads_eq true F.gTrain b k, grads_eq true F.gTest b k⟩

/-- **C234** (TRAK). The gradient of a sample and its probability of the correct class come from different masks. -/
theorem C234_trak (F : Fns X V) (b : Batch X) (k : ℕ) :
    trakBatch true F b k = .ok (fun i => F.gTrain (some (k + i)) (b.x i), fun i => F.prob (some (k + b.n + i)) (b.x i), k + b.n + b.n) ∧
    ∀ i < b.n, ∀ j < b.n, k + i ≠ k + b.n + j := by
  constructor
  · unfold trakBatch
    rw [grads_eq]
    simp only [bind, Except.bind, grads_eq]
    rfl
  · intro i hi j hj
    omega

variable [AddCommMonoid V]

/-- **C234** (CG, mode `rev-rev`). For each batch of the full training data one mask is drawn, which all test vectors and all iterations share: the iteration solves a system with
one fixed matrix. -/
theorem C234_cg (F : Fns X V) (alg : (V → V) → V → V) (nf : ℕ) (full : ℕ → Batch X) (te : Batch X) (k : ℕ) :
    testBlock true F (.cgRevRev alg) nf full te k = .ok (fun i => ∑ b ∈ Finset.range nf,
      alg (F.hvp (some (k + te.n + b)) (full b)) (F.gTest (some (k + i)) (te.x i)), k + te.n + nf) := by
  unfold testBlock
  rw [grads_eq]
  simp only [bind, Except.bind, Method.loops, if_true]
  induction nf with
  | zero => simp [pure, Except.pure, cnt]
  | succ n ih =>
    rw [List.range_succ, List.foldlM_append, ih]
    simp only [List.foldlM_cons, List.foldlM_nil, bind, Except.bind, transformOne, forward_none, pure, Except.pure, Finset.sum_range_succ]
    rfl

/-- **C234** (LiSSA). Every test vector has its own mask in every recursion of every repetition for every batch of the full training data. -/
theorem C234_lissa (F : Fns X V) (reps depth : ℕ) (smp : Batch X → ℕ → ℕ → ℕ → Batch X) (next : V → V → V → V) (avg : List V → V) (nf : ℕ) (full : ℕ → Batch X)
    (te : Batch X) (k : ℕ) :
    testBlock true F (.lissa reps depth smp next avg) nf full te k = .ok (fun i => ∑ b ∈ Finset.range nf,
      avg ((List.range reps).map fun r => (List.range depth).foldl (fun cur d =>
        next (F.gTest (some (k + i)) (te.x i)) cur (F.hvp (some (k + te.n + ((b * reps + r) * depth + d) * te.n + i)) (smp (full b) r d i) cur))
        (F.gTest (some (k + i)) (te.x i))), k + te.n + nf * reps * depth * te.n) := by
  have inner : ∀ (fb : Batch X) (vs : ℕ → V) (k' : ℕ), transformOne true F fb te.n vs k' (.lissa reps depth smp next avg) =
      .ok (fun i => avg ((List.range reps).map fun r => (List.range depth).foldl (fun cur d =>
        next (vs i) cur (F.hvp (some (k' + (r * depth + d) * te.n + i)) (smp fb r d i) cur)) (vs i)), k' + reps * depth * te.n) := by
    intro fb vs k'
    unfold transformOne
    have h : ∀ n, (List.range n).foldlM (fun (st : List (ℕ → V) × ℕ) rep => (do
        let e ← lissaRep true F depth (smp fb rep) next te.n vs st.2
        pure (st.1 ++ [e.1], e.2) : Except Err (List (ℕ → V) × ℕ))) (([] : List (ℕ → V)), k') =
        .ok ((List.range n).map fun r i => (List.range depth).foldl (fun cur d =>
          next (vs i) cur (F.hvp (some (k' + (r * depth + d) * te.n + i)) (smp fb r d i) cur)) (vs i), k' + n * depth * te.n) := by
      intro n
      induction n with
      | zero => simp [pure, Except.pure]
      | succ n ih =>
        rw [List.range_succ, List.foldlM_append, ih]
        simp only [List.foldlM_cons, List.foldlM_nil, bind, Except.bind, lissaRep_eq, pure, Except.pure, List.map_append, List.map_cons, List.map_nil, lab, cnt, if_true]
        congr 2
        · congr 2
          funext i
          congr 1
          funext cur d
          congr 4
          ring
        · ring
    dsimp only
    rw [h]
    simp only [bind, Except.bind, pure, Except.pure, List.map_map]
    rfl
  unfold testBlock
  rw [grads_eq]
  simp only [bind, Except.bind, Method.loops, if_true, lab, cnt, inner, pure, Except.pure]
  induction nf with
  | zero => simp [pure, Except.pure]
  | succ n ih =>
    rw [List.range_succ, List.foldlM_append, ih]
    simp only [List.foldlM_cons, List.foldlM_nil, bind, Except.bind, pure, Except.pure, Finset.sum_range_succ]
    congr 2
    · funext i
      congr 3
      funext r
      congr 1
      funext cur d
      congr 4
      ring
    · ring

/-- Specification: methods that run the forward pass in a `vmap` without `randomness="different"`. -/
def Strict : Method X V → Prop
  | .explicit => True
  | .cgRevFwd _ => True
  | _ => False

/-- Specification: what one batch of the full training data contributes without masks. -/
def plainOne (F : Fns X V) (fb : Batch X) (v : V) (i : ℕ) : Method X V → V
  | .explicit => F.solve none fb v
  | .cgRevRev alg => alg (F.hvp none fb) v
  | .cgRevFwd alg => alg (F.hvp none fb) v
  | .lissa reps depth smp next avg =>
    avg ((List.range reps).map fun r => (List.range depth).foldl (fun cur d => next v cur (F.hvp none (smp fb r d i) cur)) v)
  | .cached f => f v

/-- Specification: transformed test representation without masks. -/
def plainTest (F : Fns X V) (M : Method X V) (nf : ℕ) (full : ℕ → Batch X) (te : Batch X) (i : ℕ) : V :=
  match M with
  | .cached f => f (F.gTest none (te.x i))
  | M => ∑ b ∈ Finset.range nf, plainOne F (full b) (F.gTest none (te.x i)) i M

omit [AddCommMonoid V] in
lemma transformOne_off (F : Fns X V) (fb : Batch X) (m : ℕ) (vs : ℕ → V) (k : ℕ) (M : Method X V) :
    transformOne false F fb m vs k M = .ok (fun i => plainOne F fb (vs i) i M, k) := by
  cases M with
  | explicit => rfl
  | cgRevRev alg => rfl
  | cgRevFwd alg => rfl
  | cached f => rfl
  | lissa reps depth smp next avg =>
    unfold transformOne
    have h : ∀ n, (List.range n).foldlM (fun (st : List (ℕ → V) × ℕ) rep => (do
        let e ← lissaRep false F depth (smp fb rep) next m vs st.2
        pure (st.1 ++ [e.1], e.2) : Except Err (List (ℕ → V) × ℕ))) (([] : List (ℕ → V)), k) =
        .ok ((List.range n).map fun r i => (List.range depth).foldl (fun cur d => next (vs i) cur (F.hvp none (smp fb r d i) cur)) (vs i), k) := by
      intro n
      induction n with
      | zero => rfl
      | succ n ih =>
        rw [List.range_succ, List.foldlM_append, ih]
        simp only [List.foldlM_cons, List.foldlM_nil, bind, Except.bind, lissaRep_eq, pure, Except.pure, List.map_append, List.map_cons, List.map_nil]
        rfl
    dsimp only
    rw [h]
    simp only [bind, Except.bind, pure, Except.pure, List.map_map]
    rfl

/-- **C234** (no active dropout). Without active dropout layers no method raises or draws a mask: the transformed representations are functions of the data. -/
theorem C234_inactive (F : Fns X V) (M : Method X V) (nf : ℕ) (full : ℕ → Batch X) (te : Batch X) (k : ℕ) :
    testBlock false F M nf full te k = .ok (fun i => plainTest F M nf full te i, k) := by
  unfold testBlock
  rw [grads_eq]
  simp only [bind, Except.bind, transformOne_off, pure, Except.pure]
  have h : (List.range nf).foldlM (fun (st : (ℕ → V) × ℕ) b => (Except.ok (fun i => st.1 i + plainOne F (full b) (F.gTest (lab false (k + i)) (te.x i)) i M, st.2) :
      Except Err ((ℕ → V) × ℕ))) (fun _ => 0, k + cnt false te.n) =
      .ok (fun i => ∑ b ∈ Finset.range nf, plainOne F (full b) (F.gTest none (te.x i)) i M, k) := by
    induction nf with
    | zero => rfl
    | succ n ih =>
      rw [List.range_succ, List.foldlM_append, ih]
      simp only [List.foldlM_cons, List.foldlM_nil, bind, Except.bind, pure, Except.pure, Finset.sum_range_succ]
      rfl
  cases M with
  | cached f => rfl
  | explicit => exact h
  | cgRevRev alg => exact h
  | cgRevFwd alg => exact h
  | lissa reps depth smp next avg => exact h

/-- **C234** (no active dropout, whole loop). -/
theorem C234_inactive_scores (F : Fns X V) (M : Method X V) (nf : ℕ) (full : ℕ → Batch X) (tes trs : List (Batch X)) (k : ℕ) :
    pairLoop false F M nf full tes trs k = .ok (trs.map fun tr => (fun i => F.gTrain none (tr.x i), tes.map fun te i => plainTest F M nf full te i), k) := by
  have ht : ∀ (tes : List (Batch X)) (k : ℕ), testLoop false F M nf full tes k = .ok (tes.map fun te i => plainTest F M nf full te i, k) := by
    intro tes
    induction tes with
    | nil => intro k; rfl
    | cons te tes ih =>
      intro k
      unfold testLoop
      rw [C234_inactive]
      simp only [bind, Except.bind, ih]
      rfl
  induction trs generalizing k with
  | nil => rfl
  | cons tr trs ih =>
    unfold pairLoop
    rw [grads_eq]
    simp only [bind, Except.bind, ht, ih]
    rfl

lemma testBlock_strict (F : Fns X V) (M : Method X V) (hM : Strict M) (nf : ℕ) (hn : 0 < nf) (full : ℕ → Batch X) (te : Batch X) (k : ℕ) :
    testBlock true F M nf full te k = .error .runtimeError := by
  obtain ⟨n, rfl⟩ : ∃ n, nf = n + 1 := ⟨nf - 1, by omega⟩
  unfold testBlock
  rw [grads_eq]
  cases M with
  | explicit => simp [bind, Except.bind, Method.loops, List.range_succ_eq_map, transformOne, forward]
  | cgRevFwd alg => simp [bind, Except.bind, Method.loops, List.range_succ_eq_map, transformOne, forward]
  | cgRevRev alg => exact hM.elim
  | lissa reps depth smp next avg => exact hM.elim
  | cached f => exact hM.elim

lemma testBlock_ok (F : Fns X V) (M : Method X V) (nf : ℕ) (hM : ¬ Strict M ∨ nf = 0) (full : ℕ → Batch X) (te : Batch X) (k : ℕ) :
    ∃ (v : ℕ → V) (k' : ℕ), testBlock true F M nf full te k = .ok (v, k') ∧ k + te.n ≤ k' := by
  cases M with
  | cgRevRev alg => exact ⟨_, _, C234_cg F alg nf full te k, by omega⟩
  | lissa reps depth smp next avg => exact ⟨_, _, C234_lissa F reps depth smp next avg nf full te k, by omega⟩
  | cached f => exact ⟨_, _, rfl, le_refl _⟩
  | explicit =>
    rcases hM with h | rfl
    · exact absurd trivial h
    · exact ⟨_, _, rfl, le_refl _⟩
  | cgRevFwd alg =>
    rcases hM with h | rfl
    · exact absurd trivial h
    · exact ⟨_, _, rfl, le_refl _⟩

lemma testLoop_ok (F : Fns X V) (M : Method X V) (nf : ℕ) (hM : ¬ Strict M ∨ nf = 0) (full : ℕ → Batch X) (tes : List (Batch X)) (k : ℕ) :
    ∃ (vs : List (ℕ → V)) (k' : ℕ) (st : ℕ → ℕ), testLoop true F M nf full tes k = .ok (vs, k') ∧ vs.length = tes.length ∧ k = st 0 ∧ st tes.length = k' ∧
      (∀ t < tes.length, st t ≤ st (t + 1)) ∧
      ∀ (t : ℕ) (te : Batch X), tes[t]? = some te → ∃ v, vs[t]? = some v ∧ testBlock true F M nf full te (st t) = .ok (v, st (t + 1)) := by
  induction tes generalizing k with
  | nil => exact ⟨[], k, fun _ => k, rfl, rfl, rfl, rfl, by simp, by simp⟩
  | cons te tes ih =>
    obtain ⟨v, k1, e1, hk⟩ := testBlock_ok F M nf hM full te k
    obtain ⟨vs, k', st, e2, hl, h0, h1, hm, hb⟩ := ih k1
    refine ⟨v :: vs, k', fun t => if t = 0 then k else st (t - 1), ?_, by simp [hl], by simp, by simp [h1], ?_, ?_⟩
    · unfold testLoop
      rw [e1]
      simp only [bind, Except.bind, e2]
      rfl
    · intro t ht
      rcases t with _ | t
      · simp only [if_true, Nat.zero_add, one_ne_zero, if_false, Nat.sub_self]
        omega
      · simpa using hm t (by simpa using ht)
    · intro t te' h
      rcases t with _ | t
      · simp only [List.getElem?_cons_zero, Option.some.injEq] at h
        subst h
        exact ⟨v, rfl, by simpa [← h0] using e1⟩
      · simpa using hb t te' (by simpa using h)

/-- **C234** (which methods raise). With active dropout layers, `attribute` raises `RuntimeError` exactly for the explicit method and CG in mode `rev-fwd`, as soon as there are a
training batch, a test batch and a batch of full training data. -/
theorem C234_raises (F : Fns X V) (M : Method X V) (nf : ℕ) (full : ℕ → Batch X) (tes trs : List (Batch X)) (k : ℕ) :
    (pairLoop true F M nf full tes trs k = .error .runtimeError ↔ Strict M ∧ 0 < nf ∧ tes ≠ [] ∧ trs ≠ []) ∧
    (¬ (Strict M ∧ 0 < nf ∧ tes ≠ [] ∧ trs ≠ []) → ∃ r, pairLoop true F M nf full tes trs k = .ok r) := by
  have bad : Strict M ∧ 0 < nf ∧ tes ≠ [] ∧ trs ≠ [] → pairLoop true F M nf full tes trs k = .error .runtimeError := by
    rintro ⟨hs, hn, h1, h2⟩
    obtain ⟨te, tes, rfl⟩ := List.exists_cons_of_ne_nil h1
    obtain ⟨tr, trs, rfl⟩ := List.exists_cons_of_ne_nil h2
    unfold pairLoop testLoop
    rw [grads_eq]
    simp only [bind, Except.bind, testBlock_strict F M hs nf hn]
  have good : ¬ (Strict M ∧ 0 < nf ∧ tes ≠ [] ∧ trs ≠ []) → ∃ r, pairLoop true F M nf full tes trs k = .ok r := by
    intro h
    have hloop : trs ≠ [] → ∀ k, ∃ r, testLoop true F M nf full tes k = .ok r := by
      intro ht k
      by_cases h1 : tes = []
      · subst h1
        exact ⟨_, rfl⟩
      · obtain ⟨vs, k', -, e, -⟩ := testLoop_ok F M nf (by
          by_cases hs : Strict M
          · right
            by_contra hc
            exact h ⟨hs, by omega, h1, ht⟩
          · exact Or.inl hs) full tes k
        exact ⟨_, e⟩
    by_cases ht : trs = []
    · subst ht
      exact ⟨_, rfl⟩
    · have hl := hloop ht
      clear h hloop bad ht
      induction trs generalizing k with
      | nil => exact ⟨_, rfl⟩
      | cons tr trs ih =>
        unfold pairLoop
        rw [grads_eq]
        obtain ⟨q, hq⟩ := hl (k + cnt true tr.n)
        obtain ⟨r, hr⟩ := ih q.2
        exact ⟨((fun i => F.gTrain (some (k + i)) (tr.x i), q.1) :: r.1, r.2), by
          simp only [bind, Except.bind, hq, hr]
          rfl⟩
  refine ⟨⟨fun h => ?_, bad⟩, good⟩
  by_contra hc
  obtain ⟨r, hr⟩ := good hc
  rw [hr] at h
  cases h

/-- **C234** (all draws of a call are different). With active dropout layers and a method that does not raise, training batch `b` starts at draw `st b`, its gradients take the next
draws, and then the representations of all test batches are computed anew from later draws, before the next training batch starts: the same test sample has other masks for other
training batches. -/
theorem C234_order (F : Fns X V) (M : Method X V) (nf : ℕ) (hM : ¬ Strict M ∨ nf = 0) (full : ℕ → Batch X) (tes trs : List (Batch X)) (k : ℕ) :
    ∃ (out : List ((ℕ → V) × List (ℕ → V))) (k' : ℕ) (st : ℕ → ℕ) (sub : ℕ → ℕ → ℕ),
      pairLoop true F M nf full tes trs k = .ok (out, k') ∧ out.length = trs.length ∧ st 0 = k ∧ st trs.length = k' ∧
      ∀ (b : ℕ) (tr : Batch X), trs[b]? = some tr → ∃ o, out[b]? = some o ∧ (∀ i, o.1 i = F.gTrain (some (st b + i)) (tr.x i)) ∧
        sub b 0 = st b + tr.n ∧ sub b tes.length = st (b + 1) ∧ o.2.length = tes.length ∧
        ∀ (t : ℕ) (te : Batch X), tes[t]? = some te → sub b t + te.n ≤ sub b (t + 1) ∧
          ∃ v, o.2[t]? = some v ∧ testBlock true F M nf full te (sub b t) = .ok (v, sub b (t + 1)) := by
  induction trs generalizing k with
  | nil => exact ⟨[], k, fun _ => k, fun _ _ => k, rfl, rfl, rfl, rfl, by simp⟩
  | cons tr trs ih =>
    obtain ⟨vs, k1, su, e1, hl, h0, h1, -, hb⟩ := testLoop_ok F M nf hM full tes (k + tr.n)
    obtain ⟨out, k', st, sub, e2, hlen, g0, g1, gb⟩ := ih k1
    refine ⟨(fun i => F.gTrain (some (k + i)) (tr.x i), vs) :: out, k', fun b => if b = 0 then k else st (b - 1), fun b => if b = 0 then su else sub (b - 1), ?_, ?_, ?_, ?_, ?_⟩
    · unfold pairLoop
      rw [grads_eq]
      simp only [bind, Except.bind, cnt, if_true, e1, e2]
      rfl
    · simp [hlen]
    · rfl
    · simp [g1]
    · intro b tr' h
      rcases b with _ | b
      · simp only [List.getElem?_cons_zero, Option.some.injEq] at h
        subst h
        refine ⟨_, rfl, fun i => rfl, by simp [← h0], by simp [h1, g0], hl, ?_⟩
        intro t te hte
        obtain ⟨v, hv, hvb⟩ := hb t te hte
        obtain ⟨v', k'', e, hle⟩ := testBlock_ok F M nf hM full te (su t)
        rw [hvb] at e
        simp only [Except.ok.injEq, Prod.mk.injEq] at e
        refine ⟨?_, v, hv, ?_⟩
        · simp only [if_true]
          omega
        · simpa using hvb
      · simpa using gb b tr' (by simpa using h)

/-- A case: samples are numbers, the gradient is the mask's number plus the sample. -/
def demoFns : Fns ℕ ℕ := ⟨fun d x => d.getD 0 * 100 + x, fun d x => d.getD 0 * 100 + x, fun d x => d.getD 0 * 100 + x, fun d b v => d.getD 0 + b.n + v, fun _ _ v => v, 3⟩

/-- One test batch of two samples, for two training batches: the test gradients of the second differ from those of the first. -/
example : (pairLoop true demoFns (.cached id) 0 (fun _ => ⟨0, id⟩) [⟨2, id⟩] [⟨1, id⟩, ⟨1, id⟩] 0).toOption.map (fun r => (r.1.map fun o => (o.1 0, o.2.map fun v => (v 0, v 1)), r.2)) =
    some ([(0, [(100, 201)]), (300, [(400, 501)])], 6) := by decide +kernel

/-- The explicit method raises. -/
example : (pairLoop true demoFns .explicit 1 (fun _ => ⟨1, id⟩) [⟨2, id⟩] [⟨1, id⟩] 0).toOption = none := rfl

end Verif.Mask
