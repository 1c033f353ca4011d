import Mathlib.Tactic.Module
import Mathlib.Tactic.Abel
import Mathlib.Tactic.Ring
import Mathlib.Data.List.Perm.Basic
import Verif.DVEmb.Spec

/-!
# Helper lemmas for the data value embeddings
-/

namespace Verif.DVEmb

open Verif Matrix

variable {K : Type} [Field K] {d : ℕ}

/-! ## Dictionaries -/

theorem lookup_dset {α : Type} (k e : ℤ) (v : α) (m : Dict α) :
    (dset k v m).lookup e = if e = k then some v else m.lookup e := by
  induction m with
  | nil =>
    by_cases h : e = k
    · simp [dset, h]
    · simp [dset, List.lookup_cons, h, beq_false_of_ne h]
  | cons p t ih =>
    obtain ⟨k', v'⟩ := p
    unfold dset
    by_cases h1 : k' = k
    · subst h1
      by_cases h2 : e = k'
      · simp [h2]
      · simp [List.lookup_cons, h2, beq_false_of_ne h2]
    · rw [if_neg h1]
      by_cases h2 : e = k'
      · subst h2; simp [h1]
      · simp [List.lookup_cons, ih, beq_false_of_ne h2]

theorem keys_dset {α : Type} (k : ℤ) (v : α) (m : Dict α) :
    (dset k v m).map Prod.fst =
      if k ∈ m.map Prod.fst then m.map Prod.fst else m.map Prod.fst ++ [k] := by
  induction m with
  | nil => simp [dset]
  | cons p t ih =>
    obtain ⟨k', v'⟩ := p
    unfold dset
    by_cases h1 : k' = k
    · subst h1; simp
    · rw [if_neg h1, List.map_cons, ih]
      have h3 : (k ∈ List.map Prod.fst ((k', v') :: t)) ↔ (k ∈ List.map Prod.fst t) := by
        simp [Ne.symm h1]
      by_cases h2 : k ∈ List.map Prod.fst t
      · rw [if_pos h2, if_pos (h3.2 h2)]; rfl
      · rw [if_neg h2, if_neg (fun h => h2 (h3.1 h))]; rfl

theorem lookup_dpush {α : Type} (k e : ℤ) (x : α) (m : Dict (List α)) :
    (dpush k x m).lookup e =
      if e = k then (m.lookup e).map (· ++ [x]) else m.lookup e := by
  induction m with
  | nil => simp [dpush]
  | cons p t ih =>
    obtain ⟨k', v'⟩ := p
    unfold dpush at ih ⊢
    rw [List.map_cons]
    by_cases h2 : e = k'
    · subst h2
      by_cases h1 : e = k
      · subst h1; simp
      · simp [h1]
    · by_cases h1 : k' = k
      · subst h1; simp only [if_true, List.lookup_cons, beq_false_of_ne h2, ih]
      · simp only [if_neg h1, List.lookup_cons, beq_false_of_ne h2, ih]

theorem keys_dpush {α : Type} (k : ℤ) (x : α) (m : Dict (List α)) :
    (dpush k x m).map Prod.fst = m.map Prod.fst := by
  unfold dpush
  rw [List.map_map]
  apply List.map_congr_left
  intro p _
  simp only [Function.comp]
  split_ifs <;> rfl

theorem lookup_isSome {α : Type} (e : ℤ) (m : Dict α) :
    (m.lookup e).isSome ↔ e ∈ m.map Prod.fst := by
  induction m with
  | nil => simp
  | cons p t ih =>
    obtain ⟨k', v'⟩ := p
    by_cases h2 : e = k'
    · subst h2; simp
    · rw [List.lookup_cons, beq_false_of_ne h2]
      simp only [ih, List.map_cons, List.mem_cons, h2, false_or]

theorem lookup_of_mem {α : Type} {m : Dict α} (hn : (m.map Prod.fst).Nodup) {p : ℤ × α}
    (hp : p ∈ m) : m.lookup p.1 = some p.2 := by
  induction m with
  | nil => cases hp
  | cons q t ih =>
    obtain ⟨k', v'⟩ := q
    rw [List.map_cons, List.nodup_cons] at hn
    rcases List.mem_cons.1 hp with rfl | h
    · simp
    · have : p.1 ≠ k' := by
        rintro h1
        exact hn.1 (List.mem_map.2 ⟨p, h, h1⟩)
      rw [List.lookup_cons, beq_false_of_ne this]
      exact ih hn.2 h

theorem mem_of_lookup {α : Type} {m : Dict α} {e : ℤ} {v : α} (h : m.lookup e = some v) :
    (e, v) ∈ m := by
  induction m with
  | nil => simp at h
  | cons q t ih =>
    obtain ⟨k', v'⟩ := q
    by_cases h2 : e = k'
    · subst h2; simp at h; subst h; exact List.mem_cons_self
    · rw [List.lookup_cons, beq_false_of_ne h2] at h
      exact List.mem_cons_of_mem _ (ih h)

/-! ## Propagation through later steps -/

theorem propagate_add (L : List (Call K d)) (x y : Fin d → K) :
    propagate L (x + y) = propagate L x + propagate L y := by
  induction L generalizing x y with
  | nil => rfl
  | cons c rest ih =>
    unfold propagate
    rw [← ih]
    congr 1
    have : (c.g.map fun z => (z ⬝ᵥ (x + y)) • z).sum
        = (c.g.map fun z => (z ⬝ᵥ x) • z).sum + (c.g.map fun z => (z ⬝ᵥ y) • z).sum := by
      rw [← List.sum_map_add]
      congr 1
      apply List.map_congr_left
      intro z _
      rw [dotProduct_add, add_smul]
    rw [this]
    module

theorem propagate_smul (L : List (Call K d)) (a : K) (x : Fin d → K) :
    propagate L (a • x) = a • propagate L x := by
  induction L generalizing x with
  | nil => rfl
  | cons c rest ih =>
    unfold propagate
    rw [← ih]
    congr 1
    have : (c.g.map fun z => (z ⬝ᵥ (a • x)) • z).sum
        = a • (c.g.map fun z => (z ⬝ᵥ x) • z).sum := by
      rw [List.smul_sum, List.map_map]
      congr 1
      apply List.map_congr_left
      intro z _
      simp only [Function.comp, dotProduct_smul, smul_smul, smul_eq_mul]
    rw [this]
    module

/-- Propagation as a linear map. -/
def propL (L : List (Call K d)) : (Fin d → K) →ₗ[K] (Fin d → K) where
  toFun := propagate L
  map_add' := propagate_add L
  map_smul' := propagate_smul L

theorem propagate_append (A B : List (Call K d)) (x : Fin d → K) :
    propagate (A ++ B) x = propagate B (propagate A x) := by
  induction A generalizing x with
  | nil => rfl
  | cons c rest ih => exact ih _

/-- The matrix `M` summarises the processed suffix. -/
def MInv (M : Matrix (Fin d) (Fin d) K) (P : List (Call K d)) : Prop :=
  ∀ x, x - M *ᵥ x = propagate P x

theorem sum_vecMulVec_mulVec (l : List ((Fin d → K) × (Fin d → K))) (x : Fin d → K) :
    (l.map fun p => vecMulVec p.1 p.2).sum *ᵥ x = (l.map fun p => (p.2 ⬝ᵥ x) • p.1).sum := by
  induction l with
  | nil => simp
  | cons p t ih =>
    rw [List.map_cons, List.sum_cons, List.map_cons, List.sum_cons, Matrix.add_mulVec, ih]
    congr 1
    ext k
    simp only [mulVec, dotProduct, vecMulVec_apply, Pi.smul_apply, smul_eq_mul, Finset.sum_mul]
    apply Finset.sum_congr rfl
    intro j _
    ring

/-- What `tick` does to the matrix and the embedding when the batch is well formed. -/
def tickPure (c : Call K d) (st : Matrix (Fin d) (Fin d) K × (ℕ → Fin d → K)) :
    Matrix (Fin d) (Fin d) K × (ℕ → Fin d → K) :=
  let dv := c.g.map fun x => c.eta • x - c.eta • (st.1 *ᵥ x)
  (st.1 + ((dv.zip c.g).map fun p => vecMulVec p.1 p.2).sum,
   fun i => st.2 i + (((c.idx.zip dv).filter fun p => p.1 = i).map Prod.snd).sum)

theorem tick_ok (c : Call K d) (h : c.idx.length = c.g.length)
    (st : Matrix (Fin d) (Fin d) K × (ℕ → Fin d → K)) :
    tick st.1 st.2 c.eta c.idx c.g = .ok (tickPure c st) := by
  unfold tick tickPure
  rw [if_neg (not_not.2 h)]

theorem tickPure_inv (c : Call K d) {st : Matrix (Fin d) (Fin d) K × (ℕ → Fin d → K)}
    {P : List (Call K d)} (h : MInv st.1 P) : MInv (tickPure c st).1 (c :: P) := by
  intro x
  unfold tickPure
  simp only
  rw [Matrix.add_mulVec, sum_vecMulVec_mulVec]
  have h1 : ((c.g.map fun y => c.eta • y - c.eta • (st.1 *ᵥ y)).zip c.g)
      = c.g.map fun y => (c.eta • y - c.eta • (st.1 *ᵥ y), y) := by
    induction c.g with
    | nil => rfl
    | cons y t ih => simp only [List.map_cons, List.zip_cons_cons, ih]
  rw [h1, List.map_map, ← sub_sub, h x]
  conv_rhs => unfold propagate
  rw [sub_eq_add_neg _ (c.eta • _), propagate_add, ← neg_smul, propagate_smul,
    sub_eq_add_neg, neg_smul]
  congr 2
  change _ = c.eta • propL P _
  rw [map_list_sum, List.map_map, List.smul_sum, List.map_map]
  congr 1
  apply List.map_congr_left
  intro y _
  simp only [Function.comp]
  rw [map_smul, ← smul_sub, h y]
  exact smul_comm _ _ _

/-- The contribution of a step to the embedding of sample `i`. -/
theorem tickPure_emb (c : Call K d) {st : Matrix (Fin d) (Fin d) K × (ℕ → Fin d → K)}
    {P : List (Call K d)} (h : MInv st.1 P) (i : ℕ) :
    (tickPure c st).2 i = st.2 i +
      (((c.idx.zip c.g).filter fun p => p.1 = i).map fun p => propagate P (c.eta • p.2)).sum := by
  unfold tickPure
  simp only
  congr 2
  rw [List.zip_map_right, List.filter_map, List.map_map]
  have : ((fun p : ℕ × (Fin d → K) => decide (p.1 = i)) ∘
      Prod.map id fun x => c.eta • x - c.eta • (st.1 *ᵥ x)) = fun p => decide (p.1 = i) := by
    funext p; rfl
  rw [this]
  apply List.map_congr_left
  intro p _
  simp only [Function.comp, Prod.map]
  rw [propagate_smul, ← h, smul_sub]

/-- The steps `L` of one epoch, processed backwards, when the later steps are `P`. -/
def specSteps (i : ℕ) (P : List (Call K d)) : List (Call K d) → (Fin d → K)
  | [] => 0
  | c :: rest =>
    (((c.idx.zip c.g).filter fun p => p.1 = i).map
      fun p => propagate (rest ++ P) (c.eta • p.2)).sum + specSteps i P rest

theorem foldr_tick (L : List (Call K d)) {st : Matrix (Fin d) (Fin d) K × (ℕ → Fin d → K)}
    {P : List (Call K d)} (h : MInv st.1 P) :
    MInv (L.foldr tickPure st).1 (L ++ P) ∧
      ∀ i, (L.foldr tickPure st).2 i = st.2 i + specSteps i P L := by
  induction L with
  | nil => exact ⟨h, fun i => (add_zero _).symm⟩
  | cons c rest ih =>
    refine ⟨tickPure_inv c ih.1, fun i => ?_⟩
    rw [List.foldr_cons, tickPure_emb c ih.1 i, ih.2 i]
    simp only [specSteps]
    abel

/-! ## The loops -/

omit [Field K] in
theorem getIdx_map_append {α : Type} (f : Call K d → α) (L R : List (Call K d)) (c : Call K d) :
    getIdx ((L ++ c :: R).map f) L.length = .ok (f c) := by
  unfold getIdx
  rw [List.getElem?_map, List.getElem?_append_right (le_refl _)]
  simp

theorem foldlM_iter (s : St K d) (e : ℤ) (L R : List (Call K d))
    (hl : s.lrs.lookup e = some ((L ++ R).map Call.eta))
    (hi : s.idxs.lookup e = some ((L ++ R).map Call.idx))
    (hg : s.grads.lookup e = some ((L ++ R).map Call.g))
    (hlen : ∀ c ∈ L, c.idx.length = c.g.length)
    (st : Matrix (Fin d) (Fin d) K × (ℕ → Fin d → K)) :
    (List.range L.length).reverse.foldlM (iter s e) st = .ok (L.foldr tickPure st) := by
  induction L using List.reverseRecOn generalizing R st with
  | nil => rfl
  | append_singleton L c ih =>
    rw [List.append_assoc, List.singleton_append] at hl hi hg
    have h1 : iter s e st L.length = .ok (tickPure c st) := by
      unfold iter getKey
      rw [hl, hi, hg]
      simp only [getIdx_map_append, bind, Except.bind]
      exact tick_ok c (hlen c (by simp)) st
    rw [List.length_append, List.length_singleton, List.range_succ, List.reverse_append,
      List.reverse_singleton, List.singleton_append, List.foldlM_cons, h1,
      List.foldr_append]
    exact ih (c :: R) hl hi hg (fun c' h' => hlen c' (by simp [h'])) _

theorem epochRun_ok (s : St K d) (e : ℤ) (L : List (Call K d))
    (hl : s.lrs.lookup e = some (L.map Call.eta))
    (hi : s.idxs.lookup e = some (L.map Call.idx))
    (hg : s.grads.lookup e = some (L.map Call.g))
    (hlen : ∀ c ∈ L, c.idx.length = c.g.length) (M : Matrix (Fin d) (Fin d) K) :
    epochRun s e M = .ok (L.foldr tickPure (M, fun _ => 0)) := by
  unfold epochRun
  have : getKey s.lrs e = .ok (L.map Call.eta) := by unfold getKey; rw [hl]
  rw [this]
  simp only [bind, Except.bind, List.length_map]
  exact foldlM_iter s e L [] (by simpa using hl) (by simpa using hi) (by simpa using hg) hlen _

/-- What the dictionaries hold for a run `calls`: for every epoch the calls of that epoch. -/
structure Holds (s : St K d) (calls : List (Call K d)) : Prop where
  lrs : ∀ e, s.lrs.lookup e =
    if calls.filter (·.epoch = e) = [] then none
    else some ((calls.filter (·.epoch = e)).map Call.eta)
  idxs : ∀ e, s.idxs.lookup e =
    if calls.filter (·.epoch = e) = [] then none
    else some ((calls.filter (·.epoch = e)).map Call.idx)
  grads : ∀ e, s.grads.lookup e =
    if calls.filter (·.epoch = e) = [] then none
    else some ((calls.filter (·.epoch = e)).map Call.g)
  nodupL : (s.lrs.map Prod.fst).Nodup
  nodupI : (s.idxs.map Prod.fst).Nodup
  nodupG : (s.grads.map Prod.fst).Nodup

omit [Field K] in
theorem filter_ge (calls : List (Call K d)) (hs : calls.Pairwise (·.epoch ≤ ·.epoch)) (e : ℤ) :
    calls.filter (e ≤ ·.epoch) = calls.filter (·.epoch = e) ++ calls.filter (e < ·.epoch) := by
  induction calls with
  | nil => rfl
  | cons c t ih =>
    rw [List.pairwise_cons] at hs
    have ih := ih hs.2
    rcases lt_trichotomy c.epoch e with h | h | h
    · rw [List.filter_cons_of_neg (by simpa using h), List.filter_cons_of_neg (by simp; omega),
        List.filter_cons_of_neg (by simp; omega), ih]
    · rw [List.filter_cons_of_pos (by simp; omega), List.filter_cons_of_pos (by simpa using h),
        List.filter_cons_of_neg (by simp; omega), ih, List.cons_append]
    · rw [List.filter_cons_of_pos (by simp; omega), List.filter_cons_of_neg (by simp; omega),
        List.filter_cons_of_pos (by simpa using h), ih]
      have : t.filter (·.epoch = e) = [] := by
        rw [List.filter_eq_nil_iff]
        intro x hx
        have := hs.1 x hx
        simp; omega
      rw [this, List.nil_append, List.nil_append]

theorem specEmb_skip (e : ℤ) (i : ℕ) (A B : List (Call K d)) (h : ∀ c ∈ A, c.epoch ≠ e) :
    specEmb e i (A ++ B) = specEmb e i B := by
  induction A with
  | nil => rfl
  | cons c t ih =>
    rw [List.cons_append]
    conv_lhs => unfold specEmb
    rw [if_neg (h c List.mem_cons_self), zero_add]
    exact ih fun c hc => h c (List.mem_cons_of_mem _ hc)

theorem specEmb_steps (e : ℤ) (i : ℕ) (A B : List (Call K d)) (h : ∀ c ∈ A, c.epoch = e)
    (hB : ∀ c ∈ B, c.epoch ≠ e) :
    specEmb e i (A ++ B) = specSteps i B A := by
  induction A with
  | nil =>
    have := specEmb_skip e i B [] hB
    rw [List.append_nil] at this
    rw [List.nil_append, this]; rfl
  | cons c t ih =>
    rw [List.cons_append]
    unfold specEmb specSteps
    rw [if_pos (h c List.mem_cons_self), ih fun c hc => h c (List.mem_cons_of_mem _ hc)]

omit [Field K] in
theorem filter_lt_ge (calls : List (Call K d)) (hs : calls.Pairwise (·.epoch ≤ ·.epoch)) (e : ℤ) :
    calls = calls.filter (·.epoch < e) ++ calls.filter (e ≤ ·.epoch) := by
  induction calls with
  | nil => rfl
  | cons c t ih =>
    rw [List.pairwise_cons] at hs
    by_cases h : c.epoch < e
    · rw [List.filter_cons_of_pos (by simpa using h), List.filter_cons_of_neg (by simpa using h),
        List.cons_append, ← ih hs.2]
    · have h0 : e ≤ c.epoch := by omega
      have h1 : t.filter (·.epoch < e) = [] := by
        rw [List.filter_eq_nil_iff]; intro x hx; have := hs.1 x hx; simp; omega
      have h2 : t.filter (e ≤ ·.epoch) = t := by
        rw [List.filter_eq_self]; intro x hx; have := hs.1 x hx; simp; omega
      rw [List.filter_cons_of_neg (by simpa using h0), List.filter_cons_of_pos (by simpa using h0),
        h1, h2, List.nil_append]

theorem specEmb_sorted (calls : List (Call K d)) (hs : calls.Pairwise (·.epoch ≤ ·.epoch)) (e : ℤ)
    (i : ℕ) :
    specEmb e i calls
      = specSteps i (calls.filter (e < ·.epoch)) (calls.filter (·.epoch = e)) := by
  conv_lhs => rw [filter_lt_ge calls hs e, filter_ge calls hs e]
  rw [specEmb_skip, specEmb_steps]
  · intro c hc; simpa using (List.mem_filter.1 hc).2
  · intro c hc; have := (List.mem_filter.1 hc).2; simp at this; omega
  · intro c hc; have := (List.mem_filter.1 hc).2; simp at this; omega

/-- The epoch loop on a descending list of epochs that covers all epochs below the ones already
processed. -/
theorem epochLoop_ok (s : St K d) (calls chron : List (Call K d)) (h : Holds s calls)
    (hst : ∀ e, chron.filter (·.epoch = e) = calls.filter (·.epoch = e))
    (hs : chron.Pairwise (·.epoch ≤ ·.epoch))
    (hlen : ∀ c ∈ calls, c.idx.length = c.g.length) (num : ℕ) (es : List ℤ)
    (hdesc : es.Pairwise (· > ·)) (hmem : ∀ e ∈ es, calls.filter (·.epoch = e) ≠ [])
    (M : Matrix (Fin d) (Fin d) K) (P : List (Call K d)) (hM : MInv M P)
    (hP : ∀ e ∈ es.head?, P = chron.filter (e < ·.epoch))
    (hcov : ∀ c ∈ calls, ∀ e ∈ es.head?, c.epoch ≤ e → c.epoch ∈ es)
    (emb : Dict (Emb K d)) :
    (epochLoop s num es M emb).2 = .ok () ∧
    (∀ e ∉ es, (epochLoop s num es M emb).1.lookup e = emb.lookup e) ∧
    (∀ e ∈ es, ∃ E, (epochLoop s num es M emb).1.lookup e = some ⟨num, E⟩ ∧
      ∀ i, E i = specEmb e i chron) ∧
    (epochLoop s num es M emb).1.map Prod.fst =
      es.foldl (fun ks e => if e ∈ ks then ks else ks ++ [e]) (emb.map Prod.fst) := by
  induction es generalizing M P emb with
  | nil => exact ⟨rfl, fun e _ => rfl, fun e he => absurd he List.not_mem_nil, rfl⟩
  | cons e es ih =>
    rw [List.pairwise_cons] at hdesc
    have hne := hmem e List.mem_cons_self
    have hsub : ∀ c ∈ calls.filter (·.epoch = e), c.idx.length = c.g.length :=
      fun c hc => hlen c (List.mem_filter.1 hc).1
    have h1 := epochRun_ok s e (calls.filter (·.epoch = e))
      (by rw [h.lrs, if_neg hne]) (by rw [h.idxs, if_neg hne]) (by rw [h.grads, if_neg hne]) hsub M
    have hP0 : P = chron.filter (e < ·.epoch) := hP e rfl
    obtain ⟨h2, h3⟩ := foldr_tick (calls.filter (·.epoch = e))
      (st := (M, fun _ => 0)) (P := P) hM
    have h4 : calls.filter (·.epoch = e) ++ P = chron.filter (e ≤ ·.epoch) := by
      rw [hP0, ← hst e, ← filter_ge chron hs e]
    have hmemch : ∀ c ∈ chron, c ∈ calls := by
      intro c hc
      have h7 : c ∈ chron.filter (·.epoch = c.epoch) := by simp [hc]
      rw [hst] at h7
      exact (List.mem_filter.1 h7).1
    have h5 := ih hdesc.2 (fun x hx => hmem x (List.mem_cons_of_mem _ hx)) _ _ h2
      (by
        intro e' he'
        rw [h4]
        apply List.filter_congr
        intro c hc
        have hlt : e' < e := hdesc.1 e' (List.mem_of_mem_head? he')
        have : e ≤ c.epoch ↔ e' < c.epoch := by
          constructor
          · intro h'; omega
          · intro h'
            by_contra h6
            have h6' : c.epoch ≤ e := by omega
            have := hcov c (hmemch c hc) e rfl h6'
            rcases List.mem_cons.1 this with h8 | h8
            · omega
            · cases es with
              | nil => cases he'
              | cons a t =>
                simp only [List.head?_cons, Option.mem_some_iff] at he'
                subst he'
                rcases List.mem_cons.1 h8 with h9 | h9
                · omega
                · have := (List.pairwise_cons.1 hdesc.2).1 _ h9
                  omega
        simp [this])
      (by
        intro c hc e' he' hle
        have hlt : e' < e := hdesc.1 e' (List.mem_of_mem_head? he')
        have := hcov c hc e rfl (by omega)
        rcases List.mem_cons.1 this with h8 | h8
        · omega
        · exact h8)
      (dset e ⟨num, (List.foldr tickPure (M, fun _ => 0) (calls.filter (·.epoch = e))).2⟩ emb)
    have h6 : epochLoop s num (e :: es) M emb = epochLoop s num es
        (List.foldr tickPure (M, fun _ => 0) (calls.filter (·.epoch = e))).1
        (dset e ⟨num, (List.foldr tickPure (M, fun _ => 0) (calls.filter (·.epoch = e))).2⟩
          emb) := by
      conv_lhs => unfold epochLoop
      rw [h1]
    rw [h6]
    obtain ⟨a1, a2, a3, a4⟩ := h5
    refine ⟨a1, ?_, ?_, ?_⟩
    · intro e' he'
      rw [List.mem_cons, not_or] at he'
      rw [a2 e' he'.2, lookup_dset, if_neg he'.1]
    · intro e' he'
      rcases List.mem_cons.1 he' with rfl | h'
      · refine ⟨(List.foldr tickPure (M, fun _ => 0) (calls.filter (·.epoch = e'))).2, ?_, ?_⟩
        · rw [a2 e' (fun hh => lt_irrefl _ (hdesc.1 e' hh)), lookup_dset, if_pos rfl]
        · intro i
          rw [h3 i, zero_add, specEmb_sorted chron hs, hP0, hst]
      · exact a3 e' h'
    · rw [a4, List.foldl_cons, keys_dset]

end Verif.DVEmb
