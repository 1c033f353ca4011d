import Verif.BlockIF.OffloadModel
import Verif.BlockIF.ConcatProps
import Verif.BlockIF.CacheLemmas
import Mathlib.Data.List.Induction

/-! # C143: the in-memory stores -/

namespace Verif.BlockIF

open Verif

variable {K P : Type} [Zero K]

/-! ### Specification -/

/-- The gradients last stored for a batch, none after `clear_cache`. -/
def lastStored (k : Kind) (i : ℕ) (ops : List (MemOp K P)) : Option (List (Option (Grad K))) :=
  ops.foldl (fun acc op => match op with
    | .store k' i' gs => if k' = k ∧ i' = i then some gs else acc
    | .storePre _ _ => acc
    | .clear => none) none

/-- The preconditioner last stored for a layer, none after `clear_cache`. -/
def lastPre (i : ℕ) (ops : List (MemOp K P)) : Option P :=
  ops.foldl (fun acc op => match op with
    | .store _ _ _ => acc
    | .storePre i' p => if i' = i then p else acc
    | .clear => none) none

/-- The gradients of the first store of a run. -/
def firstStored : List (MemOp K P) → Option (List (Option (Grad K)))
  | [] => none
  | .store _ _ gs :: _ => some gs
  | .storePre _ _ :: ops => firstStored ops
  | .clear :: ops => firstStored ops

/-- Gradients of a batch for layers of dimensions `ds`: matrices with the same number of rows, some layers may be empty tensors but not all. -/
def Proper (ds : List ℕ) (gs : List (Option (Grad K))) : Prop :=
  ∃ gs', gs = gs'.map some ∧ (∃ g ∈ gs', g.flatten ≠ []) ∧ ∃ B, List.Forall₂ (Fits B) gs' ds

/-- `t` is what was stored: per layer the matrix, or zeros for an empty tensor. -/
def IsStored (ds : List ℕ) (gs : List (Option (Grad K))) (ts : List (Grad K)) : Prop :=
  ∃ gs' B, gs = gs'.map some ∧ List.Forall₂ (Fits B) gs' ds ∧ ts = List.zipWith (expected B) gs' ds

/-- All batches of a run fit the layers, and the first has no empty layer. -/
def Uniform (ds : List ℕ) (ops : List (MemOp K P)) : Prop :=
  (∀ k i gs, MemOp.store k i gs ∈ ops → Proper ds gs) ∧ ∀ gs, firstStored ops = some gs → ∀ g, some g ∈ gs → g.flatten ≠ []

/-! ### Helper lemmas -/

omit [Zero K] in
theorem firstStored_append (ops : List (MemOp K P)) (op : MemOp K P) :
    firstStored (ops ++ [op]) = (firstStored ops).or (firstStored [op]) := by
  induction ops with
  | nil => rfl
  | cons a ops ih => cases a <;> simp [firstStored, ih]

omit [Zero K] in
theorem uniform_prefix {ds : List ℕ} {ops : List (MemOp K P)} {op : MemOp K P} (h : Uniform ds (ops ++ [op])) : Uniform ds ops := by
  refine ⟨fun k i gs hm => h.1 k i gs (by simp [hm]), fun gs hg => h.2 gs ?_⟩
  rw [firstStored_append, hg]
  rfl

omit [Zero K] in
theorem cache_put (m : Mem K P) (k k' : Kind) (i : ℕ) (t : Grad K) :
    (m.put k i t).cache k' = if k' = k then PyDict.set i t (m.cache k) else m.cache k' := by
  cases k <;> cases k' <;> simp [Mem.put, Mem.cache]

theorem sortedItems_lt {R : Type} {c : List (ℕ × R)} (h : (PyDict.keys c).Nodup) : (PyDict.keys (sortedItems c)).Pairwise (· < ·) := by
  unfold PyDict.keys sortedItems
  rw [List.pairwise_map, List.pairwise_filterMap]
  refine (sorted_lt h).imp ?_
  intro a b hab x hx y hy
  rw [Option.map_eq_some_iff] at hx hy
  obtain ⟨-, -, rfl⟩ := hx
  obtain ⟨-, -, rfl⟩ := hy
  exact hab

/-- What holds in every state of a uniform run. -/
structure MemInv (ds : List ℕ) (layers : ℕ) (ops : List (MemOp K P)) (m : Mem K P) : Prop where
  hl : m.layers = layers
  len : m.pre.length = layers
  dims : m.dims = if (firstStored ops).isSome then some ds else none
  nodup : ∀ k, (PyDict.keys (m.cache k)).Nodup
  gone : ∀ k i, lastStored k i ops = none → PyDict.get? (m.cache k) i = none
  here : ∀ k i gs, lastStored k i ops = some gs → ∃ t, PyDict.get? (m.cache k) i = some t ∧
    ∃ ts, split (some ds) t = .ok ts ∧ IsStored ds gs ts
  pre : ∀ i < layers, m.pre[i]? = some (lastPre i ops)

theorem store_proper {ds : List ℕ} (m : Mem K P) (hd : m.dims = none ∨ m.dims = some ds) (k : Kind) (i : ℕ) (gs : List (Option (Grad K)))
    (hp : Proper ds gs) (hf : m.dims = none → ∀ g, some g ∈ gs → g.flatten ≠ []) :
    ∃ t ts, m.store k i gs = (({ m with dims := some ds } : Mem K P).put k i t, .ok ()) ∧ split (some ds) t = .ok ts ∧ IsStored ds gs ts := by
  obtain ⟨gs', rfl, hne, B, hB⟩ := hp
  obtain ⟨t, h1, -, h2⟩ := C57_round_trip hB hne
  have hdims : ensureDims m.dims (gs'.map some) = .ok ds := by
    rcases hd with hd | hd
    · rw [hd, ensureDims_none]
      congr 1
      have hall : ∀ g ∈ gs', g.flatten ≠ [] := fun g hg => hf hd g (List.mem_map_of_mem hg)
      clear hne h1 h2 hf
      induction hB with
      | nil => rfl
      | @cons g d gs ds hg _ ih =>
        have h0 := hall g (by simp)
        rw [List.map_cons, ih (fun g' hg' => hall g' (List.mem_cons_of_mem _ hg')), if_neg h0,
          width_rect (hg h0) (by rintro rfl; exact h0 rfl)]
    · rw [hd]
      rfl
  refine ⟨t, _, ?_, h2, gs', B, rfl, hB, rfl⟩
  unfold Mem.store
  rw [hdims]
  simp only [h1]

theorem run_append (layers : ℕ) (ops : List (MemOp K P)) (op : MemOp K P) :
    Mem.run K P layers (ops ++ [op]) = (Mem.run K P layers ops).step op := by simp [Mem.run]

theorem inv_run {ds : List ℕ} (layers : ℕ) (ops : List (MemOp K P)) (h : Uniform ds ops) : MemInv ds layers ops (Mem.run K P layers ops) := by
  induction ops using List.reverseRecOn with
  | nil =>
    refine ⟨rfl, by simp [Mem.run, Mem.new], rfl, fun k => ?_, fun k i _ => ?_, (fun k i gs hg => by cases hg), fun i hi => ?_⟩
    · cases k <;> exact List.nodup_nil
    · cases k <;> rfl
    · simp [Mem.run, Mem.new, lastPre, hi]
  | append_singleton ops op ih =>
    have I := ih (uniform_prefix h)
    rw [run_append]
    set m := Mem.run K P layers ops
    cases op with
    | store k i gs =>
      have hd : m.dims = none ∨ m.dims = some ds := by
        rw [I.dims]
        split_ifs <;> simp
      obtain ⟨t, ts, h1, h2, h3⟩ := store_proper m hd k i gs (h.1 k i gs (by simp)) (by
        intro hn
        refine h.2 gs ?_
        rw [firstStored_append]
        have := I.dims
        rw [hn] at this
        cases hfs : firstStored ops with
        | none => rfl
        | some a => simp [hfs] at this)
      have hstep : m.step (.store k i gs) = ({ m with dims := some ds } : Mem K P).put k i t := by
        show (m.store k i gs).1 = _
        rw [h1]
      rw [hstep]
      have hc : ∀ k', (({ m with dims := some ds } : Mem K P).put k i t).cache k' = if k' = k then PyDict.set i t (m.cache k) else m.cache k' := by
        intro k'
        rw [cache_put]
        cases k' <;> cases k <;> rfl
      have hl : ∀ k' i', lastStored k' i' (ops ++ [.store k i gs]) = if k = k' ∧ i = i' then some gs else lastStored k' i' ops := by
        intro k' i'
        simp [lastStored]
      refine ⟨?_, ?_, ?_, fun k' => ?_, fun k' i' hn => ?_, fun k' i' gs' hg => ?_, fun i' hi' => ?_⟩
      · cases k <;> exact I.hl
      · cases k <;> exact I.len
      · have : (firstStored (ops ++ [MemOp.store k i gs])).isSome = true := by
          rw [firstStored_append]
          cases firstStored ops <;> rfl
        rw [this]
        cases k <;> rfl
      · rw [hc]
        split_ifs
        · exact PyDict.nodup_set (I.nodup k) _ _
        · exact I.nodup k'
      · rw [hl] at hn
        split_ifs at hn with hk
        rw [hc]
        split_ifs with hk'
        · subst hk'
          rw [PyDict.get?_set, if_neg (fun e => hk ⟨rfl, by simpa using e.symm⟩)]
          exact I.gone _ _ hn
        · exact I.gone _ _ hn
      · rw [hl] at hg
        rw [hc]
        split_ifs at hg with hk
        · obtain ⟨rfl, rfl⟩ := hk
          obtain rfl := Option.some.inj hg
          rw [if_pos rfl, PyDict.get?_set, if_pos rfl]
          exact ⟨t, rfl, ts, h2, h3⟩
        · split_ifs with hk'
          · subst hk'
            rw [PyDict.get?_set, if_neg (fun e => hk ⟨rfl, by simpa using e.symm⟩)]
            exact I.here _ _ _ hg
          · exact I.here _ _ _ hg
      · have : lastPre i' (ops ++ [MemOp.store k i gs]) = lastPre i' ops := by simp [lastPre]
        rw [this]
        cases k <;> exact I.pre i' hi'
    | storePre i p =>
      have hfs : firstStored (ops ++ [(MemOp.storePre i p : MemOp K P)]) = firstStored ops := by
        rw [firstStored_append]
        cases firstStored ops <;> rfl
      have hl : ∀ k' i', lastStored k' i' (ops ++ [(MemOp.storePre i p : MemOp K P)]) = lastStored k' i' ops := fun k' i' => by
        simp [lastStored]
      have hlp : ∀ i', lastPre i' (ops ++ [(MemOp.storePre i p : MemOp K P)]) = if i = i' then p else lastPre i' ops := fun i' => by
        simp [lastPre]
      have hs : m.step (.storePre i p) = m.storePre i p := rfl
      have hca : ∀ k', (m.storePre i p).cache k' = m.cache k' := by
        intro k'
        unfold Mem.storePre
        split_ifs <;> cases k' <;> rfl
      have hlen : (m.storePre i p).pre.length = m.pre.length := by
        unfold Mem.storePre
        split_ifs <;> simp
      rw [hs]
      refine ⟨?_, ?_, ?_, fun k' => ?_, fun k' i' hn => ?_, fun k' i' gs' hg => ?_, fun i' hi' => ?_⟩
      · unfold Mem.storePre
        split_ifs <;> exact I.hl
      · rw [hlen, I.len]
      · rw [hfs, ← I.dims]
        unfold Mem.storePre
        split_ifs <;> rfl
      · rw [hca]
        exact I.nodup k'
      · rw [hca]
        exact I.gone _ _ (by rwa [hl] at hn)
      · rw [hca]
        exact I.here _ _ _ (by rwa [hl] at hg)
      · rw [hlp]
        unfold Mem.storePre
        by_cases hi : i < m.pre.length
        · rw [if_pos hi]
          show (m.pre.set i p)[i']? = _
          rw [List.getElem?_set]
          by_cases e : i = i'
          · subst e
            simp [hi]
          · simp [e, I.pre i' hi']
        · rw [if_neg hi, I.pre i' hi', if_neg]
          rintro rfl
          rw [I.len] at hi
          exact hi hi'
    | clear =>
      have hfs : firstStored (ops ++ [(MemOp.clear : MemOp K P)]) = firstStored ops := by
        rw [firstStored_append]
        cases firstStored ops <;> rfl
      have hl : ∀ k' i', lastStored k' i' (ops ++ [(MemOp.clear : MemOp K P)]) = none := fun k' i' => by simp [lastStored]
      have hs : m.step .clear = m.clear := rfl
      rw [hs]
      refine ⟨I.hl, by simp [Mem.clear, I.hl], ?_, fun k' => ?_, fun k' i' hn => ?_, fun k' i' gs' hg => ?_, fun i' hi' => ?_⟩
      · rw [hfs, ← I.dims]
        rfl
      · cases k' <;> exact List.nodup_nil
      · cases k' <;> rfl
      · rw [hl] at hg
        cases hg
      · simp [lastPre, Mem.clear, I.hl, hi']

/-! ### C143 -/

/-- **C143.** After any sequence of calls whose batches fit the layers, a batch reads back as it was last stored (empty layers as zeros); a batch not stored
since the last `clear_cache` reads back as empty tensors, without an exception. -/
theorem C143_retrieve {ds : List ℕ} (layers : ℕ) (ops : List (MemOp K P)) (h : Uniform ds ops) (k : Kind) (i : ℕ) :
    (∀ gs, lastStored k i ops = some gs → ∃ ts, (Mem.run K P layers ops).retrieve k i = .ok ts ∧ IsStored ds gs ts) ∧
    (lastStored k i ops = none → ∃ ts, (Mem.run K P layers ops).retrieve k i = .ok ts ∧ (∀ t ∈ ts, t = []) ∧
      ts.length = if (firstStored ops).isSome then ds.length else layers) := by
  have I := inv_run layers ops h
  have hd := I.dims
  constructor
  · intro gs hg
    obtain ⟨t, h1, ts, h2, h3⟩ := I.here k i gs hg
    have hsome : (firstStored ops).isSome = true := by
      clear I hd h1 h2 h3
      by_contra hn
      rw [Bool.not_eq_true, Option.isSome_eq_false_iff, Option.isNone_iff_eq_none] at hn
      have : ∀ (l : List (MemOp K P)), firstStored l = none → lastStored k i l = none := by
        intro l
        induction l using List.reverseRecOn with
        | nil => exact fun _ => rfl
        | append_singleton l op ih =>
          intro hl
          rw [firstStored_append] at hl
          cases hfl : firstStored l with
          | some a => simp [hfl] at hl
          | none =>
            have := ih hfl
            cases op with
            | store k' i' gs' => simp [hfl, firstStored] at hl
            | storePre i' p => simpa [lastStored] using this
            | clear => simp [lastStored]
      rw [this ops hn] at hg
      cases hg
    rw [hsome] at hd
    refine ⟨ts, ?_, h3⟩
    simp only [Mem.retrieve, h1, hd, if_true, h2]
  · intro hn
    have hg := I.gone k i hn
    simp only [Mem.retrieve, hg, hd]
    by_cases hs : (firstStored ops).isSome = true
    · simp only [hs, if_true]
      exact ⟨_, rfl, by simp, by simp⟩
    · simp only [hs, if_false, Bool.false_eq_true]
      exact ⟨_, rfl, fun t ht => List.eq_of_mem_replicate ht, by simp [I.hl]⟩

/-- **C143.** Preconditioners of existing layers read back as last stored; an index beyond the layers is ignored and reads back as None. -/
theorem C143_preconditioner {ds : List ℕ} (layers : ℕ) (ops : List (MemOp K P)) (h : Uniform ds ops) :
    (∀ i, (Mem.run K P layers ops).retrievePre i = if i < layers then lastPre i ops else none) ∧
    ((Mem.run K P layers ops).hasPre = true ↔ ∃ i < layers, lastPre i ops ≠ none) ∧
    ((Mem.run K P layers ops).hasIfvp = true ↔ ∃ i, lastStored .ifvp i ops ≠ none) := by
  have I := inv_run layers ops h
  refine ⟨fun i => ?_, ?_, ?_⟩
  · unfold Mem.retrievePre
    rw [I.len]
    by_cases hi : i < layers
    · rw [if_neg (by omega), if_pos hi, I.pre i hi]
      rfl
    · rw [if_pos (by omega), if_neg hi]
  · unfold Mem.hasPre
    rw [List.any_eq_true]
    constructor
    · rintro ⟨p, hp, hs⟩
      obtain ⟨i, hi, rfl⟩ := List.getElem_of_mem hp
      rw [I.len] at hi
      refine ⟨i, hi, fun hn => ?_⟩
      have := I.pre i hi
      rw [List.getElem?_eq_getElem (by rw [I.len]; exact hi), Option.some.injEq] at this
      rw [this, hn] at hs
      cases hs
    · rintro ⟨i, hi, hn⟩
      exact ⟨_, List.mem_of_getElem? (I.pre i hi), Option.isSome_iff_ne_none.2 hn⟩
  · unfold Mem.hasIfvp
    rw [decide_eq_true_iff]
    constructor
    · intro hp
      obtain ⟨q, hq⟩ := List.exists_mem_of_length_pos hp
      refine ⟨q.1, fun hn => ?_⟩
      have h1 := PyDict.get?_of_mem (I.nodup .ifvp) hq
      have h2 := I.gone .ifvp q.1 hn
      rw [h2] at h1
      cases h1
    · rintro ⟨i, hi⟩
      obtain ⟨gs, hg⟩ := Option.ne_none_iff_exists'.1 hi
      obtain ⟨t, h1, -⟩ := I.here .ifvp i gs hg
      exact List.length_pos_of_mem (PyDict.mem_of_get? h1)

/-- **C143.** The loader of a kind: the batches stored since the last `clear_cache` with index in the range, ascending, `g` at a time; the rows the mapping gives
for a batch, cut into layers, are what was last stored for it. An unknown kind gives None. -/
theorem C143_loader {ds : List ℕ} (layers : ℕ) (ops : List (MemOp K P)) (h : Uniform ds ops) (g : ℕ) (hg : 0 < g) (range : Option (ℤ × ℤ))
    (dataType : String) (isTest : Bool) :
    (dataType ≠ "gradients" → dataType ≠ "ifvp" → (Mem.run K P layers ops).loader dataType isTest g range = none) ∧
    ∀ k, (dataType = "gradients" ∧ k = (if isTest then Kind.test else Kind.train)) ∨ (dataType = "ifvp" ∧ k = .ifvp) →
      ∃ cs, (Mem.run K P layers ops).loader dataType isTest g range = some cs ∧
        (∃ L : List ℕ, L.Pairwise (· < ·) ∧
          (∀ i, i ∈ L ↔ lastStored k i ops ≠ none ∧ ∀ a b, range = some (a, b) → a ≤ (i : ℤ) ∧ (i : ℤ) < b) ∧
          cs.map (fun c => c.2.map Prod.fst) = (List.range ((L.length + g - 1) / g)).map fun n => (L.drop (n * g)).take g) ∧
        ∀ c ∈ cs, c.1 = (c.2.flatMap fun e => (c.1.drop e.2.1).take (e.2.2 - e.2.1)) ∧ ∀ e ∈ c.2, ∀ gs, lastStored k e.1 ops = some gs →
          ∃ ts, split (some ds) ((c.1.drop e.2.1).take (e.2.2 - e.2.1)) = .ok ts ∧ IsStored ds gs ts := by
  have I := inv_run layers ops h
  set m := Mem.run K P layers ops
  constructor
  · intro h1 h2
    simp [Mem.loader, Mem.select, h1, h2]
  · intro k hk
    have hsel : m.select dataType isTest = some (m.cache k) := by
      rcases hk with ⟨rfl, rfl⟩ | ⟨rfl, rfl⟩
      · cases isTest <;> rfl
      · rfl
    set items := (sortedItems (m.cache k)).filter fun q => inRange range q.1 with hitems
    have hmem : ∀ q, q ∈ items ↔ PyDict.get? (m.cache k) q.1 = some q.2 ∧ inRange range q.1 = true := by
      intro q
      rw [hitems, List.mem_filter, sortedItems_mem (I.nodup k)]
    refine ⟨(Verif.batches g items).map collate, by simp [Mem.loader, hsel, hitems], ⟨items.map Prod.fst, ?_, ?_, ?_⟩, ?_⟩
    · rw [List.pairwise_map]
      exact (List.pairwise_map.1 (sortedItems_lt (I.nodup k))).filter _
    · intro i
      have hr : inRange range i = true ↔ ∀ a b, range = some (a, b) → a ≤ (i : ℤ) ∧ (i : ℤ) < b := by
        cases range with
        | none => simp [inRange]
        | some r => 
          simp only [inRange, decide_eq_true_iff, Option.some.injEq]
          exact ⟨fun h a b e => by subst e; exact h, fun h => h r.1 r.2 rfl⟩
      rw [← hr, List.mem_map]
      constructor
      · rintro ⟨q, hq, rfl⟩
        refine ⟨fun hn => ?_, ((hmem q).1 hq).2⟩
        have := I.gone k q.1 hn
        rw [((hmem q).1 hq).1] at this
        cases this
      · rintro ⟨hn, hi⟩
        obtain ⟨gs, hgs⟩ := Option.ne_none_iff_exists'.1 hn
        obtain ⟨t, ht, -⟩ := I.here k i gs hgs
        exact ⟨(i, t), (hmem _).2 ⟨ht, hi⟩, rfl⟩
    · rw [List.map_map]
      unfold Verif.batches Verif.numBatches
      rw [List.map_map, List.length_map]
      refine List.map_congr_left fun n _ => ?_
      have : ∀ its : List (ℕ × Grad K), (collate its).2.map Prod.fst = its.map Prod.fst := by
        intro its
        have := congrArg (List.map Prod.fst) (collate_rows its)
        rwa [List.map_map] at this
      simp only [Function.comp_apply, this, Verif.batchAt]
      rw [← List.map_drop, ← List.map_take]
    · intro c hc
      obtain ⟨its, hits, rfl⟩ := List.mem_map.1 hc
      have hrows := collate_rows its
      constructor
      · have := congrArg (List.flatMap Prod.snd) hrows
        rw [List.flatMap_map] at this
        exact this.symm
      · intro e he gs hgs
        obtain ⟨t, ht, ts, h1, h2⟩ := I.here k e.1 gs hgs
        have h3 : (e.1, rowsOf (collate its).1 e.2.1 e.2.2) ∈ items := by
          have h4 : (e.1, rowsOf (collate its).1 e.2.1 e.2.2) ∈ its := by
            have : (e.1, rowsOf (collate its).1 e.2.1 e.2.2) ∈ (collate its).2.map fun e => (e.1, rowsOf (collate its).1 e.2.1 e.2.2) :=
              List.mem_map.2 ⟨e, he, rfl⟩
            rwa [hrows] at this
          have h5 := flatten_batches g hg items
          rw [← h5]
          exact List.mem_flatten.2 ⟨its, hits, h4⟩
        have h6 := ((hmem _).1 h3).1
        rw [ht] at h6
        have h7 : t = rowsOf (collate its).1 e.2.1 e.2.2 := Option.some.inj h6
        refine ⟨ts, ?_, h2⟩
        rw [h7] at h1
        exact h1

/-- **C143.** The layer dimensions are those of the first store without None, for ever: no call changes them, `clear_cache` included. -/
theorem C143_dims_fixed (m : Mem K P) (ds : List ℕ) (hd : m.dims = some ds) (ops : List (MemOp K P)) : (ops.foldl Mem.step m).dims = some ds := by
  induction ops generalizing m with
  | nil => exact hd
  | cons op ops ih =>
    rw [List.foldl_cons]
    apply ih
    cases op with
    | store k i gs =>
      simp only [Mem.step, Mem.store, hd, ensureDims]
      split
      · rfl
      · cases k <;> rfl
    | storePre i p =>
      simp only [Mem.step, Mem.storePre]
      split_ifs <;> exact hd
    | clear => exact hd

/-- **C143.** A batch with rows of another width for one layer (not one) raises RuntimeError and changes nothing. In particular a layer that was empty in the first store
has dimension zero and takes no gradients of two or more columns later. -/
theorem C143_other_width (m : Mem K P) (ds : List ℕ) (hd : m.dims = some ds) (k : Kind) (i : ℕ) (B : ℕ) (hB : B ≠ 0) (pre post : List (Grad K)) (g : Grad K) (dpre dpost : List ℕ)
    (d w : ℕ) (hds : ds = dpre ++ d :: dpost) (hpre : List.Forall₂ (Fits B) pre dpre) (hg : Rect B w g) (hw : w ≠ d) (hw1 : 2 ≤ w) :
    m.store k i ((pre ++ g :: post).map some) = (m, .error .runtimeError) := by
  have hgl : g.length = B := hg.1
  have hgne : g ≠ [] := by
    rintro rfl
    exact hB hgl.symm
  have hgf : g.flatten ≠ [] := by
    obtain ⟨r, g', rfl⟩ := List.exists_cons_of_ne_nil hgne
    have := hg.2 r (by simp)
    intro hf
    rw [List.flatten_cons, List.append_eq_nil_iff] at hf
    rw [hf.1] at this
    simp at this
    omega
  have hplace : place B d g = .error .runtimeError := by
    unfold place
    rw [if_pos ((nonEmpty_iff g).2 hgf), width_rect hg hgne, hgl, if_neg]
    simp only [bcast, beq_self_eq_true, Bool.true_or, Bool.true_and, Bool.or_eq_true, beq_iff_eq]
    omega
  have hfirst : firstRows ((pre ++ g :: post).map some) = .ok B := by
    clear hds
    induction hpre with
    | nil =>
      simp only [List.nil_append, List.map_cons, firstRows, if_pos ((nonEmpty_iff g).2 hgf), hgl]
    | @cons a da pre dpre ha _ ih =>
      simp only [List.cons_append, List.map_cons, firstRows]
      split_ifs with h0
      · rw [(ha ((nonEmpty_iff a).1 h0)).1]
      · exact ih
  have hfill : fillLayers B ((pre ++ g :: post).map some) ds = .error .runtimeError := by
    rw [hds]
    clear hds hfirst
    induction hpre with
    | nil => simp only [List.nil_append, List.map_cons, fillLayers, need, hplace, bind, Except.bind]
    | @cons a da pre dpre ha _ ih =>
      simp only [List.cons_append, List.map_cons, fillLayers, need, place_fits ha, bind, Except.bind]
      rw [ih]
  have hcon : concat (some ds) ((pre ++ g :: post).map some) = .error .runtimeError := by
    simp only [concat, ensureDims, hfirst, bind, Except.bind, if_neg hB, hfill]
  have hm : ({ m with dims := some ds } : Mem K P) = m := by
    rw [← hd]
  simp only [Mem.store, hd, ensureDims, hcon]
  rw [hm]

/-- **C143.** A gradient with one column for a layer of dimension `d` is stored without complaint as `d` copies of the column; for a layer that was
empty in the first store (`d = 0`) it is dropped. -/
theorem C143_width_one (m : Mem K P) (d : ℕ) (hd : m.dims = some [d]) (k : Kind) (i : ℕ) (col : List K) (hc : col ≠ []) :
    (m.store k i [some (col.map fun x => [x])]).2 = .ok () ∧
    (m.store k i [some (col.map fun x => [x])]).1.retrieve k i = .ok [col.map fun x => List.replicate d x] := by
  obtain ⟨x0, col', rfl⟩ := List.exists_cons_of_ne_nil hc
  have hne : nonEmpty ((x0 :: col').map fun x => [x]) = true := by simp [nonEmpty]
  have hpl : place (x0 :: col').length d ((x0 :: col').map fun x => [x]) = .ok ((x0 :: col').map fun x => List.replicate d x) := by
    unfold place
    rw [if_pos hne]
    have hwid : width ((x0 :: col').map fun x => [x]) = 1 := rfl
    rw [hwid, List.length_map, if_pos (by simp [bcast]), if_pos rfl]
    simp only [List.map_map]
    congr 1
    refine List.map_congr_left fun x _ => ?_
    by_cases h1 : 1 = d
    · subst h1
      simp
    · simp [h1]
  have hcon : concat (some [d]) [some ((x0 :: col').map fun x => [x])] = .ok ([d], (x0 :: col').map fun x => List.replicate d x) := by
    have hz : List.zipWith (· ++ ·) ((x0 :: col').map fun x => List.replicate d x) (List.replicate (x0 :: col').length []) =
        (x0 :: col').map fun x => List.replicate d x := by
      apply List.ext_getElem
      · simp
      · intro n h1 h2
        simp
    simp only [concat, ensureDims, firstRows, hne, if_true, bind, Except.bind, List.length_map, if_neg (show (x0 :: col').length ≠ 0 by simp), fillLayers, need, hpl, hz]
  have hs : m.store k i [some ((x0 :: col').map fun x => [x])] =
      (({ m with dims := some [d] } : Mem K P).put k i ((x0 :: col').map fun x => List.replicate d x), .ok ()) := by
    simp only [Mem.store, hd, ensureDims, hcon]
  rw [hs]
  refine ⟨rfl, ?_⟩
  have hdim : (({ m with dims := some [d] } : Mem K P).put k i ((x0 :: col').map fun x => List.replicate d x)).dims = some [d] := by cases k <;> rfl
  simp only [Mem.retrieve, cache_put, if_true, PyDict.get?_set, hdim, split, splitGo]
  congr 2
  rw [List.map_map]
  refine List.map_congr_left fun x _ => ?_
  simp

/-! ### A case meeting the hypotheses -/

/-- Two layers of dimensions 2 and 1; the second batch lacks the second layer; a batch is stored twice and the cache cleared. -/
def exOps : List (MemOp ℤ ℕ) :=
  [.store .train 3 [some [[1, 2]], some [[5]]], .storePre 1 (some 7), .clear, .store .train 1 [some [[3, 4], [5, 6]], some []],
   .store .test 0 [some [[1, 1]], some [[2]]], .store .train 0 [some [[9, 9]], some [[8]]], .store .train 1 [some [[0, 4]], some []]]

example : Uniform [2, 1] exOps := by
  refine ⟨fun k i gs h => ?_, fun gs h g hg => ?_⟩
  · simp only [exOps, List.mem_cons, MemOp.store.injEq, reduceCtorEq, List.not_mem_nil, or_false, false_or] at h
    rcases h with ⟨-, -, rfl⟩ | ⟨-, -, rfl⟩ | ⟨-, -, rfl⟩ | ⟨-, -, rfl⟩ | ⟨-, -, rfl⟩
    · exact ⟨[[[1, 2]], [[5]]], rfl, by decide, 1, by simp [Fits, Rect]⟩
    · exact ⟨[[[3, 4], [5, 6]], []], rfl, by decide, 2, by simp [Fits, Rect]⟩
    · exact ⟨[[[1, 1]], [[2]]], rfl, by decide, 1, by simp [Fits, Rect]⟩
    · exact ⟨[[[9, 9]], [[8]]], rfl, by decide, 1, by simp [Fits, Rect]⟩
    · exact ⟨[[[0, 4]], []], rfl, by decide, 1, by simp [Fits, Rect]⟩
  · simp only [exOps, firstStored, Option.some.injEq] at h
    subst h
    fin_cases hg <;> simp

example : (Mem.run ℤ ℕ 2 exOps).retrieve .train 1 = .ok [[[0, 4]], [[0]]] := by decide +kernel
example : (Mem.run ℤ ℕ 2 exOps).retrieve .train 3 = .ok [[], []] := by decide +kernel

end Verif.BlockIF
