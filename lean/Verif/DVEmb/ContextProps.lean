import Verif.DVEmb.ContextModel
import Verif.DVEmb.Lemmas
import Mathlib.Algebra.Module.Basic
import Mathlib.Algebra.Module.Torsion.Field
import Mathlib.Data.Rat.Defs
import Mathlib.Algebra.CharZero.Defs
import Mathlib.Tactic.Ring
import Mathlib.Tactic.NormNum

/-!
# C129: recording a training step by the context manager
-/

namespace Verif.DVEmb

open Verif

variable {K : Type} [Field K] {T A G : Type} [AddCommGroup T] [Module K T]

/-- How many layers captured the gradient tensor `r`. -/
def sharers (slots : List (Slot A)) (r : ℕ) : ℕ := slots.countP fun s => s.b == some r

theorem scaleLoop_eq (N : K) (slots : List (Slot A)) (H : ℕ → T) (r : ℕ) : scaleLoop N slots H r = N ^ sharers slots r • H r := by
  unfold scaleLoop sharers
  induction slots generalizing H with
  | nil => simp
  | cons s l ih =>
    rw [List.foldl_cons, ih, List.countP_cons]
    cases hb : s.b with
    | none => simp
    | some q =>
      by_cases hq : q = r
      · subst hq
        simp [pow_succ, mul_smul]
      · have : ¬ (r = q) := fun h => hq h.symm
        simp [Function.update_of_ne this, hq]

/-- Last value of `f` on a list. -/
def lastSome {α β : Type} (f : α → Option β) (l : List α) : Option β := l.foldl (fun o a => (f a).or o) none

def fwdOf (i : ℕ) : Ev A → Option A
  | .fwd j x _ => if j = i then some x else none
  | .bwd _ _ => none

def bwdOf (i : ℕ) : Ev A → Option ℕ
  | .fwd _ _ _ => none
  | .bwd j r => if j = i then some r else none

theorem hookEv_get (s : List (Slot A)) (ev : Ev A) (i : ℕ) (q : Slot A) (h : s[i]? = some q) :
    ∃ q', (hookEv s ev)[i]? = some q' ∧ q'.a = (fwdOf i ev).or q.a ∧ q'.b = (bwdOf i ev).or q.b := by
  cases ev with
  | fwd j x bias =>
    simp only [hookEv, List.getElem?_modify, h, fwdOf, bwdOf]
    by_cases hj : j = i <;> simp [hj]
  | bwd j r =>
    simp only [hookEv, List.getElem?_modify, h, fwdOf, bwdOf]
    by_cases hj : j = i <;> simp [hj]

/-- **C129** (what is captured). After a pass the dictionary of every target layer holds the input of its last forward call and the
output gradient of its last backward call, nothing if there was none. -/
theorem C129_captured (n : ℕ) (evs : List (Ev A)) :
    (capture n evs).length = n ∧
    ∀ i < n, ∃ q, (capture n evs)[i]? = some q ∧ q.a = lastSome (fwdOf i) evs ∧ q.b = lastSome (bwdOf i) evs := by
  have hlen : ∀ (evs : List (Ev A)) (s : List (Slot A)), (evs.foldl hookEv s).length = s.length := by
    intro evs
    induction evs with
    | nil => intro s; rfl
    | cons ev l ih => intro s; rw [List.foldl_cons, ih]; cases ev <;> simp [hookEv]
  refine ⟨by unfold capture; rw [hlen, List.length_replicate], fun i hi => ?_⟩
  have key : ∀ (evs : List (Ev A)) (s : List (Slot A)) (q : Slot A) (oa : Option A) (ob : Option ℕ), s[i]? = some q → q.a = oa → q.b = ob →
      ∃ q', (evs.foldl hookEv s)[i]? = some q' ∧ q'.a = evs.foldl (fun o a => (fwdOf i a).or o) oa ∧
        q'.b = evs.foldl (fun o a => (bwdOf i a).or o) ob := by
    intro evs
    induction evs with
    | nil => intro s q oa ob h ha hb; exact ⟨q, h, ha, hb⟩
    | cons ev l ih =>
      intro s q oa ob h ha hb
      obtain ⟨q', h', ha', hb'⟩ := hookEv_get s ev i q h
      obtain ⟨q'', e1, e2, e3⟩ := ih (hookEv s ev) q' _ _ h' ha' hb'
      refine ⟨q'', e1, ?_, ?_⟩
      · rw [e2, ha]; rfl
      · rw [e3, hb]; rfl
  exact key evs _ ⟨none, none, false⟩ none none (by simp [hi]) rfl rfl

/-- How many of the `n` target layers have `r` as the output gradient of their last backward call. -/
def shareCount (n : ℕ) (evs : List (Ev A)) (r : ℕ) : ℕ := ((List.range n).filter fun i => lastSome (bwdOf i) evs == some r).length

theorem sharers_capture (n : ℕ) (evs : List (Ev A)) (r : ℕ) : sharers (capture n evs) r = shareCount n evs r := by
  have h : (capture n evs).map (fun q => q.b) = (List.range n).map fun i => lastSome (bwdOf i) evs := by
    apply List.ext_getElem?
    intro i
    by_cases hi : i < n
    · obtain ⟨q, hq, -, hb⟩ := (C129_captured n evs).2 i hi
      simp [hq, hb, hi]
    · have h1 : (capture n evs).length ≤ i := by rw [(C129_captured n evs).1]; omega
      simp [List.getElem?_eq_none h1, hi]
  have h2 : sharers (capture n evs) r = ((capture n evs).map fun q => q.b).countP (· == some r) := by
    rw [List.countP_map]; rfl
  rw [h2, h, List.countP_map, shareCount, List.countP_eq_length_filter]
  rfl

/-- **C129** (scaling). The gradient recorded for a layer is the captured one times `N ^ k`, where `N` is the number of indices and `k` the
number of target layers that captured the same tensor. -/
theorem C129_scaling (n : ℕ) (e : ℤ) (idx : List ℕ) (hi : idx ≠ []) (lr : K) (evs : List (Ev A)) (H : ℕ → T) (raised : Option Err)
    (s : FSt K A T G) :
    ∃ recs old, ((contextStep true none n e idx lr evs H raised s).1.factors.lookup e) = some (old ++ [recs]) ∧ recs.length = n ∧
      ∀ i < n, ∃ bias, recs[i]? = some (lastSome (fwdOf i) evs,
        (lastSome (bwdOf i) evs).map fun r => (idx.length : K) ^ shareCount n evs r • H r, bias) := by
  have hl : idx.length ≠ 0 := by simpa using hi
  set recs := (capture n evs).map (resolve (scaleLoop (idx.length : K) (capture n evs) H)) with hrecs
  have hstep : (contextStep true none n e idx lr evs H raised s).1.factors = dpush e recs (openEpoch e s).factors := by
    unfold contextStep store
    simp only [Bool.not_true, Bool.false_eq_true, if_false, if_neg hl]
    cases raised <;> rfl
  have hopen : ∃ old, (openEpoch e s).factors.lookup e = some old := by
    unfold openEpoch
    cases h : s.factors.lookup e with
    | none => simp [lookup_dset]
    | some old => exact ⟨old, by simp [h]⟩
  obtain ⟨old, ho⟩ := hopen
  refine ⟨recs, old, ?_, ?_, fun i hin => ?_⟩
  · rw [hstep, lookup_dpush, ho]; simp
  · rw [hrecs, List.length_map, (C129_captured n evs).1]
  · obtain ⟨q, hq, ha, hb⟩ := (C129_captured n evs).2 i hin
    refine ⟨q.bias, ?_⟩
    rw [hrecs, List.getElem?_map, hq]
    simp only [Option.map_some, resolve, ha, hb]
    cases lastSome (bwdOf i) evs with
    | none => rfl
    | some r => simp only [Option.map_some, scaleLoop_eq, sharers_capture]

/-- **C129** (agreement with `cache_gradients`). Take the same hook calls in a step with the mean loss and in a pass with the loss multiplied
by the batch size, so that every captured gradient is `N` times as large in the second. If no two target layers captured the same
tensor, both ways of recording leave the same dictionaries, with and without projection. -/
theorem C129_same_as_direct (proj : Option (List (Rec A T) → Except Err G)) (n : ℕ) (e : ℤ) (idx : List ℕ) (lr : K) (evs : List (Ev A))
    (H H' : ℕ → T) (hH : ∀ r, H' r = (idx.length : K) • H r) (hd : ∀ r, shareCount n evs r ≤ 1) (s : FSt K A T G) :
    contextStep true proj n e idx lr evs H none s = directStep proj n e idx lr evs H' none s := by
  have : (capture n evs).map (resolve (scaleLoop (idx.length : K) (capture n evs) H)) = (capture n evs).map (resolve H') := by
    apply List.map_congr_left
    intro q hq
    unfold resolve
    cases hb : q.b with
    | none => rfl
    | some r =>
      have h1 : 1 ≤ sharers (capture n evs) r := by
        unfold sharers
        exact List.one_le_countP_iff.2 ⟨q, hq, by simp [hb]⟩
      have h2 : sharers (capture n evs) r = 1 := le_antisymm (sharers_capture n evs r ▸ hd r) h1
      simp [scaleLoop_eq, h2, hH]
  unfold contextStep directStep
  simp only [Bool.not_true, Bool.false_eq_true, if_false, this]
  cases h : (store proj e ((capture n evs).map (resolve H')) idx lr (openEpoch e s)).2 <;> simp

/-- **C129** (disagreement). For a batch of at least two samples the recorded gradient of a layer whose captured gradient is not zero is
`N` times the captured one, as the per-sample gradients require, exactly if no other target layer captured the same tensor. -/
theorem C129_shared [CharZero K] (n : ℕ) (e : ℤ) (idx : List ℕ) (hN : 2 ≤ idx.length) (lr : K) (evs : List (Ev A)) (H : ℕ → T)
    (raised : Option Err) (s : FSt K A T G) (i r : ℕ) (hi : i < n) (hb : lastSome (bwdOf i) evs = some r) (hr : H r ≠ 0) :
    (∃ old recs a bias, (contextStep true none n e idx lr evs H raised s).1.factors.lookup e = some (old ++ [recs]) ∧
      recs[i]? = some (a, some ((idx.length : K) • H r), bias)) ↔ ∀ j < n, lastSome (bwdOf j) evs = some r → j = i := by
  have hne : idx ≠ [] := by rintro rfl; simp at hN
  obtain ⟨recs, old, h1, -, h3⟩ := C129_scaling n e idx hne lr evs H raised s
  obtain ⟨bias, h4⟩ := h3 i hi
  rw [hb] at h4
  have hcount : shareCount n evs r = 1 ↔ ∀ j < n, lastSome (bwdOf j) evs = some r → j = i := by
    have hmem : ∀ j, j ∈ (List.range n).filter (fun i => lastSome (bwdOf i) evs == some r) ↔ j < n ∧ lastSome (bwdOf j) evs = some r := by
      intro j; simp
    have hnd : ((List.range n).filter (fun i => lastSome (bwdOf i) evs == some r)).Nodup := List.nodup_range.filter _
    unfold shareCount
    constructor
    · intro hl j hj hjr
      obtain ⟨x, hx⟩ := List.length_eq_one_iff.1 hl
      have e1 := (hmem j).2 ⟨hj, hjr⟩
      have e2 := (hmem i).2 ⟨hi, hb⟩
      rw [hx] at e1 e2
      rw [List.mem_singleton.1 e1, List.mem_singleton.1 e2]
    · intro h
      have h0 : (List.range n).filter (fun i => lastSome (bwdOf i) evs == some r) ⊆ [i] := by
        intro j hj
        have := (hmem j).1 hj
        simp [h j this.1 this.2]
      have hle := (hnd.subperm h0).length_le
      have hpos := List.length_pos_of_mem ((hmem i).2 ⟨hi, hb⟩)
      simp only [List.length_singleton] at hle
      omega
  rw [← hcount]
  constructor
  · rintro ⟨old', recs', a', bias', e1, e2⟩
    rw [h1] at e1
    have e3 := (List.append_inj' (Option.some.inj e1) rfl).2
    rw [List.cons.injEq] at e3
    rw [← e3.1, h4] at e2
    simp only [Option.map_some, Option.some.injEq, Prod.mk.injEq] at e2
    have h1 : ((idx.length : K) ^ shareCount n evs r - idx.length) • H r = 0 := by rw [sub_smul, e2.2.1, sub_self]
    have h2 := (smul_eq_zero.1 h1).resolve_right hr
    have h3 : idx.length ^ shareCount n evs r = idx.length ^ 1 := by
      have : (idx.length : K) ^ shareCount n evs r = idx.length := sub_eq_zero.1 h2
      rw [pow_one]
      exact_mod_cast this
    exact Nat.pow_right_injective hN h3
  · intro h
    refine ⟨old, recs, lastSome (fwdOf i) evs, bias, h1, ?_⟩
    rw [h4, Option.map_some, h, pow_one]

/-- **C129** (a step that raises). Without projection and with at least one index, an exception inside the `with` block is passed on, but the
step is recorded exactly as if it had not been raised; `cache_gradients` would have recorded nothing. -/
theorem C129_failed_step (n : ℕ) (e : ℤ) (idx : List ℕ) (hi : idx ≠ []) (lr : K) (evs : List (Ev A)) (H : ℕ → T) (x : Err)
    (s : FSt K A T G) (hs : s.factors.lookup e = none ∨ s.lrs.lookup e ≠ none) :
    (contextStep true none n e idx lr evs H (some x) s).2 = .error x ∧
    (contextStep true none n e idx lr evs H (some x) s).1 = (contextStep true none n e idx lr evs H none s).1 ∧
    (contextStep true none n e idx lr evs H none s).2 = .ok () ∧
    (∃ old, (contextStep true none n e idx lr evs H (some x) s).1.lrs.lookup e = some (old ++ [lr / idx.length])) ∧
    directStep none n e idx lr evs H (some x) s = (openEpoch e s, .error x) := by
  have hl : idx.length ≠ 0 := by simpa using hi
  refine ⟨?_, ?_, ?_, ?_, rfl⟩
  · simp [contextStep, store, hl]
  · simp [contextStep, store, hl]
  · simp [contextStep, store, hl]
  · have hopen : ∃ old, (openEpoch e s).lrs.lookup e = some old := by
      unfold openEpoch
      rcases hs with h | h
      · simp [h, lookup_dset]
      · split
        · simp [lookup_dset]
        · exact Option.ne_none_iff_exists'.1 h
    obtain ⟨o, ho⟩ := hopen
    exact ⟨o, by simp [contextStep, store, hl, lookup_dpush, ho]⟩

/-- **C129** (errors of the recording itself). Non-factorised attributors raise before the step runs; a projection that raises replaces the
step's own exception and records nothing; without indices `ZeroDivisionError` is raised after the factors were appended, which leaves
one entry more for the factors of the epoch than for its learning rates. -/
theorem C129_errors (proj : Option (List (Rec A T) → Except Err G)) (n : ℕ) (e : ℤ) (idx : List ℕ) (lr : K) (evs : List (Ev A))
    (H : ℕ → T) (raised : Option Err) (s : FSt K A T G) :
    contextStep false proj n e idx lr evs H raised s = (s, .error .notImplementedError) ∧
    (∀ f x, f ((capture n evs).map (resolve (scaleLoop (idx.length : K) (capture n evs) H))) = .error x →
      contextStep true (some f) n e idx lr evs H raised s = (openEpoch e s, .error x)) ∧
    (s.factors.lookup e = none → ∃ recs,
      (contextStep true none n e [] lr evs H raised s).2 = .error .zeroDivisionError ∧
      (contextStep true none n e [] lr evs H raised s).1.factors.lookup e = some [recs] ∧
      (contextStep true none n e [] lr evs H raised s).1.lrs.lookup e = some []) := by
  refine ⟨rfl, fun f x h => ?_, fun h => ?_⟩
  · unfold contextStep store
    simp only [Bool.not_true, Bool.false_eq_true, if_false, h]
  · refine ⟨(capture n evs).map (resolve (scaleLoop (([] : List ℕ).length : K) (capture n evs) H)), ?_, ?_, ?_⟩
    · simp [contextStep, store]
    · simp [contextStep, store, openEpoch, h, lookup_dpush, lookup_dset]
    · simp [contextStep, store, openEpoch, h, lookup_dset]

/-- Two layers whose outputs are added, a batch of 3: both capture gradient tensor 0 of value 5 and record `9 * 5` instead of `3 * 5`. -/
example : (contextStep (K := ℚ) (T := ℚ) (A := ℕ) (G := ℕ) true none 2 0 [4, 5, 6] 1 [.fwd 0 7 true, .fwd 1 7 false, .bwd 1 0, .bwd 0 0]
    (fun _ => 5) none ⟨[], [], [], []⟩).1.factors = [(0, [[(some 7, some 45, true), (some 7, some 45, false)]])] := by
  simp [contextStep, store, capture, hookEv, scaleLoop, openEpoch, dset, dpush, resolve, List.modify, List.modifyTailIdx,
    List.modifyTailIdx.go, List.replicate]
  norm_num

end Verif.DVEmb
