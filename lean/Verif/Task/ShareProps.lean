import Mathlib.Data.List.Range
import Mathlib.Data.Nat.Basic
import Mathlib.Tactic.ByContra
import Verif.Task.ShareModel

/-!
# C218: which weights an attributor uses when model objects are shared
-/

namespace Verif.Share

open Verif

variable {W : Type}

/-! ## Specification -/

/-- Checkpoint `c` of a task is the state dict `v` of its own. -/
def Owns (cfg : ℕ → Cfg W) (t c : ℕ) (v : W) : Prop := (cfg t).ckpts[c]? = some (.own v)

/-- No task has yet loaded anything, and all models exist. -/
structure Start (w : World W) : Prop where
  cur : ∀ t, w.cur t = none
  model : ∀ t, w.model t < w.next

/-- The user writes only to objects that exist at the start and are no task's model. -/
def Outside (w : World W) : Op W → Prop
  | .write m _ => m < w.next ∧ ∀ t, m ≠ w.model t
  | _ => True

/-! ## Lemmas -/

theorem put_same {A : Type} (f : ℕ → A) (k : ℕ) (a : A) : put f k a k = a := by simp [put]

theorem put_other {A : Type} (f : ℕ → A) {k i : ℕ} (a : A) (h : i ≠ k) : put f k a i = f i := by simp [put, h]

theorem load_same (cfg : ℕ → Cfg W) (w : World W) {t c : ℕ} (h : w.cur t = some c) : load cfg w t c = (w, .ok ()) := by
  simp [load, h]

theorem load_none (cfg : ℕ → Cfg W) (w : World W) {t c : ℕ} (h : w.cur t ≠ some c) (hc : (cfg t).ckpts[c]? = none) :
    load cfg w t c = (w, .error .indexError) := by
  simp [load, h, hc]

theorem load_some (cfg : ℕ → Cfg W) (w : World W) {t c : ℕ} {k : Ckpt W} (h : w.cur t ≠ some c) (hc : (cfg t).ckpts[c]? = some k) :
    load cfg w t c = (if (cfg t).fresh then
        { w with cells := put w.cells w.next (k.read w), next := w.next + 1, model := put w.model t w.next, cur := put w.cur t (some c) }
      else { w with cells := put w.cells (w.model t) (k.read w), cur := put w.cur t (some c) }, .ok ()) := by
  unfold load
  rw [if_pos (Or.inr h), hc]
  cases (cfg t).fresh <;> rfl

theorem getParam_same (cfg : ℕ → Cfg W) (w : World W) {t c : ℕ} (h : w.cur t = some c) :
    getParam cfg w t c = (w, .ok (w.cells (w.model t))) := by
  simp [getParam, load_same cfg w h]

theorem getParam_some (cfg : ℕ → Cfg W) (w : World W) {t c : ℕ} {k : Ckpt W} (h : w.cur t ≠ some c) (hc : (cfg t).ckpts[c]? = some k) :
    (getParam cfg w t c).2 = .ok (k.read w) ∧ (getParam cfg w t c).1.cur t = some c ∧
    (getParam cfg w t c).1.cells ((getParam cfg w t c).1.model t) = k.read w := by
  unfold getParam
  rw [load_some cfg w h hc]
  cases (cfg t).fresh <;> simp [put_same]

/-- Whatever was loaded before: after a `get_param` in range, the task's model holds what it returned and the index is recorded. -/
theorem getParam_after (cfg : ℕ → Cfg W) (w : World W) {t c : ℕ} (hc : c < (cfg t).ckpts.length) :
    (getParam cfg w t c).1.cur t = some c ∧
    (getParam cfg w t c).2 = .ok ((getParam cfg w t c).1.cells ((getParam cfg w t c).1.model t)) := by
  by_cases h : w.cur t = some c
  · rw [getParam_same cfg w h]; exact ⟨h, rfl⟩
  · obtain ⟨h1, h2, h3⟩ := getParam_some cfg w h (List.getElem?_eq_getElem hc)
    exact ⟨h2, by rw [h1, h3]⟩

theorem getParam_inplace (cfg : ℕ → Cfg W) (w : World W) (t c : ℕ) (hf : (cfg t).fresh = false) :
    (getParam cfg w t c).1.model = w.model := by
  by_cases h : w.cur t = some c
  · rw [getParam_same cfg w h]
  · cases hc : (cfg t).ckpts[c]? with
    | none => unfold getParam; rw [load_none cfg w h hc]
    | some k => unfold getParam; rw [load_some cfg w h hc, hf]; rfl

theorem run_append (cfg : ℕ → Cfg W) (a b : List (Op W)) (w : World W) :
    run cfg w (a ++ b) = ((run cfg (run cfg w a).1 b).1, (run cfg w a).2 ++ (run cfg (run cfg w a).1 b).2) := by
  induction a generalizing w with
  | nil => rfl
  | cons o l ih => simp only [List.cons_append, run, ih]

theorem run_length (cfg : ℕ → Cfg W) (l : List (Op W)) (w : World W) : (run cfg w l).2.length = l.length := by
  induction l generalizing w with
  | nil => rfl
  | cons o l ih => simp [run, ih]

/-- The loop over the first `n` checkpoints. -/
def firstN (t n : ℕ) : List (Op W) := (List.range n).map fun c : ℕ => .param t c

theorem run_firstN (cfg : ℕ → Cfg W) (w : World W) (t n : ℕ) :
    run cfg w (firstN t (n + 1)) = ((getParam cfg (run cfg w (firstN t n)).1 t n).1,
      (run cfg w (firstN t n)).2 ++ [(getParam cfg (run cfg w (firstN t n)).1 t n).2.map some]) := by
  unfold firstN
  rw [List.range_succ, List.map_append, run_append]
  rfl

theorem firstN_out (cfg : ℕ → Cfg W) (w : World W) (t n c : ℕ) (hc : c < n) :
    (run cfg w (firstN t n)).2[c]? = some ((getParam cfg (run cfg w (firstN t c)).1 t c).2.map some) := by
  induction n with
  | zero => omega
  | succ n ih =>
    have hl : (run cfg w (firstN t n)).2.length = n := by rw [run_length]; simp [firstN]
    rw [run_firstN]
    by_cases h : c < n
    · rw [List.getElem?_append_left (by omega)]; exact ih h
    · have : c = n := by omega
      subst this
      rw [List.getElem?_append_right (by omega), hl]
      simp

theorem firstN_cur (cfg : ℕ → Cfg W) (w : World W) (t n : ℕ) (hn : n + 1 ≤ (cfg t).ckpts.length) :
    (run cfg w (firstN t (n + 1))).1.cur t = some n := by
  rw [run_firstN]; exact (getParam_after cfg _ (by omega)).1

/-! ## The properties -/

/-- C218: a loop over all checkpoints (all of the task's own), after anything that happened to the model objects: every checkpoint is used with its own weights,
except that checkpoint 0 is not loaded again if it was the task's last one: then the present weights of the model are used, whoever wrote them.  Afterwards the
model holds the last checkpoint's weights. -/
theorem C218_call (cfg : ℕ → Cfg W) (w : World W) (t : ℕ) (v : ℕ → W) (hv : ∀ c < (cfg t).ckpts.length, Owns cfg t c (v c)) :
    (run cfg w (attributeAll cfg t)).2 = (List.range (cfg t).ckpts.length).map fun c : ℕ =>
      .ok (some (if c = 0 ∧ w.cur t = some 0 then w.cells (w.model t) else v c)) := by
  apply List.ext_getElem?
  intro c
  by_cases hc : c < (cfg t).ckpts.length
  · have e := firstN_out cfg w t (cfg t).ckpts.length c hc
    refine e.trans ?_
    rw [List.getElem?_map, List.getElem?_range hc]
    cases c with
    | zero =>
      by_cases h : w.cur t = some 0
      · simp only [firstN, List.range_zero, List.map_nil, run, getParam_same cfg w h, h]; rfl
      · have := (getParam_some cfg w h (hv 0 hc)).1
        simp only [firstN, List.range_zero, List.map_nil, run, this, h]; rfl
    | succ c =>
      have hcur := firstN_cur cfg w t c (by omega)
      have := (getParam_some cfg (run cfg w (firstN t (c + 1))).1 (t := t) (c := c + 1) (by rw [hcur]; simp) (hv _ hc)).1
      rw [this]; rfl
  · have h1 : (run cfg w (attributeAll cfg t)).2.length = (cfg t).ckpts.length := by rw [run_length]; simp [attributeAll]
    rw [List.getElem?_eq_none (by omega), List.getElem?_eq_none (by simp; omega)]

/-- C218: what a loop leaves behind. -/
theorem C218_left (cfg : ℕ → Cfg W) (w : World W) (t : ℕ) (v : ℕ → W) (hv : ∀ c < (cfg t).ckpts.length, Owns cfg t c (v c))
    (hn : 2 ≤ (cfg t).ckpts.length) :
    let w' := (run cfg w (attributeAll cfg t)).1
    w'.cur t = some ((cfg t).ckpts.length - 1) ∧ w'.cells (w'.model t) = v ((cfg t).ckpts.length - 1) ∧
    (run cfg w' (attributeAll cfg t)).2 = (List.range (cfg t).ckpts.length).map fun c : ℕ => .ok (some (v c)) := by
  obtain ⟨n, hl⟩ : ∃ n, (cfg t).ckpts.length = n + 2 := ⟨_, (Nat.sub_add_cancel hn).symm⟩
  have hw : (run cfg w (attributeAll cfg t)).1 = (getParam cfg (run cfg w (firstN t (n + 1))).1 t (n + 1)).1 := by
    have e : attributeAll cfg t = firstN t (n + 2) := by unfold attributeAll firstN; rw [hl]
    rw [e, run_firstN]
  have hcur := firstN_cur cfg w t n (by omega)
  have hg := getParam_some cfg (run cfg w (firstN t (n + 1))).1 (t := t) (c := n + 1) (by rw [hcur]; simp) (hv _ (by omega))
  have h1 : (run cfg w (attributeAll cfg t)).1.cur t = some ((cfg t).ckpts.length - 1) := by rw [hw, hg.2.1, hl]; rfl
  refine ⟨h1, ?_, ?_⟩
  · rw [hw, hg.2.2, hl]; rfl
  · rw [C218_call cfg _ t v hv, h1, hl]
    refine List.map_congr_left fun c _ => ?_
    simp

/-- C218: a checkpoint that is the live model's own `state_dict()`.  With the default loading function, in a loop over the checkpoints such a checkpoint at position
`c + 1` is used with the weights of checkpoint `c`, and at position 0 with the present weights of the model. -/
theorem C218_alias (cfg : ℕ → Cfg W) (w : World W) (t c : ℕ) (hf : (cfg t).fresh = false) (ha : (cfg t).ckpts[c]? = some (.alias (w.model t))) :
    (run cfg w (attributeAll cfg t)).2[c]? =
      (if c = 0 then some (.ok (some (w.cells (w.model t)))) else (run cfg w (attributeAll cfg t)).2[c - 1]?) := by
  have hc : c < (cfg t).ckpts.length := by
    by_contra h
    rw [List.getElem?_eq_none (by omega)] at ha
    simp at ha
  have hmod : ∀ n, (run cfg w (firstN t n)).1.model = w.model := by
    intro n
    induction n with
    | zero => rfl
    | succ n ih => rw [run_firstN, getParam_inplace cfg _ t n hf, ih]
  have hout : ∀ c, c < (cfg t).ckpts.length → (run cfg w (attributeAll cfg t)).2[c]?
      = some ((getParam cfg (run cfg w (firstN t c)).1 t c).2.map some) := fun c h => firstN_out cfg w t _ c h
  rw [hout c hc]
  cases c with
  | zero =>
    rw [if_pos rfl]
    have e : (run cfg w (firstN t 0)).1 = w := rfl
    rw [e]
    by_cases h : w.cur t = some 0
    · rw [getParam_same cfg w h]; rfl
    · rw [(getParam_some cfg w h ha).1]; rfl
  | succ c =>
    rw [if_neg (Nat.succ_ne_zero c), Nat.add_sub_cancel, hout c (by omega)]
    have hcur := firstN_cur cfg w t c (by omega)
    have hg := (getParam_some cfg (run cfg w (firstN t (c + 1))).1 (t := t) (c := c + 1) (by rw [hcur]; simp) ha).1
    rw [hg]
    have hb := getParam_after cfg (run cfg w (firstN t c)).1 (t := t) (c := c) (by omega)
    rw [hb.2]
    have e : (run cfg w (firstN t (c + 1))).1 = (getParam cfg (run cfg w (firstN t c)).1 t c).1 := by rw [run_firstN]
    have hm1 : (getParam cfg (run cfg w (firstN t c)).1 t c).1.model t = w.model t := by rw [← e, hmod]
    simp only [Ckpt.read, e, hm1]

/-- What holds in every reachable state when no two tasks share a model: the model of a task is its first one or a new one, no two coincide, and the recorded
checkpoint is in it. -/
structure Good (cfg : ℕ → Cfg W) (w0 w : World W) : Prop where
  next : w0.next ≤ w.next
  model : ∀ t, w.model t = w0.model t ∨ w0.next ≤ w.model t
  lt : ∀ t, w.model t < w.next
  inj : ∀ t t', t ≠ t' → w.model t ≠ w.model t'
  cell : ∀ t c v, w.cur t = some c → Owns cfg t c v → w.cells (w.model t) = v

theorem good_load (cfg : ℕ → Cfg W) (w0 w : World W) (hown : ∀ t, ∀ k ∈ (cfg t).ckpts, ∃ v, k = .own v) (h : Good cfg w0 w) (t c : ℕ) :
    Good cfg w0 (load cfg w t c).1 := by
  by_cases hc : w.cur t = some c
  · rw [load_same cfg w hc]; exact h
  · cases hk : (cfg t).ckpts[c]? with
    | none => rw [load_none cfg w hc hk]; exact h
    | some k =>
      obtain ⟨v, rfl⟩ := hown t k (List.mem_of_getElem? hk)
      rw [load_some cfg w hc hk]
      cases hf : (cfg t).fresh
      · refine ⟨h.next, h.model, h.lt, h.inj, ?_⟩
        intro s d u hs hu
        by_cases hst : s = t
        · subst hst
          simp only [Bool.false_eq_true, if_false, put_same, Option.some.injEq] at hs ⊢
          subst hs
          rw [Owns, hk] at hu
          simp only [Option.some.injEq, Ckpt.own.injEq] at hu
          exact hu
        · simp only [Bool.false_eq_true, if_false, put_other _ _ hst] at hs ⊢
          rw [put_other _ _ (h.inj s t hst)]
          exact h.cell s d u hs hu
      · refine ⟨Nat.le_succ_of_le h.next, ?_, ?_, ?_, ?_⟩
        · intro s
          by_cases hst : s = t
          · subst hst; simp only [if_true, put_same]; exact Or.inr h.next
          · simp only [if_true, put_other _ _ hst]; exact h.model s
        · intro s
          by_cases hst : s = t
          · subst hst; simp only [if_true, put_same]; exact Nat.lt_succ_self _
          · simp only [if_true, put_other _ _ hst]; exact Nat.lt_succ_of_lt (h.lt s)
        · intro s s' hne
          by_cases hst : s = t
          · subst hst
            simp only [if_true, put_same, put_other _ _ (Ne.symm hne)]
            exact (Nat.ne_of_lt (h.lt s')).symm
          · by_cases hst' : s' = t
            · subst hst'
              simp only [if_true, put_same, put_other _ _ hne]
              exact Nat.ne_of_lt (h.lt s)
            · simp only [if_true, put_other _ _ hst, put_other _ _ hst']
              exact h.inj s s' hne
        · intro s d u hs hu
          by_cases hst : s = t
          · subst hst
            simp only [if_true, put_same, Option.some.injEq] at hs ⊢
            subst hs
            rw [Owns, hk] at hu
            simp only [Option.some.injEq, Ckpt.own.injEq] at hu
            exact hu
          · simp only [if_true, put_other _ _ hst] at hs ⊢
            rw [put_other _ _ (Nat.ne_of_lt (h.lt s))]
            exact h.cell s d u hs hu

theorem getParam_fst (cfg : ℕ → Cfg W) (w : World W) (t c : ℕ) : (getParam cfg w t c).1 = (load cfg w t c).1 := by
  unfold getParam
  rcases load cfg w t c with ⟨w', _ | _⟩ <;> rfl

theorem good_held (cfg : ℕ → Cfg W) (w0 w : World W) (h : Good cfg w0 w) (f : ℕ → ℕ) : Good cfg w0 { w with held := f } :=
  ⟨h.next, h.model, h.lt, h.inj, h.cell⟩

theorem good_step (cfg : ℕ → Cfg W) (w0 w : World W) (hown : ∀ t, ∀ k ∈ (cfg t).ckpts, ∃ v, k = .own v) (h : Good cfg w0 w) (o : Op W)
    (ho : Outside w0 o) : Good cfg w0 (step cfg w o).1 := by
  cases o with
  | param t c => simp only [step, getParam_fst]; exact good_load cfg w0 w hown h t c
  | write m v =>
    refine ⟨h.next, h.model, h.lt, h.inj, fun t c u hc hu => ?_⟩
    have : w.model t ≠ m := by
      rcases h.model t with e | e
      · rw [e]; exact (ho.2 t).symm
      · exact (Nat.ne_of_lt (Nat.lt_of_lt_of_le ho.1 e)).symm
    simp only [step, put_other _ _ this]
    exact h.cell t c u hc hu
  | rps a t => simp only [step, getParam_fst]; exact good_load cfg w0 _ hown (good_held cfg w0 w h _) t 0
  | block a t =>
    have := good_load cfg w0 w hown h t 0
    rcases hl : load cfg w t 0 with ⟨w1, _ | _⟩
    · rw [hl] at this; simp only [step, hl]; exact this
    · rw [hl] at this; simp only [step, hl]; exact good_held cfg w0 w1 this _
  | dvemb a t => exact good_held cfg w0 w h _
  | live a => exact h

/-- C218: when no two tasks share a model object, all checkpoints are state dicts of their own, and the user does not write to the tasks' models, every `get_param`
in every interleaving of calls, tasks and attributors returns the weights of the requested checkpoint, with both kinds of loading functions. -/
theorem C218_separate (cfg : ℕ → Cfg W) (w : World W) (hs : Start w) (hinj : ∀ t t', t ≠ t' → w.model t ≠ w.model t')
    (hown : ∀ t, ∀ k ∈ (cfg t).ckpts, ∃ v, k = .own v) (ops : List (Op W)) (hops : ∀ o ∈ ops, Outside w o) (i t c : ℕ) (v : W)
    (hi : ops[i]? = some (.param t c)) (hv : Owns cfg t c v) : (run cfg w ops).2[i]? = some (.ok (some v)) := by
  have h0 : Good cfg w w := ⟨Nat.le_refl _, fun t => Or.inl rfl, hs.model, hinj, fun t c v hc => by rw [hs.cur] at hc; simp at hc⟩
  suffices h : ∀ (ops : List (Op W)) (w1 : World W), (∀ o ∈ ops, Outside w o) → Good cfg w w1 → ∀ i : ℕ, ops[i]? = some (.param t c) →
      (run cfg w1 ops).2[i]? = some (.ok (some v)) from h ops w hops h0 i hi
  intro ops
  induction ops with
  | nil => intro w1 _ _ i hi; simp at hi
  | cons o l ih =>
    intro w1 hops hg i hi
    cases i with
    | zero =>
      simp only [List.getElem?_cons_zero, Option.some.injEq] at hi
      subst hi
      have : (getParam cfg w1 t c).2 = .ok v := by
        by_cases hc : w1.cur t = some c
        · rw [getParam_same cfg w1 hc, hg.cell t c v hc hv]
        · exact (getParam_some cfg w1 hc hv).1
      simp only [run, step, List.getElem?_cons_zero, this]
      rfl
    | succ i =>
      simp only [List.getElem?_cons_succ] at hi
      simp only [run, List.getElem?_cons_succ]
      exact ih _ (fun o ho => hops o (List.mem_cons_of_mem _ ho)) (good_step cfg w w1 hown hg o (hops o (List.mem_cons_self ..))) i hi

/-- C218: tasks may share model objects if each has a single checkpoint and tasks on one object have the same one (default loading function). -/
theorem C218_equal (cfg : ℕ → Cfg W) (w : World W) (hs : Start w) (v : ℕ → W) (hck : ∀ t, (cfg t).ckpts = [.own (v (w.model t))])
    (hf : ∀ t, (cfg t).fresh = false) (ops : List (Op W)) (hops : ∀ o ∈ ops, Outside w o) (i t : ℕ) (hi : ops[i]? = some (.param t 0)) :
    (run cfg w ops).2[i]? = some (.ok (some (v (w.model t)))) := by
  suffices h : ∀ (ops : List (Op W)) (w1 : World W), (∀ o ∈ ops, Outside w o) →
      (w1.model = w.model ∧ ∀ t c, w1.cur t = some c → w1.cells (w.model t) = v (w.model t)) → ∀ i : ℕ, ops[i]? = some (.param t 0) →
      (run cfg w1 ops).2[i]? = some (.ok (some (v (w.model t)))) from
    h ops w hops ⟨rfl, fun t c hc => by rw [hs.cur] at hc; simp at hc⟩ i hi
  have hload : ∀ (w1 : World W) (s d : ℕ), (w1.model = w.model ∧ ∀ t c, w1.cur t = some c → w1.cells (w.model t) = v (w.model t)) →
      ((load cfg w1 s d).1.model = w.model ∧ ∀ t c, (load cfg w1 s d).1.cur t = some c → (load cfg w1 s d).1.cells (w.model t) = v (w.model t)) := by
    intro w1 s d h
    by_cases hc : w1.cur s = some d
    · rw [load_same cfg w1 hc]; exact h
    · cases hk : (cfg s).ckpts[d]? with
      | none => rw [load_none cfg w1 hc hk]; exact h
      | some k =>
        have hk' : k = .own (v (w.model s)) := by
          have := List.mem_of_getElem? hk
          rw [hck s] at this
          simpa using this
        subst hk'
        rw [load_some cfg w1 hc hk, hf s]
        refine ⟨h.1, fun t c ht => ?_⟩
        simp only [Bool.false_eq_true, if_false, h.1] at ht ⊢
        by_cases hm : w.model t = w.model s
        · rw [hm, put_same]; rfl
        · rw [put_other _ _ hm]
          have hts : t ≠ s := fun e => hm (by rw [e])
          rw [put_other _ _ hts] at ht
          exact h.2 t c ht
  intro ops
  induction ops with
  | nil => intro w1 _ _ i hi; simp at hi
  | cons o l ih =>
    intro w1 hops hg i hi
    cases i with
    | zero =>
      simp only [List.getElem?_cons_zero, Option.some.injEq] at hi
      subst hi
      have : (getParam cfg w1 t 0).2 = .ok (v (w.model t)) := by
        by_cases hc : w1.cur t = some 0
        · rw [getParam_same cfg w1 hc, hg.1, hg.2 t 0 hc]
        · exact (getParam_some cfg w1 hc (k := .own (v (w.model t))) (by rw [hck t]; rfl)).1
      simp only [run, step, List.getElem?_cons_zero, this]
      rfl
    | succ i =>
      simp only [List.getElem?_cons_succ] at hi
      simp only [run, List.getElem?_cons_succ]
      refine ih _ (fun o ho => hops o (List.mem_cons_of_mem _ ho)) ?_ i hi
      have ho := hops o (List.mem_cons_self ..)
      cases o with
      | param s d => simp only [step, getParam_fst]; exact hload w1 s d hg
      | write m x =>
        refine ⟨hg.1, fun s d hd => ?_⟩
        simp only [step, put_other _ _ (ho.2 s).symm]
        exact hg.2 s d hd
      | rps a s => simp only [step, getParam_fst]; exact hload { w1 with held := put w1.held a (w1.model s) } s 0 hg
      | block a s =>
        have := hload w1 s 0 hg
        rcases hl : load cfg w1 s 0 with ⟨w2, _ | _⟩
        · rw [hl] at this; simp only [step, hl]; exact this
        · rw [hl] at this; simp only [step, hl]; exact this
      | dvemb a s => exact hg
      | live a => exact hg

/-- C218: two tasks with different checkpoints on one model object (default loading function): after each has been used once, the first one works with the second
one's weights. -/
theorem C218_two_tasks (cfg : ℕ → Cfg W) (w : World W) (hs : Start w) (s t : ℕ) (hst : s ≠ t) (hm : w.model s = w.model t) (x y : W)
    (hx : (cfg s).ckpts = [.own x]) (hy : (cfg t).ckpts = [.own y]) (hfs : (cfg s).fresh = false) (hft : (cfg t).fresh = false) :
    (run cfg w [.param s 0, .param t 0, .param s 0]).2 = [.ok (some x), .ok (some y), .ok (some y)] := by
  simp [run, step, getParam, load, hs.cur, hx, hy, hfs, hft, put, hst, hst.symm, hm, Ckpt.read]
  exact ⟨rfl, rfl⟩

/-- C218: the user goes on training the model of a task: the task keeps using the trained weights for the checkpoint it loaded last. -/
theorem C218_trained (cfg : ℕ → Cfg W) (w : World W) (t c : ℕ) (hc : c < (cfg t).ckpts.length) (y : W) :
    let w1 := (step cfg w (.param t c)).1
    (run cfg w1 [.write (w1.model t) y, .param t c]).2 = [.ok none, .ok (some y)] := by
  have h := (getParam_after cfg w (t := t) (c := c) hc).1
  simp only [run, step, List.cons.injEq, true_and, and_true]
  have e := getParam_same cfg { (getParam cfg w t c).1 with cells := put (getParam cfg w t c).1.cells ((getParam cfg w t c).1.model t) y } (t := t) (c := c) h
  rw [e]
  simp only [put_same]
  rfl

/-- C218: the attributors that keep the model object.  Default loading function: both read checkpoint 0 after construction, and the last checkpoint once any loop
over the checkpoints of the task has run in between.  A loading function that builds new models: the block-projected attributor reads checkpoint 0 before and after
such a loop, RPS the weights of the model given to the task, which is never loaded. -/
theorem C218_held (cfg : ℕ → Cfg W) (w : World W) (hs : Start w) (t a : ℕ) (v : ℕ → W) (hv : ∀ c < (cfg t).ckpts.length, Owns cfg t c (v c))
    (hn : 2 ≤ (cfg t).ckpts.length) :
    let n := (cfg t).ckpts.length
    let after (o : Op W) (l : List (Op W)) : Except Err (Option W) := (step cfg (run cfg w (o :: l)).1 (.live a)).2
    ((cfg t).fresh = false →
      after (.block a t) [] = .ok (some (v 0)) ∧ after (.rps a t) [] = .ok (some (v 0)) ∧
      after (.block a t) (attributeAll cfg t) = .ok (some (v (n - 1))) ∧ after (.rps a t) (attributeAll cfg t) = .ok (some (v (n - 1)))) ∧
    ((cfg t).fresh = true →
      after (.block a t) [] = .ok (some (v 0)) ∧ after (.rps a t) [] = .ok (some (w.cells (w.model t))) ∧
      after (.block a t) (attributeAll cfg t) = .ok (some (v 0)) ∧ after (.rps a t) (attributeAll cfg t) = .ok (some (w.cells (w.model t)))) := by
  intro n after
  have h0 : (cfg t).ckpts[0]? = some (.own (v 0)) := hv 0 (by omega)
  have hcur : w.cur t ≠ some 0 := by rw [hs.cur]; simp
  have hheld : ∀ (m : ℕ) (w1 : World W), (run cfg w1 (firstN t m)).1.held = w1.held := by
    intro m w1
    induction m with
    | zero => rfl
    | succ m ih =>
      rw [run_firstN, getParam_fst, ← ih]
      unfold load
      split
      · split
        · rfl
        · split <;> rfl
      · rfl
  refine ⟨fun hf => ?_, fun hf => ?_⟩
  · have hb : (step cfg w (.block a t)).1 = { w with cells := put w.cells (w.model t) (v 0), cur := put w.cur t (some 0), held := put w.held a (w.model t) } := by
      simp only [step, load_some cfg w hcur h0, hf, Bool.false_eq_true, if_false]; rfl
    have hr : (step cfg w (.rps a t)).1 = { w with cells := put w.cells (w.model t) (v 0), cur := put w.cur t (some 0), held := put w.held a (w.model t) } := by
      simp only [step, getParam_fst]
      rw [load_some cfg { w with held := put w.held a (w.model t) } (t := t) (c := 0) hcur h0, hf]
      rfl
    have hmod : ∀ (m : ℕ) (w1 : World W), (run cfg w1 (firstN t m)).1.model = w1.model := by
      intro m w1
      induction m with
      | zero => rfl
      | succ m ih => rw [run_firstN, getParam_inplace cfg _ t m hf, ih]
    have key : ∀ w1 : World W, w1.held a = w1.model t →
        (step cfg (run cfg w1 (attributeAll cfg t)).1 (.live a)).2 = .ok (some (v (n - 1))) := by
      intro w1 h1
      have h2 := (C218_left cfg w1 t v hv hn).2.1
      have h3 : (run cfg w1 (attributeAll cfg t)).1.held a = (run cfg w1 (attributeAll cfg t)).1.model t := by
        have e1 := hheld (cfg t).ckpts.length w1
        have e2 := hmod (cfg t).ckpts.length w1
        show (run cfg w1 (firstN t (cfg t).ckpts.length)).1.held a = (run cfg w1 (firstN t (cfg t).ckpts.length)).1.model t
        rw [e1, e2, h1]
      simp only [step, h3, h2]
      rfl
    refine ⟨?_, ?_, ?_, ?_⟩
    · show (step cfg (step cfg w (.block a t)).1 (.live a)).2 = _
      rw [hb]; simp only [step, put_same]
    · show (step cfg (step cfg w (.rps a t)).1 (.live a)).2 = _
      rw [hr]; simp only [step, put_same]
    · simp only [after, run, hb]; exact key _ (put_same ..)
    · simp only [after, run, hr]; exact key _ (put_same ..)
  · have hb : (step cfg w (.block a t)).1 = { w with cells := put w.cells w.next (v 0), next := w.next + 1, model := put w.model t w.next,
                                                     cur := put w.cur t (some 0), held := put w.held a w.next } := by
      simp only [step, load_some cfg w hcur h0, hf, if_true, put_same]; rfl
    have hr : (step cfg w (.rps a t)).1 = { w with cells := put w.cells w.next (v 0), next := w.next + 1, model := put w.model t w.next,
                                                   cur := put w.cur t (some 0), held := put w.held a (w.model t) } := by
      simp only [step, getParam_fst]
      rw [load_some cfg { w with held := put w.held a (w.model t) } (t := t) (c := 0) hcur h0, hf]
      rfl
    have hcell : ∀ (m : ℕ) (w1 : World W) (k : ℕ), k < w1.next →
        w1.next ≤ (run cfg w1 (firstN t m)).1.next ∧ (run cfg w1 (firstN t m)).1.cells k = w1.cells k := by
      intro m w1 k hk
      induction m with
      | zero => exact ⟨Nat.le_refl _, rfl⟩
      | succ m ih =>
        rw [run_firstN, getParam_fst]
        unfold load
        split
        · split
          · exact ih
          · exact ⟨Nat.le_succ_of_le ih.1, (put_other _ _ (Nat.ne_of_lt (Nat.lt_of_lt_of_le hk ih.1))).trans ih.2⟩
        · exact ih
    have key : ∀ w1 : World W, w1.held a < w1.next →
        (step cfg (run cfg w1 (attributeAll cfg t)).1 (.live a)).2 = .ok (some (w1.cells (w1.held a))) := by
      intro w1 h1
      have e1 := hheld (cfg t).ckpts.length w1
      have e2 := (hcell (cfg t).ckpts.length w1 (w1.held a) h1).2
      show Except.ok (some ((run cfg w1 (firstN t (cfg t).ckpts.length)).1.cells ((run cfg w1 (firstN t (cfg t).ckpts.length)).1.held a))) = _
      rw [e1, e2]
    have hne : w.model t ≠ w.next := Nat.ne_of_lt (hs.model t)
    refine ⟨?_, ?_, ?_, ?_⟩
    · show (step cfg (step cfg w (.block a t)).1 (.live a)).2 = _
      rw [hb]; simp only [step, put_same]
    · show (step cfg (step cfg w (.rps a t)).1 (.live a)).2 = _
      rw [hr]; simp only [step, put_same, put_other _ _ hne]
    · simp only [after, run, hb]
      rw [key _ (by simp only [put_same]; exact Nat.lt_succ_self _)]
      simp only [put_same]
    · simp only [after, run, hr]
      rw [key _ (by simp only [put_same]; exact Nat.lt_succ_of_lt (hs.model t))]
      simp only [put_same, put_other _ _ hne]

/-! ## Examples -/

/-- One model object with weights 0, used by three tasks: two with one checkpoint each, one with three of which the middle one is the live state dict. -/
def exCfg (t : ℕ) : Cfg ℤ := if t = 0 then ⟨[.own 5], false⟩ else if t = 1 then ⟨[.own 7], false⟩ else ⟨[.own 1, .alias 0, .own 3], false⟩

def exWorld : World ℤ := ⟨fun _ => 0, 1, fun _ => 0, fun _ => none, fun _ => 0⟩

example : Start exWorld := ⟨fun _ => rfl, fun _ => Nat.one_pos⟩

def reads (r : World ℤ × List (Except Err (Option ℤ))) : List (Option ℤ) := r.2.map fun
  | .ok x => x
  | .error _ => none

example : reads (run exCfg exWorld (attributeAll exCfg 2)) = [some 1, some 1, some 3] := by decide
example : reads (run exCfg exWorld [.param 0 0, .param 1 0, .param 0 0]) = [some 5, some 7, some 7] := by decide
example : reads (run exCfg exWorld [.block 9 0, .param 1 0, .live 9, .write 0 8, .live 9, .param 0 0]) = [none, some 7, some 7, none, some 8, some 8] := by decide

end Verif.Share
