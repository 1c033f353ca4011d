import Mathlib.Tactic.NormNum
import Mathlib.Data.List.Destutter
import Mathlib.Data.List.ReduceOption
import Verif.Task.Lemmas

/-!
# C34, C35, C36, C83: the task's lazy checkpoint loading, function memo and shared parameter dictionaries
-/

namespace Verif.Task

variable {N R D : Type} [DecidableEq N] [DecidableEq D]

/-! ### C83 / C34: what a partial function sees -/

/-- **C83.** After any history of requests about one layer list `L`, calling any function handed out for `L` (for whatever checkpoint) at
`x` evaluates the user's function with the pieces of `x` for the layers in `L` and, for all other layers, the values of the checkpoint
that is loaded NOW (not of the checkpoint the function was requested for). -/
theorem C83_uses_loaded_checkpoint {env : Env N R} {numel : N → ℕ} (henv : env.Ok numel) {L : List N} (hL : L.Nodup)
    (hsub : ∀ l ∈ L, l ∈ env.names) (d0 : D) (cells : N → List R) (ops : List (Op N R D)) (hops : ∀ op ∈ ops, Good numel L op)
    (h : ℕ) (f : Closure N D) (ls : List N) (i : ℕ) (hf : (run env (init d0 cells) ops).handles[h]? = some f)
    (hp : f.part = some (ls, i)) (x : List R) :
    ls = L ∧ ∃ c ck, (run env (init d0 cells) ops).cur = some c ∧ env.ckpts[c]? = some ck ∧
      (step env (run env (init d0 cells) ops) (.eval h x)).2 = .ok (.called f.target f.dims (fullVec numel env.names L x ck)) := by
  have hI := inv_run henv hL hsub ops (inv_init env numel L d0 cells) hops
  generalize run env (init d0 cells) ops = s at *
  obtain ⟨rfl, hi⟩ := hI.handles f (List.mem_of_getElem? hf) ls i hp
  refine ⟨rfl, ?_⟩
  cases hc : s.cur with
  | none => have := hI.none_iff hc; rw [this] at hi; simp at hi
  | some c =>
    refine ⟨c, s.cells, rfl, (hI.cur c hc).1, ?_⟩
    simp only [step, hf]
    rw [evalC_eq henv hL hsub hI f i hp hi x]

/-- Helper: reading the parameters when checkpoint `c` is already loaded. -/
lemma getParam_cur {env : Env N R} (s : St N R D) (c : ℕ) (hc : s.cur = some c) :
    step env s (.getParam c none) =
      if (s.heap.getD s.dict []).isEmpty then (s, .error .stopIteration)
      else (s, .ok (.params (dflat s.cells (s.heap.getD s.dict [])))) := by
  have hl : load env s (some c) = (s, .ok ()) := by
    unfold load; rw [if_neg (by simp [hc])]
  simp only [step, getParam, hl, select]
  rfl

/-- **C34** (contamination). After any history about one layer list, calling a partial function that was created since the checkpoint `c`
was loaded, at `x`, makes the next `get_param(c)` return the evaluated point (pieces of `x` in the layers of `L`) instead of the
parameters of checkpoint `c`. -/
theorem C34_read_returns_evaluated_point {env : Env N R} {numel : N → ℕ} (henv : env.Ok numel) {L : List N} (hL : L.Nodup)
    (hsub : ∀ l ∈ L, l ∈ env.names) (d0 : D) (cells : N → List R) (ops : List (Op N R D)) (hops : ∀ op ∈ ops, Good numel L op)
    (h : ℕ) (f : Closure N D) (ls : List N) (hf : (run env (init d0 cells) ops).handles[h]? = some f)
    (hp : f.part = some (ls, (run env (init d0 cells) ops).dict)) (x : List R) (c : ℕ)
    (hc : (run env (init d0 cells) ops).cur = some c) (ck : N → List R) (hck : env.ckpts[c]? = some ck) :
    (step env (run env (init d0 cells) (ops ++ [.eval h x])) (.getParam c none)).2 =
      .ok (.params (fullVec numel env.names L x ck)) := by
  have hI := inv_run henv hL hsub ops (inv_init env numel L d0 cells) hops
  rw [run, List.foldl_append]
  change (step env (step env (run env (init d0 cells) ops) (.eval h x)).1 _).2 = _
  generalize run env (init d0 cells) ops = s at *
  obtain ⟨rfl, hi⟩ := hI.handles f (List.mem_of_getElem? hf) ls _ hp
  have hcells : s.cells = ck := by
    have := (hI.cur c hc).1
    rw [hck] at this; injection this with this; exact this.symm
  have hd : s.heap.getD s.dict [] ∈ s.heap := by
    rw [List.getD_eq_getElem?_getD, List.getElem?_eq_getElem hi]; exact List.getElem_mem hi
  have he : (step env s (.eval h x)).1 = { s with heap := s.heap.set s.dict ((s.heap.getD s.dict []).map (fun p =>
      (p.1, ((pick numel ls x p.1).map Entry.val).getD p.2))) } := by
    simp only [step, hf]
    rw [evalC_eq henv hL hsub hI f _ hp hi x]
  rw [he, getParam_cur _ c (by exact hc)]
  simp only
  have hg : (s.heap.set s.dict ((s.heap.getD s.dict []).map (fun p =>
      (p.1, ((pick numel ls x p.1).map Entry.val).getD p.2)))).getD s.dict [] =
      (s.heap.getD s.dict []).map (fun p => (p.1, ((pick numel ls x p.1).map Entry.val).getD p.2)) := by
    rw [List.getD_eq_getElem?_getD, List.getElem?_set_self hi]; rfl
  rw [hg, if_neg]
  · simp only
    unfold dflat fullVec
    rw [← h_keys_aux hI hd, List.map_map, List.map_map]
    congr 3
    apply List.map_congr_left
    intro p hp'
    simp only [Function.comp]
    cases hpick : pick numel ls x p.1 with
    | some v => rfl
    | none =>
      have : p.1 ∉ ls := by
        intro hmem
        rw [← pick_some_iff numel ls x p.1, hpick] at hmem
        cases hmem
      rw [Option.map_none, Option.getD_none, Option.getD_none, hI.refs _ hd p hp' this, ← hcells]
      rfl
  · have := hI.keys _ hd
    intro hemp
    rw [List.isEmpty_iff, List.map_eq_nil_iff] at hemp
    rw [hemp] at this
    exact henv.ne this.symm
where
  /-- keys of a heap dictionary -/
  h_keys_aux {env : Env N R} {numel : N → ℕ} {L : List N} {s : St N R D} (h : Inv env numel L s) {d : Dict N R} (hd : d ∈ s.heap) :
      d.map (·.1) = env.names := h.keys d hd

/-- **C34** (independence). After any history about one layer list, calling a partial function at `y` gives the same result whether or not
it has just been called at any `x` (and, by `C83_uses_loaded_checkpoint`, after any number of further calls). -/
theorem C34_calls_independent {env : Env N R} {numel : N → ℕ} (henv : env.Ok numel) {L : List N} (hL : L.Nodup)
    (hsub : ∀ l ∈ L, l ∈ env.names) (d0 : D) (cells : N → List R) (ops : List (Op N R D)) (hops : ∀ op ∈ ops, Good numel L op)
    (h h' : ℕ) (x y : List R) (hx : (L.map numel).sum ≤ x.length) (f : Closure N D)
    (hf : (run env (init d0 cells) ops).handles[h']? = some f) :
    (step env (run env (init d0 cells) (ops ++ [.eval h x])) (.eval h' y)).2 = (step env (run env (init d0 cells) ops) (.eval h' y)).2 := by
  have hrun : run env (init d0 cells) (ops ++ [.eval h x]) = (step env (run env (init d0 cells) ops) (.eval h x)).1 := by
    rw [run, List.foldl_append]; rfl
  have hst : ∀ s : St N R D, (step env s (.eval h x)).1.handles = s.handles ∧ (step env s (.eval h x)).1.cur = s.cur := by
    intro s
    simp only [step]
    cases s.handles[h]? with
    | none => exact ⟨rfl, rfl⟩
    | some g =>
      simp only [evalC]
      cases g.part with
      | none => exact ⟨rfl, rfl⟩
      | some q =>
        simp only
        split <;> exact ⟨rfl, rfl⟩
  cases hp : f.part with
  | none =>
    have e1 : ∀ s : St N R D, s.handles[h']? = some f → (step env s (.eval h' y)).2 = .ok (.called f.target f.dims y) := by
      intro s hs; simp only [step, hs, evalC, hp]
    rw [hrun, e1 _ (by rw [(hst _).1]; exact hf), e1 _ hf]
  | some q =>
    obtain ⟨ls, i⟩ := q
    obtain ⟨rfl, c, ck, h1, h2, h3⟩ := C83_uses_loaded_checkpoint henv hL hsub d0 cells ops hops h' f ls i hf hp y
    have hf' : (run env (init d0 cells) (ops ++ [.eval h x])).handles[h']? = some f := by rw [hrun, (hst _).1]; exact hf
    obtain ⟨-, c', ck', h1', h2', h3'⟩ := C83_uses_loaded_checkpoint henv hL hsub d0 cells (ops ++ [.eval h x])
      (by intro op hop
          rcases List.mem_append.1 hop with hop | hop
          · exact hops op hop
          · rw [List.mem_singleton] at hop; subst hop; exact hx) h' f ls i hf' hp y
    rw [hrun, (hst _).2, h1] at h1'
    injection h1' with h1'
    subst h1'
    rw [h2] at h2'; injection h2' with h2'
    subst h2'
    rw [h3, h3']

/-! ### C35: the memo -/

/-- Memo keys describe the stored function. -/
def MemoOk (s : St N R D) : Prop :=
  ∀ t, (s.memo t).2.target = t ∧ (s.memo t).2.dims = some (s.memo t).1.dims ∧ (s.memo t).2.part.map (·.1) = (s.memo t).1.layer

omit [DecidableEq N] [DecidableEq D] in
lemma load_memo {env : Env N R} (s : St N R D) (c : Option ℕ) : (load env s c).1.memo = s.memo := by
  unfold load
  split_ifs
  · cases c with
    | none => rfl
    | some i => simp only; cases env.ckpts[i]? <;> rfl
  · rfl

lemma memoOk_memoize {s : St N R D} (h : MemoOk s) (t : Bool) (k : Key N D) (f : Closure N D)
    (h1 : f.target = t) (h2 : f.dims = some k.dims) (h3 : f.part.map (·.1) = k.layer) :
    MemoOk (memoize s t k f).1 ∧ ∃ g, (memoize s t k f).2 = .ok (.func g) ∧ g.target = t ∧ g.dims = some k.dims ∧
      g.part.map (·.1) = k.layer := by
  unfold memoize
  split_ifs with hk
  · refine ⟨?_, f, rfl, h1, h2, h3⟩
    intro t'
    simp only [give]
    split_ifs with ht
    · subst ht; exact ⟨h1, h2, h3⟩
    · exact h t'
  · push Not at hk
    refine ⟨h, _, rfl, (h t).1, ?_, ?_⟩
    · rw [(h t).2.1, hk]
    · rw [(h t).2.2, hk]

lemma memoOk_step {env : Env N R} {s : St N R D} (h : MemoOk s) (op : Op N R D) : MemoOk (step env s op).1 := by
  have hl : ∀ c, MemoOk (load env s c).1 := fun c => by unfold MemoOk; rw [load_memo]; exact h
  cases op with
  | getParam c L =>
    simp only [step, getParam]
    split
    · rename_i e he; have := hl (some c); rw [he] at this; exact this
    · rename_i he
      have := hl (some c); rw [he] at this
      split_ifs <;> exact this
  | getFunc t L c =>
    cases L with
    | none => exact h
    | some ls =>
      simp only [step, getFunc]
      split
      · rename_i e he; have := hl c; rw [he] at this; exact this
      · rename_i he; have := hl c; rw [he] at this; exact this
  | getGrad t d L c =>
    cases L with
    | none => exact (memoOk_memoize h t ⟨d, none, c⟩ ⟨t, some d, none⟩ rfl rfl rfl).1
    | some ls =>
      simp only [step, getGrad]
      split
      · rename_i e he; have := hl c; rw [he] at this; exact this
      · rename_i s' he; have := hl c; rw [he] at this
        exact (memoOk_memoize this t ⟨d, some ls, c⟩ ⟨t, some d, some (ls, s'.dict)⟩ rfl rfl rfl).1
  | eval k x =>
    simp only [step]
    cases s.handles[k]? with
    | none => exact h
    | some f =>
      simp only [evalC]
      cases f.part with
      | none => exact h
      | some q => simp only; split <;> exact h

lemma memoOk_run {env : Env N R} (ops : List (Op N R D)) : ∀ {s : St N R D}, MemoOk s → MemoOk (run env s ops) := by
  induction ops with
  | nil => intro s h; exact h
  | cons op ops ih => intro s h; exact ih (memoOk_step h op)

/-- **C35** (identity). After any history whatsoever, a gradient-function request that does not raise returns a function of the requested
kind (loss or target), the requested `in_dims` and the requested layer list. -/
theorem C35_memo {env : Env N R} (d0 : D) (cells : N → List R) (ops : List (Op N R D)) (t : Bool) (d : D) (L : Option (List N))
    (c : Option ℕ) (out : Out N R D) (hout : (step env (run env (init d0 cells) ops) (.getGrad t d L c)).2 = .ok out) :
    ∃ g, out = .func g ∧ g.target = t ∧ g.dims = some d ∧ g.part.map (·.1) = L := by
  have hm : MemoOk (run env (init d0 cells) ops) := memoOk_run ops (by intro t; exact ⟨rfl, rfl, rfl⟩)
  generalize run env (init d0 cells) ops = s at *
  cases L with
  | none =>
    obtain ⟨-, g, hg, h1, h2, h3⟩ := memoOk_memoize hm t ⟨d, none, c⟩ ⟨t, some d, none⟩ rfl rfl rfl
    simp only [step, getGrad] at hout
    rw [hg] at hout
    injection hout with hout
    exact ⟨g, hout.symm, h1, h2, h3⟩
  | some ls =>
    simp only [step, getGrad] at hout
    have hl : MemoOk (load env s c).1 := by unfold MemoOk; rw [load_memo]; exact hm
    split at hout
    · cases hout
    · rename_i s' he
      rw [he] at hl
      obtain ⟨-, g, hg, h1, h2, h3⟩ := memoOk_memoize hl t ⟨d, some ls, c⟩ ⟨t, some d, some (ls, s'.dict)⟩ rfl rfl rfl
      rw [hg] at hout
      injection hout with hout
      exact ⟨g, hout.symm, h1, h2, h3⟩

/-- **C35** (behaviour). After any history about one layer list `L`, a gradient function requested for `L` and a valid checkpoint `c`, when
called next, evaluates with the layers `L` from its argument and all other layers from checkpoint `c` – whether it came from the memo
or was newly built. -/
theorem C35_grad_func {env : Env N R} {numel : N → ℕ} (henv : env.Ok numel) {L : List N} (hL : L.Nodup)
    (hsub : ∀ l ∈ L, l ∈ env.names) (d0 : D) (cells : N → List R) (ops : List (Op N R D)) (hops : ∀ op ∈ ops, Good numel L op)
    (t : Bool) (d : D) (c : ℕ) (ck : N → List R) (hck : env.ckpts[c]? = some ck) (x : List R) :
    let s := run env (init d0 cells) ops
    (step env (step env s (.getGrad t d (some L) (some c))).1 (.eval s.handles.length x)).2 =
      .ok (.called t (some d) (fullVec numel env.names L x ck)) := by
  intro s
  have hI : Inv env numel L s := inv_run henv hL hsub ops (inv_init env numel L d0 cells) hops
  have hm : MemoOk s := memoOk_run ops (by intro t; exact ⟨rfl, rfl, rfl⟩)
  obtain ⟨hIl, hok, hh, hmm⟩ := inv_load hI (some c)
  have hlok : (load env s (some c)).2 = .ok () := by
    unfold load
    split_ifs
    · simp only [hck]
    · rfl
  obtain ⟨hcur, -⟩ := hok hlok
  have hcells : (load env s (some c)).1.cells = ck := by
    have := (hIl.cur c hcur).1
    rw [hck] at this; injection this with this; exact this.symm
  -- the step
  have hs : step env s (.getGrad t d (some L) (some c)) =
      memoize (load env s (some c)).1 t ⟨d, some L, some c⟩ ⟨t, some d, some (L, (load env s (some c)).1.dict)⟩ := by
    simp only [step, getGrad]
    split
    · rename_i e he; rw [he] at hlok; cases hlok
    · rename_i he; rw [he]
  have hml : MemoOk (load env s (some c)).1 := by unfold MemoOk; rw [load_memo]; exact hm
  rw [hs]
  generalize hs1 : (load env s (some c)).1 = s1 at *
  have hlast : ∃ g, (memoize s1 t ⟨d, some L, some c⟩ ⟨t, some d, some (L, s1.dict)⟩).1.handles = s1.handles ++ [g] ∧
      g.target = t ∧ g.dims = some d ∧ (∃ i, g.part = some (L, i) ∧ i < s1.heap.length) ∧
      (memoize s1 t ⟨d, some L, some c⟩ ⟨t, some d, some (L, s1.dict)⟩).1.cells = s1.cells ∧
      (memoize s1 t ⟨d, some L, some c⟩ ⟨t, some d, some (L, s1.dict)⟩).1.heap = s1.heap := by
    unfold memoize
    split_ifs with hk
    · exact ⟨_, rfl, rfl, rfl, ⟨s1.dict, rfl, (hIl.cur c hcur).2⟩, rfl, rfl⟩
    · push Not at hk
      refine ⟨_, rfl, (hml t).1, by rw [(hml t).2.1, hk], ?_, rfl, rfl⟩
      have h3 := (hml t).2.2
      rw [hk] at h3
      cases hp : (s1.memo t).2.part with
      | none => rw [hp] at h3; cases h3
      | some q =>
        obtain ⟨ls, i⟩ := q
        obtain ⟨rfl, hi⟩ := hIl.memo t ls i hp
        exact ⟨i, rfl, hi⟩
  have hI2 : Inv env numel L (memoize s1 t ⟨d, some L, some c⟩ ⟨t, some d, some (L, s1.dict)⟩).1 := by
    refine inv_memoize hIl t _ _ ?_
    intro ls i hi
    simp only [Option.some.injEq, Prod.mk.injEq] at hi
    exact ⟨hi.1.symm, hi.2 ▸ (hIl.cur c hcur).2⟩
  obtain ⟨g, hg, h1, h2, ⟨i, hi, hilt⟩, hc2, hheap⟩ := hlast
  generalize (memoize s1 t ⟨d, some L, some c⟩ ⟨t, some d, some (L, s1.dict)⟩).1 = s2 at *
  have hget : s2.handles[s.handles.length]? = some g := by rw [hg, hh]; simp
  simp only [step, hget]
  rw [evalC_eq henv hL hsub hI2 g i hi (by rw [hheap]; exact hilt) x, hc2, hcells, h1, h2]

/-! ### C36: lazy loading -/

omit [DecidableEq N] [DecidableEq D] in
/-- Effect of `load` on the log. -/
lemma load_log {env : Env N R} (s : St N R D) (c : ℕ) :
    (load env s (some c)).1.cur = (if c < env.ckpts.length then some c else s.cur) ∧
    (load env s (some c)).1.loads = (if c < env.ckpts.length ∧ s.cur ≠ some c then s.loads ++ [c] else s.loads) := by
  unfold load
  by_cases h : s.cur = some c
  · rw [if_neg (by simp [h])]
    simp [h]
  · rw [if_pos (Or.inr h)]
    simp only
    by_cases hc : c < env.ckpts.length
    · rw [List.getElem?_eq_getElem hc]
      simp [hc, h]
    · rw [List.getElem?_eq_none (by omega)]
      simp [hc]

omit [DecidableEq N] [DecidableEq D] in
lemma load_none_log {env : Env N R} (s : St N R D) : (load env s none).1 = s := by
  unfold load; split_ifs <;> rfl

lemma step_log {env : Env N R} (s : St N R D) (op : Op N R D) :
    (step env s op).1.cur = (match needs op with
      | some c => if c < env.ckpts.length then some c else s.cur
      | none => s.cur) ∧
    (step env s op).1.loads = (match needs op with
      | some c => if c < env.ckpts.length ∧ s.cur ≠ some c then s.loads ++ [c] else s.loads
      | none => s.loads) := by
  have hmem : ∀ (s : St N R D) t k f, (memoize s t k f).1.cur = s.cur ∧ (memoize s t k f).1.loads = s.loads := by
    intro s t k f; unfold memoize; split_ifs <;> exact ⟨rfl, rfl⟩
  cases op with
  | getParam c L =>
    have := load_log (env := env) s c
    simp only [step, getParam, needs]
    split
    · rename_i e he; rw [he] at this; exact this
    · rename_i he; rw [he] at this; rw [apply_ite Prod.fst, ite_self]; exact this
  | getFunc t L c =>
    cases L with
    | none => exact ⟨rfl, rfl⟩
    | some ls =>
      cases c with
      | none =>
        have := load_none_log (env := env) s
        simp only [step, getFunc, needs]
        split
        · rename_i e he; rw [he] at this; simp only at this; rw [this]; exact ⟨rfl, rfl⟩
        · rename_i he; rw [he] at this; simp only at this; subst this; exact ⟨rfl, rfl⟩
      | some c =>
        have := load_log (env := env) s c
        simp only [step, getFunc, needs]
        split
        · rename_i e he; rw [he] at this; exact this
        · rename_i he; rw [he] at this; exact this
  | getGrad t d L c =>
    cases L with
    | none => exact hmem _ _ _ _
    | some ls =>
      cases c with
      | none =>
        have := load_none_log (env := env) s
        simp only [step, getGrad, needs]
        split
        · rename_i e he; rw [he] at this; simp only at this; rw [this]; exact ⟨rfl, rfl⟩
        · rename_i he; rw [he] at this; simp only at this; subst this; exact hmem _ _ _ _
      | some c =>
        have := load_log (env := env) s c
        simp only [step, getGrad, needs]
        split
        · rename_i e he; rw [he] at this; exact this
        · rename_i he
          rw [he] at this
          rw [(hmem _ _ _ _).1, (hmem _ _ _ _).2]
          exact this
  | eval k x =>
    simp only [step, needs]
    cases s.handles[k]? with
    | none => exact ⟨rfl, rfl⟩
    | some f =>
      simp only [evalC]
      cases f.part with
      | none => exact ⟨rfl, rfl⟩
      | some q => simp only; split <;> exact ⟨rfl, rfl⟩

/-- The valid checkpoint indices requested by a history, in order. -/
def requested (env : Env N R) (ops : List (Op N R D)) : List ℕ :=
  (ops.filterMap needs).filter (· < env.ckpts.length)

/-- **C36** (loads). For every history, the checkpoints actually loaded are the requested valid indices with consecutive repetitions
removed: no reload when the index is unchanged, always a load when it changes. -/
theorem C36_loads {env : Env N R} (d0 : D) (cells : N → List R) (ops : List (Op N R D)) :
    (run env (init d0 cells) ops).loads = (requested env ops).destutter (· ≠ ·) := by
  have key : ∀ (ops : List (Op N R D)) (s : St N R D) (pre : List ℕ) (a : ℕ), s.cur = some a → s.loads = pre ++ [a] →
      (run env s ops).loads = pre ++ (requested env ops).destutter' (· ≠ ·) a := by
    intro ops
    induction ops with
    | nil => intro s pre a _ hl; simpa [run, requested] using hl
    | cons op ops ih =>
      intro s pre a hc hl
      obtain ⟨h1, h2⟩ := step_log (env := env) s op
      change (run env (step env s op).1 ops).loads = _
      cases hn : needs op with
      | none =>
        rw [hn] at h1 h2
        rw [ih _ pre a (by rw [h1]; exact hc) (by rw [h2]; exact hl)]
        simp [requested, hn]
      | some c =>
        rw [hn] at h1 h2
        simp only at h1 h2
        by_cases hv : c < env.ckpts.length
        · rw [if_pos hv] at h1
          by_cases hca : a = c
          · subst hca
            rw [if_neg (by simp [hc])] at h2
            rw [ih _ pre a h1 (by rw [h2]; exact hl)]
            simp [requested, hn, hv]
          · rw [if_pos ⟨hv, by rw [hc]; simpa using hca⟩] at h2
            rw [ih _ (pre ++ [a]) c h1 (by rw [h2, hl])]
            simp [requested, hn, hv, hca]
        · rw [if_neg hv] at h1
          rw [if_neg (by tauto)] at h2
          rw [ih _ pre a (by rw [h1]; exact hc) (by rw [h2]; exact hl)]
          simp [requested, hn, hv]
  have key0 : ∀ (ops : List (Op N R D)) (s : St N R D), s.cur = none → s.loads = [] →
      (run env s ops).loads = (requested env ops).destutter (· ≠ ·) := by
    intro ops
    induction ops with
    | nil => intro s _ hl; simpa [run, requested] using hl
    | cons op ops ih =>
      intro s hc hl
      obtain ⟨h1, h2⟩ := step_log (env := env) s op
      change (run env (step env s op).1 ops).loads = _
      cases hn : needs op with
      | none =>
        rw [hn] at h1 h2
        rw [ih _ (by rw [h1]; exact hc) (by rw [h2]; exact hl)]
        simp [requested, hn]
      | some c =>
        rw [hn] at h1 h2
        simp only at h1 h2
        by_cases hv : c < env.ckpts.length
        · rw [if_pos hv] at h1
          rw [if_pos ⟨hv, by simp [hc]⟩] at h2
          rw [key ops _ [] c h1 (by rw [h2, hl])]
          simp [requested, hn, hv, List.destutter]
        · rw [if_neg hv] at h1
          rw [if_neg (by tauto)] at h2
          rw [ih _ (by rw [h1]; exact hc) (by rw [h2]; exact hl)]
          simp [requested, hn, hv]
  exact key0 ops _ rfl rfl

/-- **C36** (reload). After any history whatsoever, a request for a checkpoint that is not the loaded one returns exactly the parameters of
that checkpoint. -/
theorem C36_reload_exact {env : Env N R} (hne : env.names ≠ []) (d0 : D) (cells : N → List R) (ops : List (Op N R D)) (c : ℕ)
    (hc : (run env (init d0 cells) ops).cur ≠ some c) (ck : N → List R) (hck : env.ckpts[c]? = some ck) :
    (step env (run env (init d0 cells) ops) (.getParam c none)).2 = .ok (.params (env.names.map ck).flatten) := by
  generalize run env (init d0 cells) ops = s at *
  have hl : load env s (some c) =
      (⟨ck, s.heap ++ [env.names.map fun n => (n, Entry.ref)], some c, s.heap.length, s.memo, s.loads ++ [c], s.handles⟩, .ok ()) := by
    unfold load; rw [if_pos (Or.inr hc)]; simp only [hck]
  have hsel : ∀ d : Dict N R, select d none = d := fun _ => rfl
  simp only [step, getParam, hl]
  have hg : (s.heap ++ [env.names.map fun n => (n, (Entry.ref : Entry R))]).getD s.heap.length [] =
      env.names.map fun n => (n, (Entry.ref : Entry R)) := by
    rw [List.getD_append_right _ _ _ _ le_rfl]; simp
  rw [hsel, hg, if_neg (by simpa using hne)]
  simp [dflat, Entry.read, Function.comp_def]

/-- The model holds the loaded checkpoint untouched: its tensors are those of the checkpoint and the current dictionary refers to them. -/
def Clean (env : Env N R) (s : St N R D) : Prop :=
  ∀ c, s.cur = some c → env.ckpts[c]? = some s.cells ∧ s.heap.getD s.dict [] = env.names.map fun n => (n, Entry.ref)

/-- A request that is not a call of a layer-restricted function leaves the parameters as they are, or loads a checkpoint. -/
lemma quiet_step {env : Env N R} (s : St N R D) (op : Op N R D)
    (hq : ∀ h x, op = .eval h x → ∀ f, s.handles[h]? = some f → f.part = none) :
    ((step env s op).1.cur = s.cur ∧ (step env s op).1.cells = s.cells ∧ (step env s op).1.heap = s.heap ∧ (step env s op).1.dict = s.dict) ∨
      Clean env (step env s op).1 := by
  have hload : ∀ c, (load env s c).1 = s ∨ Clean env (load env s c).1 := by
    intro c
    unfold load
    split_ifs
    · cases c with
      | none => exact Or.inl rfl
      | some i =>
        simp only
        cases hi : env.ckpts[i]? with
        | none => exact Or.inl rfl
        | some ck =>
          refine Or.inr fun j hj => ?_
          injection hj with hj
          subst hj
          refine ⟨hi, ?_⟩
          show (s.heap ++ [_]).getD s.heap.length [] = _
          rw [List.getD_append_right _ _ _ _ le_rfl]; simp
    · exact Or.inl rfl
  have hmem : ∀ (s : St N R D) t k f, (memoize s t k f).1.cur = s.cur ∧ (memoize s t k f).1.cells = s.cells ∧
      (memoize s t k f).1.heap = s.heap ∧ (memoize s t k f).1.dict = s.dict := by
    intro s t k f; unfold memoize; split_ifs <;> exact ⟨rfl, rfl, rfl, rfl⟩
  have lift : ∀ (u v : St N R D), (u = s ∨ Clean env u) → (v.cur = u.cur ∧ v.cells = u.cells ∧ v.heap = u.heap ∧ v.dict = u.dict) →
      (v.cur = s.cur ∧ v.cells = s.cells ∧ v.heap = s.heap ∧ v.dict = s.dict) ∨ Clean env v := by
    rintro u v (rfl | hu) hv
    · exact Or.inl hv
    · refine Or.inr fun c hc => ?_
      rw [hv.2.1, hv.2.2.1, hv.2.2.2]
      exact hu c (by rw [← hv.1]; exact hc)
  cases op with
  | getParam c L =>
    have hl := hload (some c)
    simp only [step, getParam]
    split
    · rename_i e he; rw [he] at hl; exact lift _ _ hl ⟨rfl, rfl, rfl, rfl⟩
    · rename_i he; rw [he] at hl; split_ifs <;> exact lift _ _ hl ⟨rfl, rfl, rfl, rfl⟩
  | getFunc t L c =>
    cases L with
    | none => exact Or.inl ⟨rfl, rfl, rfl, rfl⟩
    | some ls =>
      have hl := hload c
      simp only [step, getFunc]
      split
      · rename_i e he; rw [he] at hl; exact lift _ _ hl ⟨rfl, rfl, rfl, rfl⟩
      · rename_i he; rw [he] at hl; exact lift _ _ hl ⟨rfl, rfl, rfl, rfl⟩
  | getGrad t d L c =>
    cases L with
    | none => exact Or.inl (hmem _ _ _ _)
    | some ls =>
      have hl := hload c
      simp only [step, getGrad]
      split
      · rename_i e he; rw [he] at hl; exact lift _ _ hl ⟨rfl, rfl, rfl, rfl⟩
      · rename_i he; rw [he] at hl; exact lift _ _ hl (hmem _ _ _ _)
  | eval h x =>
    refine Or.inl ?_
    simp only [step]
    cases hf : s.handles[h]? with
    | none => exact ⟨rfl, rfl, rfl, rfl⟩
    | some f =>
      have := hq h x rfl f hf
      simp only [evalC, this, and_self]

/-- After such requests, either the checkpoint loaded before is still loaded, or the loaded one is untouched. -/
lemma quiet_run {env : Env N R} (ops : List (Op N R D)) : ∀ s : St N R D, Quiet env s ops →
    (run env s ops).cur = s.cur ∨ Clean env (run env s ops) := by
  have clean : ∀ (ops : List (Op N R D)) (s : St N R D), Quiet env s ops → Clean env s → Clean env (run env s ops) := by
    intro ops
    induction ops with
    | nil => intro s _ h; exact h
    | cons op ops ih =>
      intro s hq h
      refine ih _ hq.2 ?_
      rcases quiet_step s op hq.1 with ⟨h1, h2, h3, h4⟩ | h'
      · intro c hc
        rw [h2, h3, h4]
        exact h c (by rw [← h1]; exact hc)
      · exact h'
  induction ops with
  | nil => intro s _; exact Or.inl rfl
  | cons op ops ih =>
    intro s hq
    rcases quiet_step s op hq.1 with ⟨h1, -⟩ | h'
    · rcases ih _ hq.2 with h | h
      · exact Or.inl (by rw [← h1]; exact h)
      · exact Or.inr h
    · exact Or.inr (clean ops _ hq.2 h')

/-- **C36** (no calls since the load). Take any history, layer-restricted calls included, after which `c` is not the loaded checkpoint (the empty one, for
example), and any further requests among which no layer-restricted function is called: `get_param(c)` then returns exactly the parameters of checkpoint
`c`. -/
theorem C36_param_of_checkpoint {env : Env N R} {numel : N → ℕ} (henv : env.Ok numel) (d0 : D) (cells : N → List R)
    (before since : List (Op N R D)) (c : ℕ) (hc : (run env (init d0 cells) before).cur ≠ some c)
    (hq : Quiet env (run env (init d0 cells) before) since) (ck : N → List R) (hck : env.ckpts[c]? = some ck) :
    (step env (run env (init d0 cells) (before ++ since)) (.getParam c none)).2 = .ok (.params (env.names.map ck).flatten) := by
  by_cases hcur : (run env (init d0 cells) (before ++ since)).cur = some c
  · have hr : run env (init d0 cells) (before ++ since) = run env (run env (init d0 cells) before) since := by simp [run]
    have hcl : Clean env (run env (init d0 cells) (before ++ since)) := by
      rw [hr] at hcur ⊢
      rcases quiet_run since _ hq with h | h
      · exact absurd (h ▸ hcur) hc
      · exact h
    generalize run env (init d0 cells) (before ++ since) = s at *
    obtain ⟨hcell, hd⟩ := hcl c hcur
    rw [hck] at hcell
    injection hcell with hcell
    rw [getParam_cur s c hcur, hd, if_neg (by simpa using henv.ne)]
    simp [dflat, Entry.read, Function.comp_def, hcell]
  · exact C36_reload_exact henv.ne d0 cells (before ++ since) c hcur ck hck

/-- An out-of-range index raises `IndexError` and changes nothing. -/
theorem C36_out_of_range {env : Env N R} (s : St N R D) (c : ℕ) (hc : env.ckpts.length ≤ c) (hcur : s.cur ≠ some c)
    (L : Option (List N)) : step env s (.getParam c L) = (s, .error .indexError) := by
  have hl : load env s (some c) = (s, .error .indexError) := by
    unfold load; rw [if_pos (Or.inr hcur)]; simp only [List.getElem?_eq_none hc]
  simp only [step, getParam, hl]

/-! ### Examples and the stale-function witness -/

/-- Two one-element layers `false`, `true`; two checkpoints. -/
def exEnv : Env Bool ℤ := ⟨[false, true], [fun n => if n then [2] else [1], fun n => if n then [20] else [10]]⟩

example : exEnv.Ok (fun _ => 1) := ⟨by decide, by decide, by decide⟩

/-- **C35** (several layer lists). With requests about two different layer lists the memo can serve a function whose captured
dictionary is contaminated: a loss-gradient function for layer `false` at checkpoint 0 is requested; a loss function for layer `true` at checkpoint 0 is called at
7; checkpoint 1 is read; then the first request is repeated.  The served function evaluates with 7 in layer `true` although checkpoint 0
(value 2) was requested and freshly loaded. -/
theorem C35_stale_other_layers :
    let ops : List (Op Bool ℤ Unit) := [.getGrad false () (some [false]) (some 0), .getFunc false (some [true]) (some 0), .eval 1 [7],
      .getParam 1 none, .getGrad false () (some [false]) (some 0)]
    (step exEnv (run exEnv (init () (fun _ => [0])) ops) (.eval 2 [5])).2 = .ok (.called false (some ()) [5, 7]) ∧
    (step exEnv (run exEnv (init () (fun _ => [0])) ops) (.getParam 0 none)).2 = .ok (.params [1, 2]) := by
  constructor <;> rfl

/-- A function requested for checkpoint 0 and called after checkpoint 1 was read sees checkpoint 1's other layers. -/
example :
    (step exEnv (run exEnv (init () (fun _ => [0])) [.getFunc false (some [false]) (some 0), .getParam 1 none]) (.eval 0 [5])).2 =
      .ok (.called (D := Unit) false none [5, 20]) := rfl

/-- Reading checkpoint 1 in between undoes the contamination of checkpoint 0. -/
example : (step exEnv (run exEnv (init () (fun _ => [0])) ([.getFunc false (some [false]) (some 0), .eval 0 [5], .getParam 1 none] ++
    [.getParam 0 none, .getFunc false (some [true]) (some 0)])) (.getParam 0 none)).2 = .ok (.params (D := Unit) [1, 2]) :=
  C36_param_of_checkpoint (env := exEnv) (numel := fun _ => 1) ⟨by decide, by decide, by decide⟩ () (fun _ => [0]) _ _ 0 (by decide) (by simp [Quiet]) _ rfl

/-- Contamination: after one call at 5 the parameters of checkpoint 0 are reported as `[5, 2]`. -/
example :
    (step exEnv (run exEnv (init () (fun _ => [0])) [.getFunc false (some [false]) (some 0), .eval 0 [5]]) (.getParam 0 none)).2 =
      .ok (.params (D := Unit) [5, 2]) := rfl

example : ∀ op ∈ ([.getFunc false (some [false]) (some 0), .eval 0 [5]] : List (Op Bool ℤ Unit)), Good (fun _ => 1) [false] op := by
  intro op hop
  simp only [List.mem_cons, List.not_mem_nil, or_false] at hop
  rcases hop with rfl | rfl
  · exact Or.inr rfl
  · simp [Good]

example : (run exEnv (init () (fun _ => [0])) ([.getParam 0 none, .getParam 0 none, .getParam 1 none, .getParam 9 none, .getParam 1 none,
    .getParam 0 none] : List (Op Bool ℤ Unit))).loads = [0, 1, 0] := by decide

end Verif.Task
