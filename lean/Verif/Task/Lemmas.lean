import Mathlib.Tactic.NormNum
import Mathlib.Data.List.Nodup
import Mathlib.Data.List.GetD
import Verif.Task.Spec

/-! # Helper lemmas for the task state machine -/

namespace Verif.Task

variable {N R D : Type} [DecidableEq N]

lemma dget_of_mem (d : Dict N R) (hnd : (d.map (·.1)).Nodup) {n : N} {e : Entry R} (h : (n, e) ∈ d) : dget d n = some e := by
  induction d with
  | nil => simp at h
  | cons p d ih =>
    simp only [List.map_cons, List.nodup_cons] at hnd
    unfold dget
    by_cases hp : p.1 = n
    · rw [List.find?_cons_of_pos (by simpa using hp)]
      rcases List.mem_cons.1 h with rfl | h
      · rfl
      · exact absurd (List.mem_map.2 ⟨(n, e), h, hp.symm⟩) hnd.1
    · rw [List.find?_cons_of_neg (by simpa using hp)]
      rcases List.mem_cons.1 h with rfl | h
      · exact absurd rfl hp
      · exact ih hnd.2 h

lemma writeLayers_eq (cells : N → List R) (numel : N → ℕ) (x : List R) (ls : List N) : ∀ (i : ℕ) (d : Dict N R),
    (d.map (·.1)).Nodup → ls.Nodup → (∀ l ∈ ls, l ∈ d.map (·.1)) →
    (∀ p ∈ d, p.1 ∈ ls → (p.2.read cells p.1).length = numel p.1) →
    writeLayers cells x ls i d =
      (d.map (fun p => (p.1, ((pick numel ls (x.drop i) p.1).map Entry.val).getD p.2)), .ok ()) := by
  induction ls with
  | nil => intro i d _ _ _ _; simp [writeLayers, pick]
  | cons l ls ih =>
    intro i d hnd hls hmem hsz
    rw [List.nodup_cons] at hls
    obtain ⟨⟨n, e⟩, hp, hn⟩ := List.mem_map.1 (hmem l (by simp))
    simp only at hn; subst hn
    have hlen : (e.read cells n).length = numel n := hsz (n, e) hp (by simp)
    have hkeys : (dset d n (Entry.val ((x.drop i).take (numel n)))).map (·.1) = d.map (·.1) := by
      unfold dset
      rw [List.map_map]
      apply List.map_congr_left
      intro p _
      simp only [Function.comp]
      split_ifs <;> rfl
    unfold writeLayers
    rw [dget_of_mem d hnd hp]
    simp only [hlen]
    rw [ih]
    · refine Prod.ext ?_ rfl
      simp only [dset, List.map_map]
      apply List.map_congr_left
      intro p hpm
      simp only [Function.comp, pick]
      by_cases h : p.1 = n
      · simp only [h, if_true]
        have : pick numel ls (List.drop (i + numel n) x) n = none := by
          have : ∀ (ls : List N) (x : List R), n ∉ ls → pick numel ls x n = none := by
            intro ls
            induction ls with
            | nil => intro x _; rfl
            | cons a ls ih2 =>
              intro x h
              simp only [List.mem_cons, not_or] at h
              unfold pick
              rw [if_neg h.1, ih2 _ h.2]
          exact this _ _ hls.1
        rw [this]; rfl
      · simp only [h, if_false, List.drop_drop]
    · rw [hkeys]; exact hnd
    · exact hls.2
    · intro l' hl'; rw [hkeys]; exact hmem l' (by simp [hl'])
    · intro p hpm hpl
      unfold dset at hpm
      obtain ⟨q, hq, rfl⟩ := List.mem_map.1 hpm
      by_cases h : q.1 = n
      · rw [if_pos h] at hpl
        simp only [h] at hpl
        exact absurd hpl hls.1
      · rw [if_neg h] at hpl ⊢
        exact hsz q hq (by simp [hpl])

lemma pick_some_iff (numel : N → ℕ) (L : List N) : ∀ (x : List R) (n : N), (pick numel L x n).isSome ↔ n ∈ L := by
  induction L with
  | nil => intro x n; simp [pick]
  | cons l ls ih =>
    intro x n
    unfold pick
    by_cases h : n = l
    · simp [h]
    · simp [h, ih]

lemma pick_length (numel : N → ℕ) (L : List N) : ∀ (x : List R) (n : N) (v : List R), (L.map numel).sum ≤ x.length →
    pick numel L x n = some v → v.length = numel n := by
  induction L with
  | nil => intro x n v _ h; simp [pick] at h
  | cons l ls ih =>
    intro x n v hx h
    simp only [List.map_cons, List.sum_cons] at hx
    unfold pick at h
    by_cases hn : n = l
    · rw [if_pos hn] at h
      injection h with h
      rw [← h, hn, List.length_take]; omega
    · rw [if_neg hn] at h
      exact ih _ n v (by rw [List.length_drop]; omega) h

/-- What holds after a history about the layer list `L` only. -/
structure Inv (env : Env N R) (numel : N → ℕ) (L : List N) (s : St N R D) : Prop where
  keys : ∀ d ∈ s.heap, d.map (·.1) = env.names
  refs : ∀ d ∈ s.heap, ∀ p ∈ d, p.1 ∉ L → p.2 = Entry.ref
  size : ∀ d ∈ s.heap, ∀ p ∈ d, ∀ v, p.2 = Entry.val v → v.length = numel p.1
  none_iff : s.cur = none → s.heap = []
  cur : ∀ c, s.cur = some c → env.ckpts[c]? = some s.cells ∧ s.dict < s.heap.length
  handles : ∀ f ∈ s.handles, ∀ ls i, f.part = some (ls, i) → ls = L ∧ i < s.heap.length
  memo : ∀ t ls i, (s.memo t).2.part = some (ls, i) → ls = L ∧ i < s.heap.length

omit [DecidableEq N] in
lemma inv_init (env : Env N R) (numel : N → ℕ) (L : List N) (d0 : D) (cells : N → List R) :
    Inv env numel L (init d0 cells) := by
  constructor <;> simp [init]

omit [DecidableEq N] in
lemma inv_load {env : Env N R} {numel : N → ℕ} {L : List N} {s : St N R D} (h : Inv env numel L s) (c : Option ℕ) :
    Inv env numel L (load env s c).1 ∧ ((load env s c).2 = .ok () → (load env s c).1.cur = c ∧ c ≠ none) ∧
      (load env s c).1.handles = s.handles ∧ (load env s c).1.memo = s.memo := by
  unfold load
  by_cases hc : s.cur = none ∨ s.cur ≠ c
  · rw [if_pos hc]
    cases c with
    | none => exact ⟨h, by simp, rfl, rfl⟩
    | some i =>
      simp only
      cases hck : env.ckpts[i]? with
      | none => exact ⟨h, by simp, rfl, rfl⟩
      | some ck =>
        simp only
        refine ⟨?_, by simp, trivial, trivial⟩
        constructor
        · intro d hd
          rcases List.mem_append.1 hd with hd | hd
          · exact h.keys d hd
          · rw [List.mem_singleton] at hd; subst hd; simp [Function.comp_def]
        · intro d hd p hp hn
          rcases List.mem_append.1 hd with hd | hd
          · exact h.refs d hd p hp hn
          · rw [List.mem_singleton] at hd; subst hd
            obtain ⟨n, -, rfl⟩ := List.mem_map.1 hp
            rfl
        · intro d hd p hp v hv
          rcases List.mem_append.1 hd with hd | hd
          · exact h.size d hd p hp v hv
          · rw [List.mem_singleton] at hd; subst hd
            obtain ⟨n, -, rfl⟩ := List.mem_map.1 hp
            cases hv
        · intro h'; cases h'
        · intro c' hc'
          injection hc' with hc'
          subst hc'
          exact ⟨hck, by simp⟩
        · intro f hf ls j hj
          obtain ⟨a, b⟩ := h.handles f hf ls j hj
          exact ⟨a, by simp; omega⟩
        · intro t ls j hj
          obtain ⟨a, b⟩ := h.memo t ls j hj
          exact ⟨a, by simp; omega⟩
  · rw [if_neg hc]
    push Not at hc
    exact ⟨h, fun _ => ⟨hc.2, by rw [← hc.2]; exact hc.1⟩, rfl, rfl⟩

omit [DecidableEq N] in
lemma inv_give {env : Env N R} {numel : N → ℕ} {L : List N} {s : St N R D} (h : Inv env numel L s) (f : Closure N D)
    (hf : ∀ ls i, f.part = some (ls, i) → ls = L ∧ i < s.heap.length) : Inv env numel L (give s f).1 := by
  constructor
  · exact h.keys
  · exact h.refs
  · exact h.size
  · exact h.none_iff
  · exact h.cur
  · intro g hg
    rcases List.mem_append.1 hg with hg | hg
    · exact h.handles g hg
    · rw [List.mem_singleton] at hg; subst hg; exact hf
  · exact h.memo

lemma inv_memoize [DecidableEq D] {env : Env N R} {numel : N → ℕ} {L : List N} {s : St N R D} (h : Inv env numel L s) (t : Bool)
    (k : Key N D) (f : Closure N D)
    (hf : ∀ ls i, f.part = some (ls, i) → ls = L ∧ i < s.heap.length) : Inv env numel L (memoize s t k f).1 := by
  unfold memoize
  split_ifs with hk
  · refine inv_give (s := { s with memo := fun t' => if t' = t then (k, f) else s.memo t' })
      ⟨h.keys, h.refs, h.size, h.none_iff, h.cur, h.handles, ?_⟩ f hf
    intro t' ls i hi
    simp only at hi
    split_ifs at hi with ht
    · exact hf ls i hi
    · exact h.memo t' ls i hi
  · exact inv_give h _ (h.memo t)

/-- The effect of calling a function in a state satisfying the invariant. -/
lemma evalC_eq {env : Env N R} {numel : N → ℕ} (henv : env.Ok numel) {L : List N} (hL : L.Nodup) (hsub : ∀ l ∈ L, l ∈ env.names)
    {s : St N R D} (h : Inv env numel L s) (f : Closure N D) (i : ℕ) (hf : f.part = some (L, i)) (hi : i < s.heap.length) (x : List R) :
    evalC s f x = ({ s with heap := s.heap.set i ((s.heap.getD i []).map (fun p =>
      (p.1, ((pick numel L x p.1).map Entry.val).getD p.2))) }, .ok (.called f.target f.dims (fullVec numel env.names L x s.cells))) := by
  have hd : s.heap.getD i [] ∈ s.heap := by
    rw [List.getD_eq_getElem?_getD, List.getElem?_eq_getElem hi]; exact List.getElem_mem hi
  obtain ⟨c, hc⟩ : ∃ c, s.cur = some c := by
    cases hcur : s.cur with
    | none => have := h.none_iff hcur; rw [this] at hi; simp at hi
    | some c => exact ⟨c, rfl⟩
  obtain ⟨hck, -⟩ := h.cur c hc
  have hcells : ∀ n ∈ env.names, (s.cells n).length = numel n := henv.size _ (List.mem_of_getElem? hck)
  have hw := writeLayers_eq s.cells numel x L 0 (s.heap.getD i []) (by rw [h.keys _ hd]; exact henv.nodup) hL
    (by rw [h.keys _ hd]; exact hsub) (by
      intro p hp hpl
      have hn : p.1 ∈ env.names := hsub _ hpl
      cases he : p.2 with
      | ref => exact hcells _ hn
      | val v => exact h.size _ hd p hp v he)
  unfold evalC
  rw [hf]
  simp only
  rw [hw]
  simp only [List.drop_zero]
  congr 2
  · congr 1
    unfold dflat fullVec
    rw [← h.keys _ hd, List.map_map, List.map_map]
    congr 1
    apply List.map_congr_left
    intro p hp
    simp only [Function.comp]
    cases hpick : pick numel L x p.1 with
    | some v => rfl
    | none =>
      have : p.1 ∉ L := by
        intro hmem
        rw [← pick_some_iff numel L x p.1, hpick] at hmem
        cases hmem
      rw [Option.map_none, Option.getD_none, Option.getD_none, h.refs _ hd p hp this]
      rfl

lemma inv_eval {env : Env N R} {numel : N → ℕ} (henv : env.Ok numel) {L : List N} (hL : L.Nodup) (hsub : ∀ l ∈ L, l ∈ env.names)
    {s : St N R D} (h : Inv env numel L s) (f : Closure N D) (hf : f ∈ s.handles) (x : List R) (hx : (L.map numel).sum ≤ x.length) :
    Inv env numel L (evalC s f x).1 := by
  cases hp : f.part with
  | none => unfold evalC; rw [hp]; exact h
  | some q =>
    obtain ⟨ls, i⟩ := q
    obtain ⟨rfl, hi⟩ := h.handles f hf ls i hp
    rw [evalC_eq henv hL hsub h f i hp hi x]
    have hd : s.heap.getD i [] ∈ s.heap := by
      rw [List.getD_eq_getElem?_getD, List.getElem?_eq_getElem hi]; exact List.getElem_mem hi
    have hmem : ∀ d ∈ s.heap.set i ((s.heap.getD i []).map (fun p => (p.1, ((pick numel ls x p.1).map Entry.val).getD p.2))),
        d ∈ s.heap ∨ d = (s.heap.getD i []).map (fun p => (p.1, ((pick numel ls x p.1).map Entry.val).getD p.2)) := by
      intro d hd
      rcases List.mem_or_eq_of_mem_set hd with h1 | h1
      · exact Or.inl h1
      · exact Or.inr h1
    constructor
    · intro d hd'
      rcases hmem d hd' with h1 | rfl
      · exact h.keys d h1
      · rw [List.map_map, ← h.keys _ hd]; rfl
    · intro d hd' p hpm hn
      rcases hmem d hd' with h1 | rfl
      · exact h.refs d h1 p hpm hn
      · obtain ⟨q, hq, rfl⟩ := List.mem_map.1 hpm
        have : pick numel ls x q.1 = none := by
          rw [← Option.not_isSome_iff_eq_none, pick_some_iff]; exact hn
        simp only [this, Option.map_none, Option.getD_none]
        exact h.refs _ hd q hq hn
    · intro d hd' p hpm v hv
      rcases hmem d hd' with h1 | rfl
      · exact h.size d h1 p hpm v hv
      · obtain ⟨q, hq, rfl⟩ := List.mem_map.1 hpm
        simp only at hv ⊢
        cases hpk : pick numel ls x q.1 with
        | none => rw [hpk] at hv; exact h.size _ hd q hq v hv
        | some w =>
          rw [hpk] at hv
          simp only [Option.map_some, Option.getD_some, Entry.val.injEq] at hv
          rw [← hv]
          exact pick_length numel ls x q.1 w hx hpk
    · intro hc; have := h.none_iff hc; rw [this] at hi; simp at hi
    · intro c hc
      obtain ⟨a, b⟩ := h.cur c hc
      exact ⟨a, by simpa using b⟩
    · intro g hg ls' j hj
      obtain ⟨a, b⟩ := h.handles g hg ls' j hj
      exact ⟨a, by simpa using b⟩
    · intro t ls' j hj
      obtain ⟨a, b⟩ := h.memo t ls' j hj
      exact ⟨a, by simpa using b⟩

lemma inv_step [DecidableEq D] {env : Env N R} {numel : N → ℕ} (henv : env.Ok numel) {L : List N} (hL : L.Nodup)
    (hsub : ∀ l ∈ L, l ∈ env.names) {s : St N R D} (h : Inv env numel L s) (op : Op N R D) (hg : Good numel L op) :
    Inv env numel L (step env s op).1 := by
  cases op with
  | getParam c L' =>
    have h1 := (inv_load h (some c)).1
    unfold step getParam
    simp only
    split
    · rename_i e he; rw [he] at h1; exact h1
    · rename_i he
      rw [he] at h1
      split_ifs <;> exact h1
  | getFunc t L' c =>
    rcases hg with rfl | rfl
    · exact inv_give h _ (by simp)
    · obtain ⟨h1, h2, -⟩ := inv_load h c
      simp only [step, getFunc]
      split
      · rename_i e he; rw [he] at h1; exact h1
      · rename_i s' he
        rw [he] at h1 h2
        obtain ⟨hc, hn⟩ := h2 rfl
        simp only at hc h1
        cases c with
        | none => exact absurd rfl hn
        | some c =>
          refine inv_give h1 _ ?_
          intro ls i hi
          simp only [Option.some.injEq, Prod.mk.injEq] at hi
          exact ⟨hi.1.symm, hi.2 ▸ (h1.cur c hc).2⟩
  | getGrad t d L' c =>
    rcases hg with rfl | rfl
    · exact inv_memoize h t _ _ (by simp)
    · obtain ⟨h1, h2, -⟩ := inv_load h c
      simp only [step, getGrad]
      split
      · rename_i e he; rw [he] at h1; exact h1
      · rename_i s' he
        rw [he] at h1 h2
        obtain ⟨hc, hn⟩ := h2 rfl
        simp only at hc h1
        cases c with
        | none => exact absurd rfl hn
        | some c =>
          refine inv_memoize h1 t _ _ ?_
          intro ls i hi
          simp only [Option.some.injEq, Prod.mk.injEq] at hi
          exact ⟨hi.1.symm, hi.2 ▸ (h1.cur c hc).2⟩
  | eval k x =>
    unfold step
    simp only
    cases hk : s.handles[k]? with
    | none => exact h
    | some f => exact inv_eval henv hL hsub h f (List.mem_of_getElem? hk) x hg

lemma inv_run [DecidableEq D] {env : Env N R} {numel : N → ℕ} (henv : env.Ok numel) {L : List N} (hL : L.Nodup)
    (hsub : ∀ l ∈ L, l ∈ env.names) (ops : List (Op N R D)) : ∀ {s : St N R D}, Inv env numel L s → (∀ op ∈ ops, Good numel L op) →
    Inv env numel L (run env s ops) := by
  induction ops with
  | nil => intro s h _; exact h
  | cons op ops ih =>
    intro s h hg
    exact ih (inv_step henv hL hsub h op (hg op (by simp))) (fun o ho => hg o (by simp [ho]))

end Verif.Task
