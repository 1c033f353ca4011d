import Verif.RPS.AliasModel
import Verif.RPS.SearchProps
import Verif.RPS.Props

/-!
# C225: when RPS stores the model's own weights
-/

namespace Verif.RPS

variable {V X : Type} {p c : ℕ}

theorem visit_ref (next : V → V) (same : Bool) (init : V) (k : ℕ) :
    visit (fun t : Ref V => (false, next t.2)) (same, init) k = (same && decide (k = 0), visit next init k) := by
  induction k with
  | zero => simp [visit]
  | succ k ih => rw [visit_succ, ih, visit_succ]; simp

theorem firstMin_ref (m : V → Option ℝ) (next : V → V) (same : Bool) (init : V) (E j : ℕ) (g : ℝ) :
    FirstMin (fun t : Ref V => m t.2) (fun t : Ref V => (false, next t.2)) (same, init) E j g ↔ FirstMin m next init E j g := by
  simp only [FirstMin, visit_ref]

/-- **What is stored**: the first iterate with the smallest mean absolute gradient among those visited, as in C51; it is the model's own storage
exactly if that is the initial one and no copy to another device was needed. -/
theorem C225_stored (m : V → Option ℝ) (next : V → V) (n : ℕ) (hn : 0 < n) (same : Bool) (init : V) (g0 : ℝ) (h0 : m init = some g0)
    (hg0 : g0 < 10000) (hpos : 0 ≤ g0) :
    ∃ E < n, ∃ j g, finetuneRef m next n same init = .ok (same && decide (j = 0), visit next init j) ∧ FirstMin m next init E j g ∧
      (E = n - 1 ∨ g < g0 / 200) ∧ ∀ i < E, ∀ b, m (visit next init i) = some b → ¬ b < g0 / 200 := by
  obtain ⟨E, hE, j, g, h1, h2, h3, h4⟩ := C51_best (fun t : Ref V => m t.2) (fun t : Ref V => (false, next t.2)) n hn (same, init) g0 h0 hg0 hpos
  refine ⟨E, hE, j, g, ?_, (firstMin_ref m next same init E j g).mp h2, h3, fun i hi b hb => h4 i hi b (by rw [visit_ref]; exact hb)⟩
  rw [finetuneRef, h1, visit_ref]

/-- The loop on tensors computes what the loop on values computes. -/
theorem ftLoop_ref (m : V → Option ℝ) (next : V → V) (n : ℕ) : ∀ (e : ℕ) (s : FtState (Ref V)),
    (ftLoop (fun t : Ref V => m t.2) (fun t : Ref V => (false, next t.2)) n e s).map Prod.snd =
      ftLoop m next n e ⟨s.theta.2, s.minLoss, s.initGrad, s.best.map Prod.snd⟩ := by
  induction n with
  | zero =>
    intro e s
    simp only [ftLoop]
    cases s.best <;> rfl
  | succ n ih =>
    intro e s
    simp only [ftLoop]
    cases hm : m s.theta.2 with
    | none => exact ih _ _
    | some g =>
      simp only
      by_cases hlt : g < s.minLoss
      · simp only [if_pos hlt]
        cases he : (if e = 0 then some g else s.initGrad) with
        | none => rfl
        | some ig =>
          simp only
          by_cases hs : g < ig / 200
          · simp only [if_pos hs]; rfl
          · simp only [if_neg hs]
            rw [ih]
            rfl
      · simp only [if_neg hlt]
        exact ih _ _

/-- The mean absolute gradient of the attributor's objective. -/
noncomputable def meanGrad (A : Attributor X p c) (xs : List X) (θ : Theta p c) : Option ℝ :=
  meanAbs (objGrad A.loss A.lam (fun i : Fin xs.length => A.feat xs[i]) (fun i => activate (A.out xs[i])) θ)

/-- Its line search step. -/
noncomputable def searchStep (A : Attributor X p c) (xs : List X) (θ : Theta p c) : Theta p c :=
  let F := fun i : Fin xs.length => A.feat xs[i]
  let T := fun i : Fin xs.length => activate (A.out xs[i])
  ((lineSearch (objective A.loss A.lam F T) (objGrad A.loss A.lam F T θ) θ (objective A.loss A.lam F T θ) 38).map Prod.snd).getD θ

theorem tuneRef_eq (A : Attributor X p c) (same : Bool) (xs : List X) :
    A.tuneRef same xs = finetuneRef (meanGrad A xs) (searchStep A xs) A.epochs same A.weight := rfl

theorem tune_eq (A : Attributor X p c) (xs : List X) : A.tune xs = finetune (meanGrad A xs) (searchStep A xs) A.epochs A.weight := rfl

/-- **The values stored are those of fine-tuning**, with the same exceptions. -/
theorem C225_value (A : Attributor X p c) (same : Bool) (xs : List X) : (A.tuneRef same xs).map Prod.snd = A.tune xs := by
  rw [tuneRef_eq, tune_eq]
  exact ftLoop_ref (meanGrad A xs) (searchStep A xs) A.epochs 0 ⟨(same, A.weight), 10000, none, none⟩

/-- With one epoch it is the model's own storage. -/
theorem C225_one_epoch (m : V → Option ℝ) (next : V → V) (same : Bool) (init : V) (t : Ref V)
    (h : finetuneRef m next 1 same init = .ok t) : t = (same, init) := by
  simp only [finetuneRef, finetune, ftLoop] at h
  cases hm : m init with
  | none => rw [hm] at h; simp at h
  | some g =>
    rw [hm] at h
    simp only at h
    by_cases hlt : g < 10000
    · simp only [if_pos hlt, if_true] at h
      by_cases hs : g < g / 200
      · simp only [if_pos hs] at h; exact (Except.ok.inj h).symm
      · simp only [if_neg hs] at h; exact (Except.ok.inj h).symm
    · simp [if_neg hlt] at h

/-- If the initial weights are stationary for the fine-tuning objective, too, whatever the number of epochs. -/
theorem C225_stationary (m : V → Option ℝ) (hm : ∀ v g, m v = some g → 0 ≤ g) (next : V → V) (n : ℕ) (hn : 0 < n) (same : Bool) (init : V)
    (h0 : m init = some 0) : finetuneRef m next n same init = .ok (same, init) := by
  obtain ⟨E, -, j, g, h1, ⟨h2, h3, h4, h5⟩, -, -⟩ := C225_stored m next n hn same init 0 h0 (by norm_num) le_rfl
  have hg : g ≤ 0 := h4 0 (Nat.zero_le _) 0 h0
  have hg' := hm _ _ h3
  have hj : j = 0 := by
    by_contra hne
    have := h5 0 (Nat.pos_of_ne_zero hne) 0 h0
    linarith
  rw [h1, hj]
  simp [visit]

theorem ref_invariant (m : V → Option ℝ) (next : V → V) (Q : Ref V → Prop) (hnext : ∀ v, Q (false, v)) : ∀ (n e : ℕ) (s : FtState (Ref V)),
    Q s.theta → (∀ b, s.best = some b → Q b) →
    ∀ t, ftLoop (fun t : Ref V => m t.2) (fun t : Ref V => (false, next t.2)) n e s = .ok t → Q t := by
  intro n
  induction n with
  | zero =>
    intro e s _ hb t ht
    simp only [ftLoop] at ht
    cases h : s.best with
    | none => rw [h] at ht; simp at ht
    | some b => rw [h] at ht; rw [← Except.ok.inj ht]; exact hb b h
  | succ n ih =>
    intro e s hs hb t ht
    simp only [ftLoop] at ht
    cases hm : m s.theta.2 with
    | none => rw [hm] at ht; exact ih _ { s with theta := (false, next s.theta.2) } (hnext _) hb t ht
    | some g =>
      rw [hm] at ht
      simp only at ht
      by_cases hlt : g < s.minLoss
      · simp only [if_pos hlt] at ht
        cases he : (if e = 0 then some g else s.initGrad) with
        | none => rw [he] at ht; simp at ht
        | some ig =>
          rw [he] at ht
          simp only at ht
          by_cases hst : g < ig / 200
          · simp only [if_pos hst] at ht; rw [← Except.ok.inj ht]; exact hs
          · simp only [if_neg hst] at ht
            exact ih _ ⟨(false, next s.theta.2), g, some ig, some s.theta⟩ (hnext _) (by intro b hb; injection hb with hb; rw [← hb]; exact hs) t ht
      · simp only [if_neg hlt] at ht
        exact ih _ { s with theta := (false, next s.theta.2) } (hnext _) hb t ht

/-- On another device a copy is stored. -/
theorem C225_copy (m : V → Option ℝ) (next : V → V) (n : ℕ) (init : V) (t : Ref V) (h : finetuneRef m next n false init = .ok t) : t.1 = false :=
  ref_invariant m next (fun t => t.1 = false) (fun _ => rfl) n 0 ⟨(false, init), 10000, none, none⟩ rfl (by simp) t h

/-- Shared storage holds the initial weights. -/
theorem kept_initial (m : V → Option ℝ) (next : V → V) (n : ℕ) (same : Bool) (init : V) (t : Ref V) (h : finetuneRef m next n same init = .ok t)
    (ht : t.1 = true) : t.2 = init :=
  ref_invariant m next (fun t => t.1 = true → t.2 = init) (fun _ h => by simp at h) n 0 ⟨(same, init), 10000, none, none⟩ (fun _ => rfl) (by simp) t h ht

/-! ## Attributions after the model has changed -/

/-- **Attribution after `cache` and a change of the model**: with `A` the model when `cache` was called and `A'` the model, changed in place, when
`attribute` is called, the scores are computed with the weights that the layer holds now if its own storage was kept, and with the fine-tuned weights
otherwise. -/
theorem C225_attribute (A A' : Attributor X p c) (same same' : Bool) (s : RefSt p c) (full train test : List (List X)) (hf : full ≠ [])
    (htr : train ≠ []) (hte : test ≠ []) (t : Ref (Theta p c)) (ht : A.tuneRef same full.flatten = .ok t) :
    (A'.attributeRef same' (A.cacheRef same s full).1 train test).2 =
      A'.scores (if t.1 then A'.weight else t.2) train.flatten test.flatten := by
  have h1 : (layerIO full >>= A.tuneRef same) = .ok t := by
    simp only [layerIO, if_neg hf, bind, Except.bind, ht]
  have h2 : (A.cacheRef same s full).1 = ⟨true, some t⟩ := by simp only [Attributor.cacheRef, h1]
  rw [h2]
  simp only [Attributor.attributeRef, layerIO, if_neg htr, if_neg hte, if_true, Attributor.read]

/-- So if other weights were stored, a change of the final layer alone does not matter. -/
theorem C225_independent (A : Attributor X p c) (same same' : Bool) (s : RefSt p c) (full train test : List (List X)) (hf : full ≠ [])
    (htr : train ≠ []) (hte : test ≠ []) (t : Ref (Theta p c)) (ht : A.tuneRef same full.flatten = .ok t) (hne : t.1 = false) (w : Theta p c) :
    (({ A with weight := w } : Attributor X p c).attributeRef same' (A.cacheRef same s full).1 train test).2 =
      A.scores t.2 train.flatten test.flatten := by
  rw [C225_attribute A _ same same' s full train test hf htr hte t ht, hne]
  rfl

/-- If its own storage was kept, the scores are those of the new weights, which were never fine-tuned. -/
theorem C225_follows (A : Attributor X p c) (same same' : Bool) (s : RefSt p c) (full train test : List (List X)) (hf : full ≠ [])
    (htr : train ≠ []) (hte : test ≠ []) (t : Ref (Theta p c)) (ht : A.tuneRef same full.flatten = .ok t) (he : t.1 = true) (w : Theta p c) :
    (({ A with weight := w } : Attributor X p c).attributeRef same' (A.cacheRef same s full).1 train test).2 =
      A.scores w train.flatten test.flatten := by
  rw [C225_attribute A _ same same' s full train test hf htr hte t ht, he]
  rfl

/-- Without a change of the model the storage makes no difference: scores are those of the fine-tuned weights. -/
theorem C225_unchanged (A : Attributor X p c) (same : Bool) (s : RefSt p c) (full train test : List (List X)) (hf : full ≠ [])
    (htr : train ≠ []) (hte : test ≠ []) (t : Ref (Theta p c)) (ht : A.tuneRef same full.flatten = .ok t) :
    (A.attributeRef same (A.cacheRef same s full).1 train test).2 = A.scores t.2 train.flatten test.flatten := by
  rw [C225_attribute A A same same s full train test hf htr hte t ht]
  by_cases h : t.1
  · rw [if_pos h, kept_initial (meanGrad A full.flatten) (searchStep A full.flatten) A.epochs same A.weight t ht h]
  · rw [if_neg h]

/-- The state with tensors read under the model `A`. -/
def RefSt.readBy (A : Attributor X p c) (s : RefSt p c) : St p c := ⟨s.cached, s.theta.map A.read⟩

theorem tune_read (A : Attributor X p c) (same : Bool) (xs : List X) : A.tune xs = (A.tuneRef same xs).map A.read := by
  rw [← C225_value A same xs]
  cases h : A.tuneRef same xs with
  | error e => rfl
  | ok t =>
    simp only [Except.map]
    congr 1
    unfold Attributor.read
    by_cases ht : t.1
    · rw [if_pos ht, kept_initial (meanGrad A xs) (searchStep A xs) A.epochs same A.weight t h ht]
    · rw [if_neg ht]

/-- **Calls under an unchanged model**: from every state, `cache` and `attribute` have the results and the exceptions of the attributor without sharing (C51, C52), and leave the same state when
its tensors are read. -/
theorem C225_refines (A : Attributor X p c) (same : Bool) (s : RefSt p c) (full train test : List (List X)) :
    ((A.cacheRef same s full).1.readBy A, (A.cacheRef same s full).2) = A.cache (s.readBy A) full ∧
    ((A.attributeRef same s train test).1.readBy A, (A.attributeRef same s train test).2) = A.attribute' (s.readBy A) train test := by
  constructor
  · unfold Attributor.cacheRef Attributor.cache
    cases hl : layerIO full with
    | error e => rfl
    | ok xs =>
      simp only [bind, Except.bind]
      rw [tune_read A same xs]
      cases A.tuneRef same xs with
      | error e => rfl
      | ok t => rfl
  · unfold Attributor.attributeRef Attributor.attribute' Attributor.finish
    cases layerIO train with
    | error e => rfl
    | ok xs =>
      simp only
      rw [tune_read A same xs]
      obtain ⟨cached, theta⟩ := s
      cases cached
      · cases A.tuneRef same xs with
        | error e => rfl
        | ok t =>
          cases layerIO test with
          | error e => rfl
          | ok zs => rfl
      · cases layerIO test with
        | error e => rfl
        | ok zs => cases theta <;> rfl

/-! ## Cases -/

/-- Gradients 5 and 7 at the first two iterates: the initial weights are kept and shared; with 5 and 2 the second, which is not shared. -/
example : finetuneRef (fun v : ℕ => some (if v = 0 then (5 : ℝ) else 7)) (· + 1) 2 true 0 = .ok (true, 0) ∧
    finetuneRef (fun v : ℕ => some (if v = 0 then (5 : ℝ) else 2)) (· + 1) 2 true 0 = .ok (false, 1) := by
  constructor
  · simp only [finetuneRef, finetune, ftLoop]
    norm_num
  · simp only [finetuneRef, finetune, ftLoop]
    norm_num

end Verif.RPS
