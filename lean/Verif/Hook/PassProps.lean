import Mathlib.Data.List.Induction
import Verif.Hook.PassModel

/-!
# What a hooked pass captures: properties
-/

namespace Verif.Hook

open Verif

variable {X Y G : Type}

/-- The input of the last application of a layer in a forward pass. -/
def lastIn (fw : List (ℕ × X)) (l : ℕ) : Option X := (fw.reverse.find? fun u => u.1 == l).map Prod.snd

/-- The output gradient of the first visit of a layer in a backward pass. -/
def gradOf (bw : List (ℕ × Y)) (l : ℕ) : Option Y := (bw.find? fun u => u.1 == l).map Prod.snd

theorem fwd_fold (fw : List (ℕ × X)) (c : Cap X G) :
    fw.foldl fwdUse c = ⟨fun l => (lastIn fw l).orElse fun _ => c.inputs l, c.grads⟩ := by
  induction fw using List.reverseRecOn with
  | nil => rfl
  | append_singleton fw u ih =>
    rw [List.foldl_append, ih]
    simp only [List.foldl_cons, List.foldl_nil, fwdUse, Cap.mk.injEq, and_true]
    funext l
    by_cases h : l = u.1
    · subst h
      simp [lastIn]
    · have h' : (u.1 == l) = false := by simpa using fun e => h e.symm
      rw [Function.update_of_ne h]
      simp [lastIn, h']

theorem gradOf_none {bw : List (ℕ × Y)} {l : ℕ} : gradOf bw l = none ↔ l ∉ bw.map Prod.fst := by
  unfold gradOf
  simp only [Option.map_eq_none_iff, List.find?_eq_none, beq_iff_eq, List.mem_map, not_exists, not_and]

/-- The backward pass for any state. -/
theorem bwd_fold {comp : ℕ → Option (X → Y → G)} : ∀ (bw : List (ℕ × Y)) (c : Cap X G),
    (∀ l ∈ bw.map Prod.fst, (c.inputs l).isSome) → (∀ l ∈ bw.map Prod.fst, (comp l).isSome) →
    bw.foldlM (bwdUse comp) c =
      if (bw.map Prod.fst).Nodup then
        .ok ⟨fun l => if l ∈ bw.map Prod.fst then none else c.inputs l,
          fun l => match gradOf bw l with
            | none => c.grads l
            | some y => (comp l).bind fun f => (c.inputs l).map fun x => f x y⟩
      else .error .attributeError := by
  intro bw
  induction bw with
  | nil =>
    intro c _ _
    simp [gradOf, pure, Except.pure]
  | cons u bw ih =>
    intro c hi hc
    have hu : u.1 ∈ (u :: bw).map Prod.fst := List.mem_cons_self
    obtain ⟨x, hx⟩ := Option.isSome_iff_exists.1 (hi _ hu)
    obtain ⟨f, hf⟩ := Option.isSome_iff_exists.1 (hc _ hu)
    rw [List.foldlM_cons]
    have e1 : bwdUse comp c u =
        .ok ⟨Function.update c.inputs u.1 none, Function.update c.grads u.1 (some (f x u.2))⟩ := by
      unfold bwdUse; rw [hx]; simp only [hf]
    rw [e1]
    show bw.foldlM (bwdUse comp) _ = _
    by_cases hmem : u.1 ∈ bw.map Prod.fst
    · -- visited twice: the second visit finds no input
      rw [if_neg (by rw [List.map_cons, List.nodup_cons]; exact fun h => h.1 hmem)]
      clear ih hi e1
      have hcb : ∀ l ∈ bw.map Prod.fst, (comp l).isSome := fun l hl => hc l (List.mem_cons_of_mem _ hl)
      clear hc hu
      have key : ∀ (bw : List (ℕ × Y)) (d : Cap X G), u.1 ∈ bw.map Prod.fst → d.inputs u.1 = none →
          bw.foldlM (bwdUse comp) d = .error .attributeError := by
        intro bw
        induction bw with
        | nil => intro d h; cases h
        | cons v bw ih =>
          intro d h hd
          rw [List.foldlM_cons]
          by_cases hv : v.1 = u.1
          · have : bwdUse comp d v = .error .attributeError := by
              unfold bwdUse; rw [hv, hd]
            rw [this]; rfl
          · have hm : u.1 ∈ bw.map Prod.fst := by
              rcases List.mem_cons.1 h with h | h
              · exact absurd h.symm hv
              · exact h
            cases hb : bwdUse comp d v with
            | error e =>
              have : e = .attributeError := by
                unfold bwdUse at hb
                split at hb
                · cases hb; rfl
                · split at hb
                  · cases hb; rfl
                  · cases hb
              subst this; rfl
            | ok d' =>
              show bw.foldlM (bwdUse comp) d' = _
              apply ih d' hm
              unfold bwdUse at hb
              split at hb
              · cases hb
              · split at hb
                · cases hb
                · cases hb
                  show Function.update d.inputs v.1 none u.1 = none
                  rw [Function.update_of_ne (fun e => hv e.symm)]; exact hd
      exact key bw _ hmem (by simp)
    · rw [ih _ ?_ (fun l hl => hc l (List.mem_cons_of_mem _ hl))]
      · by_cases hn : (bw.map Prod.fst).Nodup
        · rw [if_pos hn, if_pos (by rw [List.map_cons, List.nodup_cons]; exact ⟨hmem, hn⟩)]
          congr 1
          simp only [Cap.mk.injEq]
          constructor
          · funext l
            by_cases hl : l = u.1
            · subst hl; simp
            · rw [Function.update_of_ne hl]
              have : l ∈ List.map Prod.fst (u :: bw) ↔ l ∈ List.map Prod.fst bw := by
                rw [List.map_cons, List.mem_cons]; exact or_iff_right hl
              simp only [this]
          · funext l
            by_cases hl : l = u.1
            · subst hl
              have : gradOf bw u.1 = none := gradOf_none.2 hmem
              rw [this]
              simp [gradOf, hx, hf]
            · have h' : (u.1 == l) = false := by simpa using fun e => hl e.symm
              have : gradOf (u :: bw) l = gradOf bw l := by simp [gradOf, h']
              rw [this]
              simp only [Function.update_of_ne hl]
        · rw [if_neg hn, if_neg (by rw [List.map_cons, List.nodup_cons]; exact fun h => hn h.2)]
      · intro l hl
        have hne : l ≠ u.1 := fun e => hmem (e ▸ hl)
        show (Function.update c.inputs u.1 none l).isSome
        rw [Function.update_of_ne hne]
        exact hi l (List.mem_cons_of_mem _ hl)

/-- What autograd guarantees about a batch: a layer visited in the backward pass was applied in the forward
pass. -/
def Batch.Causal (b : Batch X Y) : Prop := ∀ l ∈ b.bw.map Prod.fst, l ∈ b.fw.map Prod.fst

theorem lastIn_isSome {fw : List (ℕ × X)} {l : ℕ} (h : l ∈ fw.map Prod.fst) : (lastIn fw l).isSome := by
  unfold lastIn
  obtain ⟨u, hu, rfl⟩ := List.mem_map.1 h
  rw [Option.isSome_map, List.find?_isSome]
  exact ⟨u, List.mem_reverse.2 hu, by simp⟩

/-- C99: a batch in which some hooked layer is visited more than once in the backward pass raises
`AttributeError`; otherwise it succeeds, whatever was captured before.  (Layers without compressor raise as
well; here every visited layer has one.) -/
theorem C99_reused_layer {comp : ℕ → Option (X → Y → G)} (c : Cap X G) (b : Batch X Y) (hb : b.Causal)
    (hc : ∀ l ∈ b.bw.map Prod.fst, (comp l).isSome) :
    ((∃ c', pass comp c b = .ok c') ↔ (b.bw.map Prod.fst).Nodup) ∧
      (¬ (b.bw.map Prod.fst).Nodup → pass comp c b = .error .attributeError) := by
  have hin : ∀ l ∈ b.bw.map Prod.fst, ((b.fw.foldl fwdUse c).inputs l).isSome := by
    intro l hl
    rw [fwd_fold]
    obtain ⟨x, hx⟩ := Option.isSome_iff_exists.1 (lastIn_isSome (hb l hl))
    show ((lastIn b.fw l).orElse _).isSome
    rw [hx]; rfl
  have e := bwd_fold b.bw (b.fw.foldl fwdUse c) hin hc
  unfold pass
  rw [e]
  constructor
  · constructor
    · rintro ⟨c', h⟩
      by_contra hn
      rw [if_neg hn] at h; cases h
    · intro hn
      exact ⟨_, if_pos hn⟩
  · intro hn; rw [if_neg hn]

/-- C99: a layer applied twice of which only one application takes part in the backward pass gets a
gradient from the input of the *last* application, whichever took part. -/
theorem C99_last_input {comp : ℕ → Option (X → Y → G)} {c c' : Cap X G} {b : Batch X Y} (hb : b.Causal)
    (hc : ∀ l ∈ b.bw.map Prod.fst, (comp l).isSome) (h : pass comp c b = .ok c') (l : ℕ) :
    c'.grads l = match gradOf b.bw l with
      | none => c.grads l
      | some y => (comp l).bind fun f => (lastIn b.fw l).map fun x => f x y := by
  have hn := (C99_reused_layer c b hb hc).1.1 ⟨c', h⟩
  unfold pass at h
  rw [fwd_fold, bwd_fold b.bw _ ?_ hc, if_pos hn] at h
  · cases h
    show (match gradOf b.bw l with | none => _ | some y => _) = _
    cases hg : gradOf b.bw l with
    | none => rfl
    | some y =>
      have hl : l ∈ b.bw.map Prod.fst := by
        by_contra hh
        rw [gradOf_none.2 hh] at hg; cases hg
      obtain ⟨x, hx⟩ := Option.isSome_iff_exists.1 (lastIn_isSome (hb l hl))
      simp only [hx]
      rfl
  · intro l hl
    obtain ⟨x, hx⟩ := Option.isSome_iff_exists.1 (lastIn_isSome (hb l hl))
    show ((lastIn b.fw l).orElse _).isSome
    rw [hx]; rfl

/-- The gradient of a layer in one batch, `none` if the layer takes no part in the backward pass. -/
def own (comp : ℕ → Option (X → Y → G)) (b : Batch X Y) (l : ℕ) : Option G :=
  (gradOf b.bw l).bind fun y => (comp l).bind fun f => (lastIn b.fw l).map fun x => f x y

/-- The gradient of a layer in the latest of the batches in which it took part. -/
def latest (comp : ℕ → Option (X → Y → G)) (bs : List (Batch X Y)) (l : ℕ) : Option G :=
  bs.reverse.findSome? fun b => own comp b l

theorem grads_own {comp : ℕ → Option (X → Y → G)} {c c' : Cap X G} {b : Batch X Y} (hb : b.Causal)
    (hc : ∀ l ∈ b.bw.map Prod.fst, (comp l).isSome) (h : pass comp c b = .ok c') (l : ℕ) :
    c'.grads l = (own comp b l).orElse fun _ => c.grads l := by
  rw [C99_last_input hb hc h l]
  unfold own
  cases hg : gradOf b.bw l with
  | none => rfl
  | some y =>
    have hl : l ∈ b.bw.map Prod.fst := by
      by_contra hh
      rw [gradOf_none.2 hh] at hg; cases hg
    obtain ⟨x, hx⟩ := Option.isSome_iff_exists.1 (lastIn_isSome (hb l hl))
    obtain ⟨f, hf⟩ := Option.isSome_iff_exists.1 (hc l hl)
    simp [hx, hf]

theorem capture_from {comp : ℕ → Option (X → Y → G)} : ∀ (bs : List (Batch X Y)) (c : Cap X G)
    (r : List (ℕ → Option G)), (∀ b ∈ bs, b.Causal) → (∀ b ∈ bs, ∀ l ∈ b.bw.map Prod.fst, (comp l).isSome) →
    capture comp c bs = .ok r → r.length = bs.length ∧
      ∀ k (hk : k < r.length) l, r[k] l = (latest comp (bs.take (k + 1)) l).orElse fun _ => c.grads l := by
  intro bs
  induction bs with
  | nil =>
    intro c r _ _ h
    cases h
    exact ⟨rfl, fun k hk => by cases hk⟩
  | cons b bs ih =>
    intro c r hb hc h
    unfold capture at h
    cases hp : pass comp c b with
    | error e => rw [hp] at h; cases h
    | ok c1 =>
      rw [hp] at h
      simp only at h
      cases hr : capture comp c1 bs with
      | error e => rw [hr] at h; cases h
      | ok r1 =>
        rw [hr] at h
        simp only [Except.ok.injEq] at h
        subst h
        obtain ⟨hl, hk⟩ := ih c1 r1 (fun x hx => hb x (List.mem_cons_of_mem _ hx))
          (fun x hx => hc x (List.mem_cons_of_mem _ hx)) hr
        have g1 := grads_own (hb b List.mem_cons_self) (hc b List.mem_cons_self) hp
        refine ⟨by simp [hl], ?_⟩
        intro k hk' l
        cases k with
        | zero =>
          rw [List.getElem_cons_zero, g1]
          simp only [latest, List.take_succ_cons, List.take_zero, List.reverse_cons, List.reverse_nil,
            List.nil_append, List.findSome?_cons, List.findSome?_nil]
          cases own comp b l <;> rfl
        | succ k =>
          rw [List.getElem_cons_succ, hk k (by simpa using hk') l, g1]
          simp only [latest, List.take_succ_cons, List.reverse_cons, List.findSome?_append,
            List.findSome?_cons, List.findSome?_nil]
          cases List.findSome? (fun b => own comp b l) (List.take (k + 1) bs).reverse <;>
            cases own comp b l <;> rfl

/-- C100: the gradient captured for a layer after a batch is that of the latest batch, up to this one, in
which the layer took part in the backward pass; it is missing only if there has been none.  So a layer
skipped by a batch is recorded with another batch's gradient. -/
theorem C100_stale_layer {comp : ℕ → Option (X → Y → G)} {bs : List (Batch X Y)} {r : List (ℕ → Option G)}
    (hb : ∀ b ∈ bs, b.Causal) (hc : ∀ b ∈ bs, ∀ l ∈ b.bw.map Prod.fst, (comp l).isSome)
    (h : capture comp Cap.empty bs = .ok r) :
    r.length = bs.length ∧ ∀ k (hk : k < r.length) l, r[k] l = latest comp (bs.take (k + 1)) l := by
  obtain ⟨h1, h2⟩ := capture_from bs Cap.empty r hb hc h
  refine ⟨h1, fun k hk l => ?_⟩
  rw [h2 k hk l]
  cases latest comp (bs.take (k + 1)) l <;> rfl

/-- C100: the captured gradients are those of the batch itself exactly if every layer that some earlier
batch used is used. -/
theorem C100_own_iff {comp : ℕ → Option (X → Y → G)} {bs : List (Batch X Y)} {r : List (ℕ → Option G)}
    (hb : ∀ b ∈ bs, b.Causal) (hc : ∀ b ∈ bs, ∀ l ∈ b.bw.map Prod.fst, (comp l).isSome)
    (h : capture comp Cap.empty bs = .ok r) (k : ℕ) (hk : k < bs.length) (hk' : k < r.length) (l : ℕ) :
    r[k] l = own comp bs[k] l ↔
      (l ∈ bs[k].bw.map Prod.fst ∨ ∀ b ∈ bs.take k, l ∉ b.bw.map Prod.fst) := by
  rw [(C100_stale_layer hb hc h).2 k hk' l]
  have hown : ∀ b ∈ bs, (own comp b l = none ↔ l ∉ b.bw.map Prod.fst) := by
    intro b hbm
    constructor
    · intro ho hl
      obtain ⟨x, hx⟩ := Option.isSome_iff_exists.1 (lastIn_isSome (hb b hbm l hl))
      obtain ⟨f, hf⟩ := Option.isSome_iff_exists.1 (hc b hbm l hl)
      unfold own at ho
      cases hg : gradOf b.bw l with
      | none => exact (gradOf_none.1 hg) hl
      | some y => simp [hg, hx, hf] at ho
    · intro hl
      unfold own; rw [gradOf_none.2 hl]; rfl
  have e : latest comp (bs.take (k + 1)) l = (own comp bs[k] l).orElse fun _ => latest comp (bs.take k) l := by
    unfold latest
    rw [List.take_succ_eq_append_getElem hk, List.reverse_append, List.reverse_singleton,
      List.singleton_append, List.findSome?_cons]
    cases own comp bs[k] l <;> rfl
  have hmem : bs[k] ∈ bs := List.getElem_mem hk
  rw [e]
  by_cases hl : l ∈ bs[k].bw.map Prod.fst
  · have : own comp bs[k] l ≠ none := fun h => (hown _ hmem).1 h hl
    obtain ⟨v, hv⟩ := Option.ne_none_iff_exists'.1 this
    simp [hv, hl]
  · have h0 : own comp bs[k] l = none := (hown _ hmem).2 hl
    rw [h0]
    simp only [hl, false_or]
    show latest comp (bs.take k) l = none ↔ _
    unfold latest
    rw [List.findSome?_eq_none_iff]
    constructor
    · intro hh b hbm
      exact (hown b (List.mem_of_mem_take hbm)).1 (hh b (List.mem_reverse.2 hbm))
    · intro hh b hbm
      have hbm := List.mem_reverse.1 hbm
      exact (hown b (List.mem_of_mem_take hbm)).2 (hh b hbm)

/-- Layer 1 takes part in the first batch only: after the second batch its gradient is still that of the
first; a batch that visits layer 0 twice raises. -/
example : let comp : ℕ → Option (ℕ → ℕ → ℕ) := fun _ => some fun x y => 10 * x + y
    let b0 : Batch ℕ ℕ := ⟨[(0, 1), (1, 2)], [(1, 3), (0, 4)]⟩
    let b1 : Batch ℕ ℕ := ⟨[(0, 5)], [(0, 6)]⟩
    (∃ r, capture comp Cap.empty [b0, b1] = .ok r ∧ r.map (fun g => g 1) = [some 23, some 23] ∧
      r.map (fun g => g 0) = [some 14, some 56]) ∧ b0.Causal ∧ b1.Causal ∧
    pass comp Cap.empty ⟨[(0, 1), (0, 2)], [(0, 3), (0, 4)]⟩ = .error .attributeError := by
  refine ⟨⟨_, rfl, by decide, by decide⟩, ?_, ?_, rfl⟩
  · intro l hl; revert hl; simp; tauto
  · intro l hl; revert hl; simp

end Verif.Hook
