import Verif.Script.Conv1DModel
import Mathlib.Algebra.BigOperators.Group.Finset.Basic
import Mathlib.Data.List.Nodup
import Mathlib.Tactic.Ring

/-!
# C200: replacing Conv1D layers keeps the model and makes the layers visible
-/

namespace Verif.Conv1D

variable {α : Type}

/-! ## Specification -/

/-- What a Conv1D with weight of shape (in, out) computes: `x W + b`. -/
def convMap [CommRing α] (rows cols : ℕ) (w : ℕ → ℕ → α) (b : ℕ → α) (x : ℕ → α) : List α :=
  (List.range cols).map fun j : ℕ => (∑ i ∈ Finset.range rows, x i * w i j) + b j

/-- What a Linear with weight of shape (out, in) computes: `x Wᵀ + b`. -/
def linearMap [CommRing α] (rows cols : ℕ) (w : ℕ → ℕ → α) (b : ℕ → α) (x : ℕ → α) : List α :=
  (List.range rows).map fun o : ℕ => (∑ i ∈ Finset.range cols, x i * w o i) + b o

/-- A way of computing with modules: what an affine map from `nIn` to `nOut` values
counts for, what the other leaves count for and how a container combines its children. -/
structure Interp (α β : Type) where
  affine : (nIn nOut : ℕ) → ((ℕ → α) → List α) → β
  leaf : Id → Leaf → β
  node : Id → List (String × β) → β

mutual
/-- The meaning of a module. -/
def sem [CommRing α] {β : Type} (I : Interp α β) : Mod α → β
  | .conv _ r c w b => I.affine r c (convMap r c w b)
  | .linear _ r c w b => I.affine c r (linearMap r c w b)
  | .leaf i k => I.leaf i k
  | .node i kids => I.node i (semKids I kids)
/-- The meaning of the children, with their names. -/
def semKids [CommRing α] {β : Type} (I : Interp α β) : Kids α → List (String × β)
  | .nil => []
  | .cons name m rest => (name, sem I m) :: semKids I rest
end

/-- The children as a list. -/
def Kids.toList : Kids α → List (String × Mod α)
  | .nil => []
  | .cons name m rest => (name, m) :: rest.toList

/-- The name of a child: the names from the root on, separated by dots; the root has no name. -/
def dotted (pre name : String) : String := if pre = "" then name else pre ++ "." ++ name

mutual
/-- Every module with its full name, in the order of registration, whether shared or not. -/
def full (pre : String) : Mod α → List (String × Mod α)
  | .node i kids => (pre, .node i kids) :: fullKids pre kids
  | .conv i r c w b => [(pre, .conv i r c w b)]
  | .linear i r c w b => [(pre, .linear i r c w b)]
  | .leaf i k => [(pre, .leaf i k)]
/-- The same for the children of a module. -/
def fullKids (pre : String) : Kids α → List (String × Mod α)
  | .nil => []
  | .cons name m rest => full (dotted pre name) m ++ fullKids pre rest
end

mutual
/-- No Conv1D is the same object as an earlier child of the same module. -/
def SiblingsDistinct : Mod α → Prop
  | .node _ kids =>
      kids.toList.Pairwise (fun x y => y.2.isConv = true → y.2.ident ≠ x.2.ident) ∧
        SiblingsDistinctKids kids
  | .conv _ _ _ _ _ => True
  | .linear _ _ _ _ _ => True
  | .leaf _ _ => True
/-- The same for all modules below the children. -/
def SiblingsDistinctKids : Kids α → Prop
  | .nil => True
  | .cons _ m rest => SiblingsDistinct m ∧ SiblingsDistinctKids rest
end

mutual
/-- The children of every module have different names (they are the keys of a dictionary). -/
def NamesDistinct : Mod α → Prop
  | .node _ kids => (kids.toList.map Prod.fst).Nodup ∧ NamesDistinctKids kids
  | .conv _ _ _ _ _ => True
  | .linear _ _ _ _ _ => True
  | .leaf _ _ => True
/-- The same for all modules below the children. -/
def NamesDistinctKids : Kids α → Prop
  | .nil => True
  | .cons _ m rest => NamesDistinct m ∧ NamesDistinctKids rest
end

/-- No object occurs at two places of the model. -/
def Unshared (m : Mod α) : Prop := ((full "" m).map fun x => x.2.ident).Nodup

/-- All modules existed before the call. -/
def AllOld (m : Mod α) : Prop := ∀ x ∈ full "" m, ∃ n, x.2.ident = .old n

/-- What stands at a place of the model after the replacement, given what stood there
and whether an earlier child of the same module is the same object. -/
def childSpec (p : Id) (name : String) (earlier : List Id) (m : Mod α) : Mod α :=
  match m with
  | .conv i r c w b =>
      if i ∈ earlier then .conv i r c w b
      else .linear (.fresh p name) c r (fun o k => w k o) b
  | m => replace m

/-! ## Lemmas -/

theorem join_eq (pre name : String) : join pre name = dotted pre name := rfl


theorem replaceKids_cons (p : Id) (seen : List Id) (name : String) (m : Mod α) (rest : Kids α) :
    replaceKids p seen (.cons name m rest) =
      .cons name (childSpec p name seen m) (replaceKids p (seen ++ [m.ident]) rest) := by
  cases m <;> simp [replaceKids, childSpec, replace]

theorem toList_replaceKids (p : Id) : ∀ (seen : List Id) (ks : Kids α),
    (replaceKids p seen ks).toList =
      ks.toList.mapIdx fun n x =>
        (x.1, childSpec p x.1 (seen ++ (ks.toList.take n).map fun y => y.2.ident) x.2)
  | seen, .nil => by simp [replaceKids, Kids.toList]
  | seen, .cons name m rest => by
      rw [replaceKids_cons]
      simp only [Kids.toList, List.mapIdx_cons, List.take_zero, List.map_nil, List.append_nil]
      rw [toList_replaceKids p _ rest]
      simp [List.append_assoc]

section sem
variable [CommRing α] {β : Type}

mutual
theorem sem_replace (I : Interp α β) : ∀ m : Mod α, sem I (replace m) = sem I m
  | .conv _ _ _ _ _ => rfl
  | .linear _ _ _ _ _ => rfl
  | .leaf _ _ => rfl
  | .node i kids => by
      simp only [replace, sem]
      rw [semKids_replace I i [] kids]
theorem semKids_replace (I : Interp α β) (p : Id) (seen : List Id) :
    ∀ ks : Kids α, semKids I (replaceKids p seen ks) = semKids I ks
  | .nil => by simp [replaceKids]
  | .cons name m rest => by
      rw [replaceKids_cons]
      simp only [semKids]
      rw [semKids_replace I p _ rest]
      congr 2
      have h := sem_replace I m
      cases m with
      | conv i r c w b =>
          simp only [childSpec]
          split
          · rfl
          · rfl
      | linear _ _ _ _ _ => exact h
      | leaf _ _ => exact h
      | node _ _ => exact h
end
end sem

mutual
theorem names_replace : ∀ (pre : String) (m : Mod α),
    (full pre (replace m)).map Prod.fst = (full pre m).map Prod.fst
  | _, .conv _ _ _ _ _ => rfl
  | _, .linear _ _ _ _ _ => rfl
  | _, .leaf _ _ => rfl
  | pre, .node i kids => by
      simp only [replace, full, List.map_cons]
      rw [names_replaceKids pre i [] kids]
theorem names_replaceKids (pre : String) (p : Id) : ∀ (seen : List Id) (ks : Kids α),
    (fullKids pre (replaceKids p seen ks)).map Prod.fst = (fullKids pre ks).map Prod.fst
  | _, .nil => by simp [replaceKids]
  | seen, .cons name m rest => by
      rw [replaceKids_cons]
      simp only [fullKids, List.map_append]
      rw [names_replaceKids pre p _ rest]
      have h := names_replace (dotted pre name) m
      congr 1
      cases m with
      | conv i r c w b =>
          simp only [childSpec]
          split <;> rfl
      | linear _ _ _ _ _ => exact h
      | leaf _ _ => exact h
      | node _ _ => exact h
end

theorem childSpec_of_not_conv (p : Id) (name : String) (seen : List Id) (m : Mod α)
    (h : m.isConv = false) : childSpec p name seen m = replace m := by
  cases m <;> simp_all [childSpec, Mod.isConv]

theorem mem_full_self (pre : String) (m : Mod α) : (pre, m) ∈ full pre m := by
  cases m <;> simp [full]

mutual
theorem noConv_replace : ∀ (pre : String) (m : Mod α), m.isConv = false →
    ((∀ x ∈ full pre (replace m), x.2.isConv = false) ↔ SiblingsDistinct m)
  | _, .conv _ _ _ _ _, h => by simp [Mod.isConv] at h
  | _, .linear _ _ _ _ _, _ => by simp [full, replace, Mod.isConv, SiblingsDistinct]
  | _, .leaf _ _, _ => by simp [full, replace, Mod.isConv, SiblingsDistinct]
  | pre, .node i kids, _ => by
      have h := noConv_replaceKids pre i [] kids
      simp only [List.not_mem_nil, not_false_eq_true, implies_true, and_true] at h
      simp only [full, replace, SiblingsDistinct, List.mem_cons, forall_eq_or_imp]
      rw [← h]
      simp [Mod.isConv]
theorem noConv_replaceKids (pre : String) (p : Id) : ∀ (seen : List Id) (ks : Kids α),
    ((∀ x ∈ fullKids pre (replaceKids p seen ks), x.2.isConv = false) ↔
      ((ks.toList.Pairwise (fun x y => y.2.isConv = true → y.2.ident ≠ x.2.ident) ∧
        SiblingsDistinctKids ks) ∧
        ∀ y ∈ ks.toList, y.2.isConv = true → y.2.ident ∉ seen))
  | _, .nil => by simp [replaceKids, fullKids, Kids.toList, SiblingsDistinctKids]
  | seen, .cons name m rest => by
      have hr := noConv_replaceKids pre p (seen ++ [m.ident]) rest
      have hm := noConv_replace (dotted pre name) m
      rw [replaceKids_cons]
      simp only [fullKids, Kids.toList, SiblingsDistinctKids, List.mem_append, List.pairwise_cons,
        or_imp, forall_and, hr, List.mem_cons, not_or]
      have key : (∀ x ∈ full (dotted pre name) (childSpec p name seen m), x.2.isConv = false) ↔
          (SiblingsDistinct m ∧ (m.isConv = true → m.ident ∉ seen)) := by
        cases hc : m.isConv with
        | false =>
            rw [childSpec_of_not_conv _ _ _ _ hc, hm hc]
            simp
        | true =>
            cases m with
            | conv i r c w b =>
                by_cases hi : i ∈ seen
                · simp [childSpec, hi, full, Mod.isConv, Mod.ident]
                · simp [childSpec, hi, full, Mod.isConv, Mod.ident, SiblingsDistinct]
            | linear _ _ _ _ _ => simp [Mod.isConv] at hc
            | leaf _ _ => simp [Mod.isConv] at hc
            | node _ _ => simp [Mod.isConv] at hc
      rw [key]
      constructor
      · rintro ⟨⟨a, b⟩, ⟨c, d⟩, e1, e2, _⟩
        exact ⟨⟨⟨e2, c⟩, a, d⟩, fun x hx => hx ▸ b, e1⟩
      · rintro ⟨⟨⟨a, b⟩, c, d⟩, e, g⟩
        exact ⟨⟨c, e (name, m) rfl⟩, ⟨b, d⟩, g, a, by simp⟩
end

mutual
/-- The identities below a module, without names. -/
def idents : Mod α → List Id
  | .node i kids => i :: identsKids kids
  | .conv i _ _ _ _ => [i]
  | .linear i _ _ _ _ => [i]
  | .leaf i _ => [i]
/-- The same for the children. -/
def identsKids : Kids α → List Id
  | .nil => []
  | .cons _ m rest => idents m ++ identsKids rest
end

mutual
theorem full_idents : ∀ (pre : String) (m : Mod α),
    ((full pre m).map fun x => x.2.ident) = idents m
  | _, .conv _ _ _ _ _ => rfl
  | _, .linear _ _ _ _ _ => rfl
  | _, .leaf _ _ => rfl
  | pre, .node i kids => by
      have h := fullKids_idents pre kids
      simp only [full, idents, List.map_cons, h]
      rfl
theorem fullKids_idents : ∀ (pre : String) (ks : Kids α),
    ((fullKids pre ks).map fun x => x.2.ident) = identsKids ks
  | _, .nil => rfl
  | pre, .cons name m rest => by
      simp only [fullKids, identsKids, List.map_append, full_idents (dotted pre name) m,
        fullKids_idents pre rest]
end

mutual
theorem walk_full : ∀ (memo : List Id) (pre : String) (m : Mod α),
    (memo ++ idents m).Nodup → walk memo pre m = (memo ++ idents m, full pre m)
  | memo, pre, .conv i r c w b, h => by
      have : i ∉ memo := fun hi => (List.nodup_append.1 h).2.2 i hi i (by simp [idents]) rfl
      simp [walk, this, idents, full]
  | memo, pre, .linear i r c w b, h => by
      have : i ∉ memo := fun hi => (List.nodup_append.1 h).2.2 i hi i (by simp [idents]) rfl
      simp [walk, this, idents, full]
  | memo, pre, .leaf i k, h => by
      have : i ∉ memo := fun hi => (List.nodup_append.1 h).2.2 i hi i (by simp [idents]) rfl
      simp [walk, this, idents, full]
  | memo, pre, .node i kids, h => by
      have : i ∉ memo := fun hi => (List.nodup_append.1 h).2.2 i hi i (by simp [idents]) rfl
      have h2 : (memo ++ [i] ++ identsKids kids).Nodup := by simpa [idents] using h
      simp [walk, this, idents, full, walkKids_full _ pre kids h2]
theorem walkKids_full : ∀ (memo : List Id) (pre : String) (ks : Kids α),
    (memo ++ identsKids ks).Nodup → walkKids memo pre ks = (memo ++ identsKids ks, fullKids pre ks)
  | memo, pre, .nil, _ => by simp [walkKids, identsKids, fullKids]
  | memo, pre, .cons name m rest, h => by
      have h2 : (memo ++ idents m ++ identsKids rest).Nodup := by simpa [identsKids] using h
      have h1 := (List.nodup_append.1 h2).1
      simp [walkKids, join_eq, identsKids, fullKids, walk_full _ _ m h1, walkKids_full _ pre rest h2]
end

mutual
theorem idents_replace_mem : ∀ (m : Mod α) (x : Id), x ∈ idents (replace m) →
    x ∈ idents m ∨ ∃ q ∈ idents m, ∃ s, x = .fresh q s
  | .conv _ _ _ _ _, x, h => Or.inl h
  | .linear _ _ _ _ _, x, h => Or.inl h
  | .leaf _ _, x, h => Or.inl h
  | .node i kids, x, h => by
      simp only [replace, idents, List.mem_cons] at h ⊢
      rcases h with h | h
      · exact Or.inl (Or.inl h)
      · rcases identsKids_replace_mem i [] kids x h with h | ⟨s, _, h⟩ | ⟨q, hq, s, h⟩
        · exact Or.inl (Or.inr h)
        · exact Or.inr ⟨i, Or.inl rfl, s, h⟩
        · exact Or.inr ⟨q, Or.inr hq, s, h⟩
theorem identsKids_replace_mem (p : Id) : ∀ (seen : List Id) (ks : Kids α) (x : Id),
    x ∈ identsKids (replaceKids p seen ks) →
    x ∈ identsKids ks ∨ (∃ s ∈ ks.toList.map Prod.fst, x = .fresh p s) ∨
      ∃ q ∈ identsKids ks, ∃ s, x = .fresh q s
  | _, .nil, x, h => by simp [replaceKids, identsKids] at h
  | seen, .cons name m rest, x, h => by
      rw [replaceKids_cons] at h
      simp only [identsKids, List.mem_append, Kids.toList, List.map_cons, List.mem_cons] at h ⊢
      rcases h with h | h
      · cases hc : m.isConv with
        | false =>
            rw [childSpec_of_not_conv _ _ _ _ hc] at h
            rcases idents_replace_mem m x h with h | ⟨q, hq, s, h⟩
            · exact Or.inl (Or.inl h)
            · exact Or.inr (Or.inr ⟨q, Or.inl hq, s, h⟩)
        | true =>
            cases m with
            | conv i r c w b =>
                simp only [childSpec] at h
                split at h
                · exact Or.inl (Or.inl h)
                · simp only [idents, List.mem_singleton] at h
                  exact Or.inr (Or.inl ⟨name, Or.inl rfl, h⟩)
            | linear _ _ _ _ _ => simp [Mod.isConv] at hc
            | leaf _ _ => simp [Mod.isConv] at hc
            | node _ _ => simp [Mod.isConv] at hc
      · rcases identsKids_replace_mem p _ rest x h with h | ⟨s, hs, h⟩ | ⟨q, hq, s, h⟩
        · exact Or.inl (Or.inr h)
        · exact Or.inr (Or.inl ⟨s, Or.inr hs, h⟩)
        · exact Or.inr (Or.inr ⟨q, Or.inr hq, s, h⟩)
end

mutual
theorem idents_replace_nodup : ∀ (m : Mod α), (idents m).Nodup →
    (∀ x ∈ idents m, ∃ n, x = .old n) → NamesDistinct m → (idents (replace m)).Nodup
  | .conv _ _ _ _ _, h, _, _ => h
  | .linear _ _ _ _ _, h, _, _ => h
  | .leaf _ _, h, _, _ => h
  | .node i kids, h, ho, hn => by
      simp only [idents, List.nodup_cons, List.mem_cons, forall_eq_or_imp] at h ho
      simp only [NamesDistinct] at hn
      simp only [replace, idents, List.nodup_cons]
      refine ⟨?_, identsKids_replace_nodup i [] kids h.2 ho.2 hn.1 hn.2 h.1⟩
      intro hm
      obtain ⟨n, rfl⟩ := ho.1
      rcases identsKids_replace_mem _ [] kids _ hm with e | ⟨s, _, e⟩ | ⟨q, _, s, e⟩
      · exact h.1 e
      · cases e
      · cases e
theorem identsKids_replace_nodup (p : Id) : ∀ (seen : List Id) (ks : Kids α),
    (identsKids ks).Nodup → (∀ x ∈ identsKids ks, ∃ n, x = .old n) →
    (ks.toList.map Prod.fst).Nodup → NamesDistinctKids ks → p ∉ identsKids ks →
    (identsKids (replaceKids p seen ks)).Nodup
  | _, .nil, _, _, _, _, _ => by simp [replaceKids, identsKids]
  | seen, .cons name m rest, h, ho, hs, hn, hp => by
      simp only [identsKids, List.nodup_append, List.mem_append, or_imp, forall_and, not_or]
        at h ho hp
      simp only [Kids.toList, List.map_cons, List.nodup_cons, NamesDistinctKids] at hs hn
      rw [replaceKids_cons]
      simp only [identsKids, List.nodup_append]
      have hrest := identsKids_replace_nodup p (seen ++ [m.ident]) rest h.2.1 ho.2 hs.2 hn.2 hp.2
      have hhead : (idents (childSpec p name seen m)).Nodup := by
        have h1 := idents_replace_nodup m h.1 ho.1 hn.1
        cases m with
        | conv i r c w b =>
            simp only [childSpec]
            split <;> simp [idents]
        | linear _ _ _ _ _ => exact h1
        | leaf _ _ => exact h1
        | node _ _ => exact h1
      refine ⟨hhead, hrest, ?_⟩
      have hmem : ∀ x ∈ idents (childSpec p name seen m),
          x ∈ idents m ∨ x = .fresh p name ∨ ∃ q ∈ idents m, ∃ s, x = .fresh q s := by
        intro x hx
        have h1 := idents_replace_mem m x
        cases m with
        | conv i r c w b =>
            simp only [childSpec] at hx
            split at hx
            · exact Or.inl hx
            · exact Or.inr (Or.inl (by simpa [idents] using hx))
        | linear _ _ _ _ _ => exact (h1 hx).imp id Or.inr
        | leaf _ _ => exact (h1 hx).imp id Or.inr
        | node _ _ => exact (h1 hx).imp id Or.inr
      rintro x hx y hy rfl
      rcases hmem x hx with a | a | ⟨q, hq, s, a⟩ <;>
        rcases identsKids_replace_mem p _ rest x hy with b | ⟨t, ht, b⟩ | ⟨q', hq', t, b⟩
      · exact h.2.2 x a x b rfl
      · obtain ⟨n, e⟩ := ho.1 x a; rw [e] at b; cases b
      · obtain ⟨n, e⟩ := ho.1 x a; rw [e] at b; cases b
      · obtain ⟨n, e⟩ := ho.2 x b; rw [e] at a; cases a
      · rw [a] at b; injection b with _ b; exact hs.1 (b ▸ ht)
      · rw [a] at b; injection b with b _; exact hp.2 (b ▸ hq')
      · obtain ⟨n, e⟩ := ho.2 x b; rw [e] at a; cases a
      · rw [a] at b; injection b with b _; exact hp.1 (b ▸ hq)
      · rw [a] at b; injection b with b _; exact h.2.2 q hq q' hq' b
end

mutual
theorem linear_replace : ∀ (pre : String) (m : Mod α), m.isConv = false → SiblingsDistinct m →
    ((full pre (replace m)).filter fun x => x.2.isLinear).map Prod.fst =
      ((full pre m).filter fun x => x.2.isLinear || x.2.isConv).map Prod.fst
  | _, .conv _ _ _ _ _, h, _ => by simp [Mod.isConv] at h
  | _, .linear _ _ _ _ _, _, _ => by simp [full, replace, Mod.isLinear]
  | _, .leaf _ _, _, _ => by simp [full, replace, Mod.isLinear, Mod.isConv]
  | pre, .node i kids, _, h => by
      simp only [SiblingsDistinct] at h
      simpa [full, replace, Mod.isLinear, Mod.isConv] using
        linear_replaceKids pre i [] kids h.1 h.2 (by simp)
theorem linear_replaceKids (pre : String) (p : Id) : ∀ (seen : List Id) (ks : Kids α),
    ks.toList.Pairwise (fun x y => y.2.isConv = true → y.2.ident ≠ x.2.ident) →
    SiblingsDistinctKids ks → (∀ y ∈ ks.toList, y.2.isConv = true → y.2.ident ∉ seen) →
    ((fullKids pre (replaceKids p seen ks)).filter fun x => x.2.isLinear).map Prod.fst =
      ((fullKids pre ks).filter fun x => x.2.isLinear || x.2.isConv).map Prod.fst
  | _, .nil, _, _, _ => by simp [replaceKids, fullKids]
  | seen, .cons name m rest, h, hd, hs => by
      simp only [Kids.toList, List.pairwise_cons, SiblingsDistinctKids, List.mem_cons,
        forall_eq_or_imp] at h hd hs
      rw [replaceKids_cons]
      simp only [fullKids, List.filter_append, List.map_append]
      rw [linear_replaceKids pre p (seen ++ [m.ident]) rest h.2 hd.2 (by
        intro y hy hc
        simp only [List.mem_append, List.mem_singleton, not_or]
        exact ⟨hs.2 y hy hc, h.1 y hy hc⟩)]
      congr 1
      cases hc : m.isConv with
      | false =>
          rw [childSpec_of_not_conv _ _ _ _ hc]
          exact linear_replace (dotted pre name) m hc hd.1
      | true =>
          have hi := hs.1 hc
          cases m with
          | conv i r c w b =>
              simp only [Mod.ident] at hi
              simp [childSpec, hi, full, Mod.isLinear, Mod.isConv]
          | linear _ _ _ _ _ => simp [Mod.isConv] at hc
          | leaf _ _ => simp [Mod.isConv] at hc
          | node _ _ => simp [Mod.isConv] at hc
end

mutual
theorem walk_inv : ∀ (memo : List Id) (pre : String) (m : Mod α), memo.Nodup →
    (walk memo pre m).1 = memo ++ ((walk memo pre m).2.map fun x => x.2.ident) ∧
      (walk memo pre m).1.Nodup ∧ ∀ x ∈ (walk memo pre m).2, x ∈ full pre m
  | memo, pre, .conv i r c w b, h => by
      by_cases hi : i ∈ memo <;> simp [walk, hi, Mod.ident, full, h, List.nodup_append]
      rintro a ha rfl; exact hi ha
  | memo, pre, .linear i r c w b, h => by
      by_cases hi : i ∈ memo <;> simp [walk, hi, Mod.ident, full, h, List.nodup_append]
      rintro a ha rfl; exact hi ha
  | memo, pre, .leaf i k, h => by
      by_cases hi : i ∈ memo <;> simp [walk, hi, Mod.ident, full, h, List.nodup_append]
      rintro a ha rfl; exact hi ha
  | memo, pre, .node i kids, h => by
      by_cases hi : i ∈ memo
      · simp [walk, hi, h]
      · have hn : (memo ++ [i]).Nodup := by
          simp only [List.nodup_append, h, List.nodup_singleton, List.mem_singleton, true_and]
          rintro a ha b rfl rfl; exact hi ha
        obtain ⟨a, b, c⟩ := walkKids_inv (memo ++ [i]) pre kids hn
        refine ⟨?_, ?_, ?_⟩
        · simp only [walk, hi, if_false, List.map_cons]
          rw [a]; simp only [List.append_assoc, List.cons_append, List.nil_append]; rfl
        · simpa [walk, hi] using b
        · intro x hx
          simp only [walk, hi, if_false, List.mem_cons] at hx
          simp only [full, List.mem_cons]
          exact hx.imp id (c x)
theorem walkKids_inv : ∀ (memo : List Id) (pre : String) (ks : Kids α), memo.Nodup →
    (walkKids memo pre ks).1 = memo ++ ((walkKids memo pre ks).2.map fun x => x.2.ident) ∧
      (walkKids memo pre ks).1.Nodup ∧ ∀ x ∈ (walkKids memo pre ks).2, x ∈ fullKids pre ks
  | memo, pre, .nil, h => by simp [walkKids, h]
  | memo, pre, .cons name m rest, h => by
      obtain ⟨a, b, c⟩ := walk_inv memo (dotted pre name) m h
      obtain ⟨a', b', c'⟩ := walkKids_inv (walk memo (dotted pre name) m).1 pre rest b
      refine ⟨?_, by simpa [walkKids, join_eq] using b', ?_⟩
      · simp only [walkKids, join_eq, List.map_append]
        rw [a', ← List.append_assoc, ← a]
      · intro x hx
        simp only [walkKids, join_eq, List.mem_append] at hx
        simp only [fullKids, List.mem_append]
        exact hx.imp (c x) (c' x)
end

theorem ident_mem_idents (m : Mod α) : m.ident ∈ idents m := by
  cases m <;> simp [idents, Mod.ident]

theorem toList_ident_mem : ∀ (ks : Kids α) (x : String × Mod α), x ∈ ks.toList →
    x.2.ident ∈ identsKids ks
  | .nil, x, h => by simp [Kids.toList] at h
  | .cons name m rest, x, h => by
      simp only [Kids.toList, List.mem_cons] at h
      simp only [identsKids, List.mem_append]
      rcases h with rfl | h
      · exact Or.inl (ident_mem_idents m)
      · exact Or.inr (toList_ident_mem rest x h)

mutual
theorem siblings_of_unshared : ∀ (m : Mod α), (idents m).Nodup → SiblingsDistinct m
  | .conv _ _ _ _ _, _ => by simp [SiblingsDistinct]
  | .linear _ _ _ _ _, _ => by simp [SiblingsDistinct]
  | .leaf _ _, _ => by simp [SiblingsDistinct]
  | .node i kids, h => by
      simp only [idents, List.nodup_cons] at h
      simpa [SiblingsDistinct] using siblingsKids_of_unshared kids h.2
theorem siblingsKids_of_unshared : ∀ (ks : Kids α), (identsKids ks).Nodup →
    ks.toList.Pairwise (fun x y => y.2.isConv = true → y.2.ident ≠ x.2.ident) ∧
      SiblingsDistinctKids ks
  | .nil, _ => by simp [Kids.toList, SiblingsDistinctKids]
  | .cons name m rest, h => by
      simp only [identsKids, List.nodup_append] at h
      have hr := siblingsKids_of_unshared rest h.2.1
      simp only [Kids.toList, List.pairwise_cons, SiblingsDistinctKids]
      exact ⟨⟨fun y hy _ e => h.2.2 _ (ident_mem_idents m) _ (toList_ident_mem rest y hy) e.symm,
        hr.1⟩, siblings_of_unshared m h.1, hr.2⟩
end

/-! ## Theorems -/

/-- Whatever a container does with its children, the model computes after the
replacement what it computed before. -/
theorem C200_forward [CommRing α] {β : Type} (I : Interp α β) (m : Mod α) :
    sem I (replace m) = sem I m :=
  sem_replace I m

/-- The names of all modules, and their order, stay the same. -/
theorem C200_names (pre : String) (m : Mod α) :
    (full pre (replace m)).map Prod.fst = (full pre m).map Prod.fst :=
  names_replace pre m

/-- The children after the replacement, one by one: a Conv1D becomes a new Linear with
the transposed weight, unless the same object is also an earlier child of this module,
in which case it stays a Conv1D; every other child is itself treated in the same way. -/
theorem C200_children (i : Id) (ks : Kids α) :
    ∃ ks', replace (.node i ks) = .node i ks' ∧
      ks'.toList.length = ks.toList.length ∧
      ∀ n (h : n < ks.toList.length) (h' : n < ks'.toList.length),
        (ks'.toList[n]).1 = (ks.toList[n]).1 ∧
        (ks'.toList[n]).2 =
          childSpec i (ks.toList[n]).1 ((ks.toList.take n).map fun y => y.2.ident) (ks.toList[n]).2 := by
  refine ⟨replaceKids i [] ks, by simp [replace], ?_, ?_⟩
  · rw [toList_replaceKids]; simp
  · intro n h h'
    have e := toList_replaceKids i [] ks
    simp only [e]
    simp

/-- No Conv1D is left exactly when no Conv1D is the same object as an earlier child of
the same module; a model that is itself a Conv1D is returned as it is. -/
theorem C200_no_conv (m : Mod α) :
    (m.isConv = false →
      ((∀ x ∈ full "" (replace m), x.2.isConv = false) ↔ SiblingsDistinct m)) ∧
    (m.isConv = true → replace m = m) := by
  refine ⟨noConv_replace "" m, ?_⟩
  cases m <;> simp [Mod.isConv, replace]

/-- In a model without shared modules, asking for the names of the Linear layers after
the replacement gives exactly the former Linear and Conv1D layers, in order. -/
theorem C200_layers (m : Mod α) (hu : Unshared m) (ho : AllOld m) (hn : NamesDistinct m)
    (hc : m.isConv = false) :
    findLayers (replace m) "Linear" "name" =
      .ok (.names (((full "" m).filter fun x => x.2.isLinear || x.2.isConv).map Prod.fst)) := by
  have hu' : (idents m).Nodup := by rw [← full_idents ""]; exact hu
  have ho' : ∀ x ∈ idents m, ∃ n, x = .old n := by
    intro x hx
    rw [← full_idents "" m, List.mem_map] at hx
    obtain ⟨y, hy, rfl⟩ := hx
    exact ho y hy
  have hnd := idents_replace_nodup m hu' ho' hn
  have hw := walk_full [] "" (replace m) (by simpa using hnd)
  have hl := linear_replace "" m hc (siblings_of_unshared m hu')
  simp only [findLayers, select, if_true, hw, List.filter_filter]
  rw [← hl]
  have : ∀ x : String × Mod α, (x.2.isLinear && (x.2.isLinear || x.2.isNorm || x.2.isEmbedding)) =
      x.2.isLinear := by
    intro x
    cases x.2.isLinear <;> simp
  simp [this]

/-- Without the replacement only the layers that already were Linear are named. -/
theorem C200_layers_before (m : Mod α) (hu : Unshared m) :
    findLayers m "Linear" "name" =
      .ok (.names (((full "" m).filter fun x => x.2.isLinear).map Prod.fst)) := by
  have hu' : (idents m).Nodup := by rw [← full_idents ""]; exact hu
  have hw := walk_full [] "" m (by simpa using hu')
  simp only [findLayers, select, if_true, hw, List.filter_filter]
  have : ∀ x : String × Mod α, (x.2.isLinear && (x.2.isLinear || x.2.isNorm || x.2.isEmbedding)) =
      x.2.isLinear := by
    intro x
    cases x.2.isLinear <;> simp
  simp [this]

/-- For every model, shared modules or not: embeddings are never listed, the two other
kinds are those asked for, the three forms of the answer agree, and any other
`layer_type` or `return_type` is a `ValueError`. -/
theorem C200_find (m : Mod α) (lt rt : String) :
    (∀ e, findLayers m lt rt = .error e → e = .valueError) ∧
    ((∃ o, findLayers m lt rt = .ok o) ↔
      (lt ∈ ["Linear", "Linear_LayerNorm", "LayerNorm"] ∧
        rt ∈ ["instance", "name", "name_instance"])) ∧
    (lt ∈ ["Linear", "Linear_LayerNorm", "LayerNorm"] →
      ∃ l, findLayers m lt "name_instance" = .ok (.pairs l) ∧
        findLayers m lt "name" = .ok (.names (l.map Prod.fst)) ∧
        findLayers m lt "instance" = .ok (.instances (l.map Prod.snd)) ∧
        l = (walk [] "" m).2.filter fun x =>
          (x.2.isLinear && decide (lt ≠ "LayerNorm")) || (x.2.isNorm && decide (lt ≠ "Linear"))) := by
  have e1 : ∀ x : Mod α, (x.isLinear && (x.isLinear || x.isNorm || x.isEmbedding)) = x.isLinear := by
    intro x; cases x.isLinear <;> simp
  have e2 : ∀ x : Mod α, (x.isNorm && (x.isLinear || x.isNorm || x.isEmbedding)) = x.isNorm := by
    intro x; cases x.isNorm <;> simp
  have e3 : ∀ x : Mod α, ((x.isLinear || x.isNorm) && (x.isLinear || x.isNorm || x.isEmbedding)) =
      (x.isLinear || x.isNorm) := by
    intro x; cases x.isLinear <;> cases x.isNorm <;> simp
  refine ⟨?_, ?_, ?_⟩
  · intro e
    by_cases h1 : lt = "Linear" <;> by_cases h2 : lt = "Linear_LayerNorm" <;>
      by_cases h3 : lt = "LayerNorm" <;> by_cases r1 : rt = "instance" <;>
      by_cases r2 : rt = "name" <;> by_cases r3 : rt = "name_instance" <;>
      simp [findLayers, select, h1, h2, h3, r1, r2, r3] <;> exact fun h => h.symm
  · by_cases h1 : lt = "Linear" <;> by_cases h2 : lt = "Linear_LayerNorm" <;>
      by_cases h3 : lt = "LayerNorm" <;> by_cases r1 : rt = "instance" <;>
      by_cases r2 : rt = "name" <;> by_cases r3 : rt = "name_instance" <;>
      simp [findLayers, select, h1, h2, h3, r1, r2, r3]
  · intro h
    simp only [List.mem_cons, List.not_mem_nil, or_false] at h
    rcases h with rfl | rfl | rfl
    · refine ⟨_, ?_, ?_, ?_, rfl⟩ <;> simp [findLayers, select, List.filter_filter, e1]
    · refine ⟨_, ?_, ?_, ?_, rfl⟩ <;> simp [findLayers, select, List.filter_filter, e3]
    · refine ⟨_, ?_, ?_, ?_, rfl⟩ <;> simp [findLayers, select, List.filter_filter, e2]

/-- For every model, shared modules or not: what is listed stands in the model under that
name, and no object is listed twice. -/
theorem C200_once (m : Mod α) (lt : String) (l : List (String × Mod α))
    (h : findLayers m lt "name_instance" = .ok (.pairs l)) :
    (∀ x ∈ l, x ∈ full "" m) ∧ (l.map fun x => x.2.ident).Nodup := by
  obtain ⟨a, b, c⟩ := walk_inv [] "" m List.nodup_nil
  have hlt : lt ∈ ["Linear", "Linear_LayerNorm", "LayerNorm"] :=
    ((C200_find m lt "name_instance").2.1.1 ⟨_, h⟩).1
  obtain ⟨l', h', _, _, e⟩ := (C200_find m lt "name_instance").2.2 hlt
  rw [h] at h'
  injection h' with h'
  injection h' with h'
  subst h'
  rw [a] at b
  have hsub : List.Sublist l (walk [] "" m).2 := e ▸ List.filter_sublist
  exact ⟨fun x hx => c x (hsub.subset hx), List.Nodup.sublist (hsub.map _) (by simpa using b)⟩

/-! ## Examples -/

/-- A small transformer: an embedding, one block with two Conv1D, a Linear head. -/
def tiny : Mod ℤ :=
  .node (.old 0) (.cons "wte" (.leaf (.old 1) .embedding)
    (.cons "h" (.node (.old 2) (.cons "c_attn" (.conv (.old 3) 2 3 (fun i j => i + 2 * j) (fun _ => 1))
      (.cons "ln" (.leaf (.old 4) .layerNorm)
        (.cons "c_proj" (.conv (.old 5) 3 2 (fun i j => i - j) (fun j => j)) .nil))))
      (.cons "lm_head" (.linear (.old 6) 4 2 (fun i j => i * j) (fun _ => 0)) .nil)))

example : Unshared tiny ∧ NamesDistinct tiny ∧ tiny.isConv = false ∧ SiblingsDistinct tiny ∧
    AllOld tiny := by
  refine ⟨by simp [Unshared, tiny, full, fullKids, Mod.ident],
    by simp [NamesDistinct, NamesDistinctKids, tiny, Kids.toList], rfl,
    by simp [SiblingsDistinct, SiblingsDistinctKids, tiny, Kids.toList, Mod.isConv, Mod.ident], ?_⟩
  simp [AllOld, tiny, full, fullKids, Mod.ident]

example : findLayers (replace tiny) "Linear" "name" =
    .ok (.names ["h.c_attn", "h.c_proj", "lm_head"]) := by
  simp [tiny, replace, replaceKids, findLayers, select, walk, walkKids, Mod.isLinear, Mod.isNorm,
    Mod.isEmbedding, join, Mod.ident]

example : findLayers tiny "Linear" "name" = .ok (.names ["lm_head"]) := by
  simp [tiny, findLayers, select, walk, walkKids, Mod.isLinear, Mod.isNorm,
    Mod.isEmbedding, join]

/-- The same Conv1D under two names of one module: the second name keeps it. -/
example (w : ℕ → ℕ → ℤ) (b : ℕ → ℤ) :
    replace (.node (.old 0) (.cons "a" (.conv (.old 1) 2 3 w b)
      (.cons "b" (.conv (.old 1) 2 3 w b) .nil))) =
    .node (.old 0) (.cons "a" (.linear (.fresh (.old 0) "a") 3 2 (fun o k => w k o) b)
      (.cons "b" (.conv (.old 1) 2 3 w b) .nil)) := by
  simp [replace, replaceKids, Mod.ident]

/-- The same Conv1D in two modules: one module before, two separate ones afterwards. -/
example (w : ℕ → ℕ → ℤ) (b : ℕ → ℤ) :
    findLayers (replace (.node (.old 0)
      (.cons "a" (.node (.old 1) (.cons "c" (.conv (.old 3) 2 3 w b) .nil))
        (.cons "b" (.node (.old 2) (.cons "c" (.conv (.old 3) 2 3 w b) .nil)) .nil)))) "Linear" "name" =
      .ok (.names ["a.c", "b.c"]) := by
  simp [replace, replaceKids, findLayers, select, walk, walkKids, Mod.isLinear, Mod.isNorm,
    Mod.isEmbedding, join]

end Verif.Conv1D
