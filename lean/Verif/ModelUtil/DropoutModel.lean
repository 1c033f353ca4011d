import Mathlib.Data.List.Infix
import Mathlib.Data.Rat.Defs
import Verif.Base.Tensor

/-!
# Model of `dattri/model_util/dropout.py`
-/

namespace Verif.Dropout

/-- A submodule as listed by `named_modules()`: its dotted name, the name of its class, whether it is in training mode, and its dropout
probability if it has one. -/
structure Module where
  name : List Char
  cls : List Char
  training : Bool
  p : Option ℚ
  deriving DecidableEq

/-- `module.__class__.__name__.startswith("Dropout")` (dropout.py:46, 56). -/
def isDropout (m : Module) : Bool := "Dropout".toList.isPrefixOf m.cls

/-- `module.p = dropout_prob; module.train()` (dropout.py:47-48, 57-58). Simplified: a module whose class name starts with "Dropout" has no
submodules (`train()` would recurse). -/
def activate (prob : ℚ) (m : Module) : Module := { m with p := some prob, training := true }

/-- The inner loop over the given positions for one module (dropout.py:52-60). -/
def visit (prob : ℚ) (positions : List (List Char)) (m : Module) (invalid : List (List Char)) : Module × List (List Char) :=
  positions.foldl (fun (st : Module × List (List Char)) pos =>
    if pos <:+: st.1.name then
      if isDropout st.1 then (activate prob st.1, st.2) else (st.1, st.2 ++ [pos])
    else st) (m, invalid)

/-- The outer loop over the modules (dropout.py:51). -/
def visitAll (prob : ℚ) (positions : List (List Char)) : List Module → List (List Char) → List Module × List (List Char)
  | [], invalid => ([], invalid)
  | m :: ms, invalid =>
    let r := visit prob positions m invalid
    let rs := visitAll prob positions ms r.2
    (r.1 :: rs.1, rs.2)

/-- `activate_dropout` (dropout.py:15-68). The argument and the result list the modules of the model in traversal order, each once; the
modules are modified in place, also when the call raises. -/
def activateDropout (ms : List Module) (positions : Option (List (List Char))) (prob : ℚ) : List Module × Except Err Unit :=
  let evaluated := ms.map fun m => { m with training := false }
  let positions := positions.getD []
  if positions.length = 0 then (evaluated.map fun m => if isDropout m then activate prob m else m, .ok ())
  else
    let r := visitAll prob positions evaluated []
    (r.1, if r.2 ≠ [] then .error .valueError else .ok ())

/-! ## Specification and helper lemmas -/

/-- Specification: a dropout layer. -/
def Drops (m : Module) : Prop := ∃ rest, m.cls = ['D', 'r', 'o', 'p', 'o', 'u', 't'] ++ rest

/-- Specification: one of the positions occurs in the name. -/
def Named (positions : List (List Char)) (m : Module) : Prop := ∃ pos ∈ positions, ∃ a b, m.name = a ++ pos ++ b

/-- Specification: `m'` is `m` with active dropout of probability `prob`, or `m` in evaluation mode with its probability unchanged. -/
def Result (prob : ℚ) (active : Prop) (m m' : Module) : Prop :=
  m'.name = m.name ∧ m'.cls = m.cls ∧ (active → m'.training = true ∧ m'.p = some prob) ∧ (¬ active → m'.training = false ∧ m'.p = m.p)

lemma isDropout_iff (m : Module) : isDropout m = true ↔ Drops m := by
  unfold isDropout Drops
  rw [List.isPrefixOf_iff_prefix]
  exact ⟨fun ⟨t, h⟩ => ⟨t, h.symm⟩, fun ⟨t, h⟩ => ⟨t, h.symm⟩⟩

lemma infix_iff (pos name : List Char) : pos <:+: name ↔ ∃ a b, name = a ++ pos ++ b :=
  ⟨fun ⟨a, b, h⟩ => ⟨a, b, h.symm⟩, fun ⟨a, b, h⟩ => ⟨a, b, h.symm⟩⟩

lemma visit_drop (prob : ℚ) (positions : List (List Char)) (m : Module) (inv : List (List Char)) (h : isDropout m = true) :
    visit prob positions m inv = (if ∃ pos ∈ positions, pos <:+: m.name then activate prob m else m, inv) := by
  unfold visit
  induction positions generalizing m with
  | nil => simp
  | cons q qs ih =>
    rw [List.foldl_cons]
    by_cases hq : q <:+: m.name
    · simp only [hq, if_true, h]
      rw [ih (activate prob m) h]
      have : activate prob (activate prob m) = activate prob m := rfl
      rw [this, ite_self, if_pos ⟨q, List.mem_cons_self, hq⟩]
    · simp only [hq, if_false]
      rw [ih m h]
      congr 2
      simp [hq]

lemma visit_other (prob : ℚ) (positions : List (List Char)) (m : Module) (inv : List (List Char)) (h : isDropout m = false) :
    visit prob positions m inv = (m, inv ++ positions.filter fun pos => decide (pos <:+: m.name)) := by
  unfold visit
  induction positions generalizing inv with
  | nil => simp
  | cons q qs ih =>
    rw [List.foldl_cons]
    by_cases hq : q <:+: m.name
    · simp only [hq, if_true, h, Bool.false_eq_true, if_false]
      rw [ih, List.filter_cons, if_pos (by simpa using hq), List.append_assoc]
      rfl
    · simp only [hq, if_false]
      rw [ih, List.filter_cons, if_neg (by simpa using hq)]

lemma visitAll_spec (prob : ℚ) (positions : List (List Char)) (ms : List Module) (inv : List (List Char)) :
    (visitAll prob positions ms inv).1 =
      ms.map (fun m => if isDropout m = true ∧ ∃ pos ∈ positions, pos <:+: m.name then activate prob m else m) ∧
    ((visitAll prob positions ms inv).2 = [] ↔ inv = [] ∧ ∀ m ∈ ms, isDropout m = true ∨ ∀ pos ∈ positions, ¬ pos <:+: m.name) := by
  induction ms generalizing inv with
  | nil => simp [visitAll]
  | cons m ms ih =>
    unfold visitAll
    simp only
    cases h : isDropout m with
    | true =>
      rw [visit_drop prob positions m inv h]
      refine ⟨?_, ?_⟩
      · rw [(ih _).1, List.map_cons]; simp [h]
      · rw [(ih _).2]; simp [h]
    | false =>
      rw [visit_other prob positions m inv h]
      refine ⟨?_, ?_⟩
      · rw [(ih _).1, List.map_cons]; simp [h]
      · rw [(ih _).2, List.append_eq_nil_iff, List.filter_eq_nil_iff, List.forall_mem_cons, h]
        simp only [decide_eq_true_eq, Bool.false_eq_true, false_or]
        tauto

lemma isDropout_eval (m : Module) : isDropout { m with training := false } = isDropout m := rfl

lemma forall2_map {α β : Type} {R : α → β → Prop} {f : α → β} (l : List α) (h : ∀ a ∈ l, R a (f a)) : List.Forall₂ R l (l.map f) := by
  induction l with
  | nil => exact .nil
  | cons a l ih => exact .cons (h a List.mem_cons_self) (ih fun b hb => h b (List.mem_cons_of_mem _ hb))

end Verif.Dropout
