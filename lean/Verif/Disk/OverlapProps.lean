import Verif.Disk.OverlapModel
import Mathlib.Data.List.Basic
import Mathlib.Tactic.Linarith

/-!
# C176: iterating over stored gradients with transfers to the device

The caller may stop after any batch, so statements are about all beginnings of a trace.
-/

namespace Verif.Disk.Overlap

open Verif

variable {α : Type}

/-! ### Specification -/

/-- The batches handed out in a trace. -/
def handed (l : List (Ev α)) : List α := l.filterMap fun | .yield x => some x | _ => none

/-- The batches whose transfer was started in a trace. -/
def started (l : List (Ev α)) : List α := l.filterMap fun | .transfer x => some x | _ => none

/-- The batches whose transfer the current stream has waited for: those started before the last wait. -/
def arrived (l : List (Ev α)) : List α :=
  (l.foldl (fun (st : List α × List α) e => match e with
    | .transfer x => (st.1 ++ [x], st.2)
    | .wait => (st.1, st.1)
    | .yield _ => st) ([], [])).2

/-! ### Helper lemmas -/

theorem rest_handed (fails : Option Err) : ∀ (xs : List α) (cur : α),
    handed (rest fails cur xs).1 = (if fails.isSome then (cur :: xs).dropLast else cur :: xs) ∧ (rest fails cur xs).2 = fails ∧
    started (rest fails cur xs).1 = xs := by
  intro xs
  induction xs with
  | nil => intro cur; cases fails <;> simp [rest, handed, started]
  | cons y ys ih =>
    intro cur
    obtain ⟨h1, h2, h3⟩ := ih y
    refine ⟨?_, h2, ?_⟩
    · have : handed (rest fails cur (y :: ys)).1 = cur :: handed (rest fails y ys).1 := rfl
      rw [this, h1]
      split_ifs <;> simp
    · have : started (rest fails cur (y :: ys)).1 = y :: started (rest fails y ys).1 := rfl
      rw [this, h3]

/-- The state of the two streams along a trace: started and waited for. -/
def streams (l : List (Ev α)) (st : List α × List α) : List α × List α :=
  l.foldl (fun (st : List α × List α) e => match e with
    | .transfer x => (st.1 ++ [x], st.2)
    | .wait => (st.1, st.1)
    | .yield _ => st) st

theorem arrived_eq (l : List (Ev α)) : arrived l = (streams l ([], [])).2 := rfl

/-- Along the loop: at each hand-over everything started has arrived, and it is what was handed out so far, this batch, and the next one if there is one. -/
theorem rest_yield (fails : Option Err) : ∀ (xs : List α) (cur : α) (pre : List α) (w : List α) (a : List (Ev α)) (x : α) (b : List (Ev α)),
    (rest fails cur xs).1 = a ++ .yield x :: b →
    (streams a (pre ++ [cur], w)).2 = (streams a (pre ++ [cur], w)).1 ∧
    (streams a (pre ++ [cur], w)).1 = (pre ++ cur :: xs).take (pre.length + (handed a).length + 2) ∧
    (cur :: xs)[(handed a).length]? = some x := by
  intro xs
  induction xs with
  | nil =>
    intro cur pre w a x b h
    cases fails with
    | some e => simp [rest] at h
    | none =>
      simp only [rest] at h
      rcases a with _ | ⟨e1, _ | ⟨e2, a⟩⟩
      · simp at h
      · simp only [List.cons_append, List.nil_append, List.cons.injEq, Ev.yield.injEq] at h
        obtain ⟨rfl, rfl, -⟩ := h
        simp [streams, handed, List.take_of_length_le]
      · simp at h
  | cons y ys ih =>
    intro cur pre w a x b h
    simp only [rest] at h
    rcases a with _ | ⟨e1, _ | ⟨e2, _ | ⟨e3, a⟩⟩⟩
    · simp at h
    · simp at h
    · simp only [List.cons_append, List.nil_append, List.cons.injEq, Ev.yield.injEq] at h
      obtain ⟨rfl, rfl, rfl, -⟩ := h
      refine ⟨rfl, ?_, rfl⟩
      have : pre ++ cur :: y :: ys = (pre ++ [cur] ++ [y]) ++ ys := by simp
      rw [this, List.take_append_of_le_length (by simp [handed]), List.take_of_length_le (by simp [handed])]
      rfl
    · simp only [List.cons_append, List.cons.injEq] at h
      obtain ⟨rfl, rfl, rfl, h⟩ := h
      obtain ⟨h1, h2, h3⟩ := ih y (pre ++ [cur]) (pre ++ [cur] ++ [y]) a x b h
      have hs : streams (.transfer y :: .wait :: .yield cur :: a) (pre ++ [cur], w) = streams a (pre ++ [cur] ++ [y], pre ++ [cur] ++ [y]) := rfl
      have hh : handed (.transfer y :: .wait :: .yield cur :: a) = cur :: handed a := rfl
      rw [hs, hh]
      refine ⟨h1, ?_, ?_⟩
      · rw [h2]
        simp only [List.append_assoc, List.cons_append, List.nil_append, List.length_append, List.length_cons, List.length_nil]
        congr 1
        omega
      · simpa using h3

/-! ### The property -/

/-- **C176** (order).  Whatever the device, the batches are handed out once each and in order.  If the underlying loader raises after some batches, the
exception reaches the caller; without transfers after all batches read so far, with transfers one batch earlier: the last batch read is lost. -/
theorem C176_order (stream : Bool) (device : String) (s : Source α) :
    (iterate stream device s).2 = s.fails ∧
    (s.fails = none → handed (iterate stream device s).1 = s.items) ∧
    (s.fails ≠ none → stream = false ∨ device = "cpu" → handed (iterate stream device s).1 = s.items) ∧
    (s.fails ≠ none → stream = true → device ≠ "cpu" → handed (iterate stream device s).1 = s.items.dropLast) := by
  have plain : ∀ l : List α, handed (l.map .yield) = l := by
    intro l
    induction l with
    | nil => rfl
    | cons x l ih =>
      have : handed ((x :: l).map Ev.yield) = x :: handed (l.map .yield) := rfl
      rw [this, ih]
  unfold iterate
  by_cases h : (!stream || device == "cpu") = true
  · rw [if_pos h]
    refine ⟨rfl, fun _ => plain _, fun _ _ => plain _, fun _ h1 h2 => ?_⟩
    simp [h1, h2] at h
  · rw [if_neg h]
    have h' : stream = true ∧ device ≠ "cpu" := by simpa using h
    obtain ⟨items, fails⟩ := s
    cases items with
    | nil =>
      refine ⟨rfl, fun _ => rfl, fun _ _ => rfl, fun _ _ _ => rfl⟩
    | cons x xs =>
      obtain ⟨h1, h2, -⟩ := rest_handed fails xs x
      have e : handed (.transfer x :: (rest fails x xs).1) = handed (rest fails x xs).1 := rfl
      refine ⟨h2, fun hf => ?_, fun _ h3 => ?_, fun hf _ _ => ?_⟩
      · simp only at hf; subst hf
        rw [e, h1]; simp
      · rcases h3 with h3 | h3
        · rw [h'.1] at h3; cases h3
        · exact absurd h3 h'.2
      · rw [e, h1, if_pos (Option.isSome_iff_ne_none.2 hf)]

/-- **C176** (complete batches; disagreement on the overlap).  With transfers, when a batch is handed out the current stream has waited for its transfer:
all transfers started so far have arrived, those of the batches handed out before, of this batch and of the next one if there is one.  So no transfer ever
runs while the caller uses a batch, and at most two batches that were not handed out before are on the device. -/
theorem C176_ready (device : String) (hd : device ≠ "cpu") (s : Source α) (a : List (Ev α)) (x : α) (b : List (Ev α))
    (h : (iterate true device s).1 = a ++ .yield x :: b) :
    s.items[(handed a).length]? = some x ∧ arrived a = started a ∧ started a = s.items.take ((handed a).length + 2) ∧ x ∈ arrived a := by
  unfold iterate at h
  rw [if_neg (by simpa using hd)] at h
  have hstart : ∀ (l : List (Ev α)) (st : List α × List α), (streams l st).1 = st.1 ++ started l := by
    intro l
    induction l with
    | nil => intro st; simp [streams, started]
    | cons e l ih =>
      intro st
      cases e with
      | transfer y =>
        have : streams (.transfer y :: l) st = streams l (st.1 ++ [y], st.2) := rfl
        rw [this, ih]
        simp [started]
      | wait =>
        have : streams (.wait :: l) st = streams l (st.1, st.1) := rfl
        rw [this, ih]
        simp [started]
      | yield y =>
        have : streams (.yield y :: l) st = streams l st := rfl
        rw [this, ih]
        simp [started]
  obtain ⟨items, fails⟩ := s
  cases items with
  | nil => simp at h
  | cons y ys =>
    cases a with
    | nil => simp at h
    | cons e a =>
      simp only [List.cons_append, List.cons.injEq] at h
      obtain ⟨rfl, h⟩ := h
      obtain ⟨h1, h2, h3⟩ := rest_yield fails ys y [] [] a x b h
      simp only [List.nil_append, List.length_nil, Nat.zero_add] at h1 h2
      have hs : streams (.transfer y :: a) ([], []) = streams a ([y], []) := rfl
      have hh : handed (.transfer y :: a) = handed a := rfl
      have e1 : started (.transfer y :: a) = (streams a ([y], [])).1 := by
        rw [hstart]; rfl
      have e2 : arrived (.transfer y :: a) = (streams a ([y], [])).2 := by rw [arrived_eq, hs]
      rw [hh, e1, e2]
      refine ⟨h3, h1, h2, ?_⟩
      rw [h1, h2]
      apply List.mem_of_getElem? (i := (handed a).length)
      rw [List.getElem?_take_of_lt (by omega), h3]

/-- **C176** (when there are transfers).  Batches are transferred exactly when CUDA is available and the device is not the CPU, whether or not the caller
gave a stream of their own: then each batch is, in order, otherwise none is. -/
theorem C176_transfers (cuda given : Bool) (device : String) (s : Source α) :
    started (iterate (hasStream cuda given) device s).1 = (if cuda = true ∧ device ≠ "cpu" then s.items else []) := by
  have plain : ∀ l : List α, started (l.map .yield) = [] := by
    intro l
    induction l with
    | nil => rfl
    | cons x l ih =>
      have : started ((x :: l).map Ev.yield) = started (l.map .yield) := rfl
      rw [this, ih]
  unfold iterate hasStream
  cases cuda with
  | false => simp [plain]
  | true =>
    by_cases hd : device = "cpu"
    · simp [hd, plain]
    · rw [if_neg (by simpa using hd), if_pos ⟨rfl, hd⟩]
      obtain ⟨items, fails⟩ := s
      cases items with
      | nil => rfl
      | cons x xs =>
        have : started (.transfer x :: (rest fails x xs).1) = x :: started (rest fails x xs).1 := rfl
        simp only [this, (rest_handed fails xs x).2.2]

/-- Three batches: the second is handed out after the third has arrived, too. -/
example : (iterate true "cuda" (⟨[1, 2, 3], none⟩ : Source ℕ)).1 =
    [.transfer 1, .transfer 2, .wait, .yield 1, .transfer 3, .wait, .yield 2, .wait, .yield 3] := by decide

/-- The third chunk cannot be read: on the CPU two batches are seen, on the GPU one. -/
example : handed (iterate false "cpu" (⟨[1, 2], some .runtimeError⟩ : Source ℕ)).1 = [1, 2] ∧
    handed (iterate true "cuda" (⟨[1, 2], some .runtimeError⟩ : Source ℕ)).1 = [1] := by decide

end Verif.Disk.Overlap
