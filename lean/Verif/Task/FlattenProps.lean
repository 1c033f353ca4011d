import Mathlib.Tactic.NormNum
import Mathlib.Tactic.Ring
import Verif.Task.FlattenModel

/-!
# C33: flattening and unflattening parameters
-/

namespace Verif.Task

variable {N R : Type}

/-- The dictionary belongs to the model: same names and shapes in the same order as the trainable parameters, and well formed tensors. -/
def Matches (model : List (PInfo N)) (g : List (N × Tens R)) : Prop :=
  g.map (fun p => (p.1, p.2.shape)) = (model.filter (·.requiresGrad)).map (fun p => (p.name, p.shape)) ∧
    ∀ p ∈ g, p.2.data.length = p.2.shape.prod

/-- Total number of trainable scalars. -/
def total (model : List (PInfo N)) : ℕ := ((model.filter (·.requiresGrad)).map (fun p => p.shape.prod)).sum

lemma vecLoop_eq (g : List (N × Tens R)) : ∀ (arr : List R) (p : ℕ), p + (g.map (fun p => p.2.numel)).sum = arr.length →
    vecLoop arr p g = arr.take p ++ (g.map (fun p => p.2.data)).flatten := by
  induction g with
  | nil => intro arr p h; simp only [List.map_nil, List.sum_nil, add_zero] at h; simp [vecLoop, h]
  | cons a g ih =>
    intro arr p h
    obtain ⟨n, t⟩ := a
    simp only [List.map_cons, List.sum_cons] at h
    have hp : (arr.take p).length = p := by rw [List.length_take]; omega
    unfold vecLoop
    rw [ih]
    · have : (arr.take p ++ t.data ++ arr.drop (p + t.numel)).take (p + t.numel) = arr.take p ++ t.data := by
        apply List.take_left'
        simp [hp, Tens.numel]
      rw [this]; simp
    · simp only [List.length_append, hp, List.length_drop, Tens.numel] at *
      omega

/-- `flatten_params` concatenates the entries of all tensors, whatever the uninitialised memory held. -/
lemma flattenParams_eq (junk : ℕ → List R) (hj : ∀ n, (junk n).length = n) (g : List (N × Tens R)) (hg : g ≠ []) :
    flattenParams junk g = .ok (g.map (fun p => p.2.data)).flatten := by
  unfold flattenParams
  rw [if_neg (by simpa using hg), vecLoop_eq _ _ _ (by rw [hj]; simp)]
  simp

lemma unflattenGen_flatten (ps : List (PInfo N)) : ∀ (g : List (N × Tens R)) (pre suf : List R),
    g.map (fun p => (p.1, p.2.shape)) = ps.map (fun p => (p.name, p.shape)) → (∀ p ∈ g, p.2.data.length = p.2.shape.prod) →
    unflattenGen (pre ++ (g.map (fun p => p.2.data)).flatten ++ suf) pre.length ps = .ok g := by
  induction ps with
  | nil => intro g pre suf h _; simp only [List.map_nil, List.map_eq_nil_iff] at h; subst h; rfl
  | cons p ps ih =>
    intro g pre suf h hw
    cases g with
    | nil => simp at h
    | cons a g =>
      obtain ⟨n, t⟩ := a
      simp only [List.map_cons, List.cons.injEq, Prod.mk.injEq] at h
      obtain ⟨⟨rfl, hs⟩, h⟩ := h
      have ht := hw (p.name, t) (by simp)
      simp only at ht
      have h1 : ((pre ++ (((p.name, t) :: g).map (fun p => p.2.data)).flatten ++ suf).drop pre.length).take p.shape.prod = t.data := by
        simp only [List.map_cons, List.flatten_cons, List.append_assoc, List.drop_left]
        apply List.take_left'
        rw [ht, hs]
      have h2 : pre ++ (((p.name, t) :: g).map (fun p => p.2.data)).flatten ++ suf =
          (pre ++ t.data) ++ (g.map (fun p => p.2.data)).flatten ++ suf := by simp
      have h3 : pre.length + p.shape.prod = (pre ++ t.data).length := by simp [ht, hs]
      unfold unflattenGen
      rw [h1, h3, h2, ih g _ suf h (fun q hq => hw q (by simp [hq]))]
      rw [show reshape t.data p.shape = .ok t from by
        unfold reshape
        rw [if_pos (by rw [ht, hs]), ← hs]]
      rfl

/-- **C33** (round trip 1). Flattening the parameters and unflattening them with the model's shapes restores every named tensor exactly. -/
theorem C33_unflatten_flatten (junk : ℕ → List R) (hj : ∀ n, (junk n).length = n) (model : List (PInfo N)) (g : List (N × Tens R))
    (hg : g ≠ []) (hm : Matches model g) :
    (flattenParams junk g >>= fun v => unflattenParams v model) = .ok g := by
  rw [flattenParams_eq junk hj g hg]
  have := unflattenGen_flatten (model.filter (·.requiresGrad)) g [] [] hm.1 hm.2
  simpa [bind, Except.bind, unflattenParams] using this

lemma unflattenGen_ok (v : List R) (ps : List (PInfo N)) : ∀ i,
    (i + (ps.map (fun p => p.shape.prod)).sum ≤ v.length →
      ∃ g, unflattenGen v i ps = .ok g ∧ g.map (fun p => (p.1, p.2.shape)) = ps.map (fun p => (p.name, p.shape)) ∧
        (∀ p ∈ g, p.2.data.length = p.2.shape.prod) ∧
        (g.map (fun p => p.2.data)).flatten = (v.drop i).take (ps.map (fun p => p.shape.prod)).sum) ∧
    (v.length < i + (ps.map (fun p => p.shape.prod)).sum → i ≤ v.length → unflattenGen v i ps = .error .runtimeError) := by
  induction ps with
  | nil => intro i; refine ⟨fun _ => ⟨[], rfl, rfl, by simp, by simp⟩, fun h h' => ?_⟩; simp at h; omega
  | cons p ps ih =>
    intro i
    obtain ⟨ih1, ih2⟩ := ih (i + p.shape.prod)
    simp only [List.map_cons, List.sum_cons]
    constructor
    · intro h
      obtain ⟨g, h1, h2, h3, h4⟩ := ih1 (by omega)
      have hl : ((v.drop i).take p.shape.prod).length = p.shape.prod := by simp; omega
      refine ⟨(p.name, ⟨p.shape, (v.drop i).take p.shape.prod⟩) :: g, ?_, ?_, ?_, ?_⟩
      · unfold unflattenGen reshape; rw [if_pos hl, h1]; rfl
      · simp [h2]
      · intro q hq
        rcases List.mem_cons.1 hq with rfl | hq
        · exact hl
        · exact h3 q hq
      · simp only [List.map_cons, List.flatten_cons, h4]
        rw [List.take_add, List.drop_drop]
    · intro h hi
      unfold unflattenGen reshape
      by_cases hc : i + p.shape.prod ≤ v.length
      · rw [if_pos (by simp; omega), ih2 (by omega) hc]; rfl
      · rw [if_neg (by simp; omega)]; rfl

/-- **C33** (round trip 2). Unflattening a vector succeeds iff it has at least as many entries as the trainable parameters, and flattening
the result gives back the first `total` entries (the whole vector when the length is exactly right; extra entries are silently ignored);
a shorter vector is a `RuntimeError`. -/
theorem C33_flatten_unflatten (junk : ℕ → List R) (hj : ∀ n, (junk n).length = n) (model : List (PInfo N)) (v : List R)
    (hne : ∃ p ∈ model, p.requiresGrad = true) :
    (total model ≤ v.length → ∃ g, unflattenParams v model = .ok g ∧ Matches model g ∧ flattenParams junk g = .ok (v.take (total model))) ∧
    (v.length < total model → unflattenParams v model = .error .runtimeError) := by
  obtain ⟨h1, h2⟩ := unflattenGen_ok v (model.filter (·.requiresGrad)) 0
  constructor
  · intro h
    obtain ⟨g, a, b, c, d⟩ := h1 (by simpa [total] using h)
    refine ⟨g, a, ⟨b, c⟩, ?_⟩
    have hg : g ≠ [] := by
      rintro rfl
      obtain ⟨p, hp, hr⟩ := hne
      simp only [List.map_nil] at b
      have : p ∈ model.filter (·.requiresGrad) := List.mem_filter.2 ⟨hp, hr⟩
      rw [eq_comm, List.map_eq_nil_iff] at b
      rw [b] at this; simp at this
    rw [flattenParams_eq junk hj g hg, d]
    simp [total]
  · intro h; exact h2 (by simpa [total] using h) (Nat.zero_le _)

lemma layerwise_eq (ps : List (PInfo N)) : ∀ (g : List (N × Tens R)) (extra : List (List R)),
    g.map (fun p => (p.1, p.2.shape)) = ps.map (fun p => (p.name, p.shape)) → (∀ p ∈ g, p.2.data.length = p.2.shape.prod) →
    layerwiseGen (g.map (fun p => p.2.data) ++ extra) ps = .ok g := by
  induction ps with
  | nil =>
    intro g extra h _
    simp only [List.map_nil, List.map_eq_nil_iff] at h; subst h
    unfold layerwiseGen
    rfl
  | cons p ps ih =>
    intro g extra h hw
    cases g with
    | nil => simp at h
    | cons a g =>
      obtain ⟨n, t⟩ := a
      simp only [List.map_cons, List.cons.injEq, Prod.mk.injEq] at h
      obtain ⟨⟨rfl, hs⟩, h⟩ := h
      have ht := hw (p.name, t) (by simp)
      simp only at ht
      simp only [List.map_cons, List.cons_append]
      unfold layerwiseGen
      rw [ih g extra h (fun q hq => hw q (by simp [hq]))]
      rw [show reshape t.data p.shape = .ok t from by
        unfold reshape
        rw [if_pos (by rw [ht, hs]), ← hs]]
      rfl

/-- **C33** (functions). A function of the parameter dictionary, wrapped by `flatten_func`, gives on the flattened vector and on the tuple
of flattened tensors the same result (or exception) as the original function on the dictionary. -/
theorem C33_flatten_func {O : Type} (junk : ℕ → List R) (hj : ∀ n, (junk n).length = n) (model : List (PInfo N))
    (g : List (N × Tens R)) (hg : g ≠ []) (hm : Matches model g) (function : List (N × Tens R) → Except Err O) :
    (flattenParams junk g >>= fun v => flattenFunc model function (.flat v)) = function g ∧
    flattenFunc model function (.tuple (g.map (fun p => p.2.data))) = function g := by
  constructor
  · have h := C33_unflatten_flatten junk hj model g hg hm
    rw [flattenParams_eq junk hj g hg] at h ⊢
    simp only [bind, Except.bind] at h
    simp only [flattenFunc, bind, Except.bind, h]
  · have h := layerwise_eq (model.filter (·.requiresGrad)) g [] hm.1 hm.2
    rw [List.append_nil] at h
    simp only [flattenFunc, unflattenLayerwise, h, bind, Except.bind]

/-- A two-layer model with a frozen parameter in between. -/
def exModel : List (PInfo ℕ) := [⟨0, [2, 2], true⟩, ⟨1, [3], false⟩, ⟨2, [], true⟩]
/-- Its parameters. -/
def exDict : List (ℕ × Tens ℤ) := [(0, ⟨[2, 2], [1, 2, 3, 4]⟩), (2, ⟨[], [7]⟩)]
example : Matches exModel exDict := by refine ⟨by decide, by decide⟩
example : flattenParams (fun n => List.replicate n 99) exDict = .ok [1, 2, 3, 4, 7] := by decide
example : unflattenParams [1, 2, 3, 4, 7, 8] exModel = .ok exDict := by decide
example : unflattenParams [1, 2, 3, 4] exModel = .error .runtimeError := by decide
example : total exModel = 5 ∧ ∃ p ∈ exModel, p.requiresGrad = true := by decide

end Verif.Task
