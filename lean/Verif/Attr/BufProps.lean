import Mathlib.Algebra.BigOperators.Group.List.Basic
import Mathlib.Tactic.Abel
import Mathlib.Tactic.Linarith
import Mathlib.Tactic.Module
import Verif.Attr.BufModel

/-!
# C223: what attribution leaves in the gradient buffers of the model
-/

namespace Verif.GradBuf

open Verif

variable {P V : Type} [AddCommGroup V] [Module ℝ V]

/-! ## Specification -/

/-- The number a buffer stands for: nothing accumulated is 0. -/
def value (b : Buf P V) (p : P) : V := (b p).getD 0

/-- The gradient of a batch's (mean) loss: the sum over all uses of the parameter. -/
def grad (x : Batch P V) (p : P) : V :=
  match x.uses with
  | .ok u => ((u p).map Prod.snd).sum
  | .error _ => 0

/-- The forward pass of the batch works. -/
def Works (x : Batch P V) : Prop := ∃ u, x.uses = .ok u

/-- The batches that EK-FAC uses: the first `max_iter`; all if none is given, or if it is not positive. -/
def used (maxIter : Option ℤ) (l : List (Batch P V)) : List (Batch P V) :=
  match maxIter with
  | none => l
  | some k => if 0 < k then l.take k.toNat else l

/-- The sum over batches of size times gradient. -/
def total (l : List (Batch P V)) (p : P) : V := (l.map fun x => (x.size : ℝ) • grad x p).sum

/-- The uses of a parameter outside hooked layers in a batch. -/
def outside (x : Batch P V) (p : P) : List V :=
  match x.uses with
  | .ok u => ((u p).filter fun s => !s.1).map Prod.snd
  | .error _ => []

/-- All uses. -/
def allUses (x : Batch P V) (p : P) : List V :=
  match x.uses with
  | .ok u => (u p).map Prod.snd
  | .error _ => []

/-- An event is the user's. -/
def Op.isUser : Op P V → Bool
  | .userZero | .userBackward _ | .userStep => true
  | _ => false

/-- Programs in which, after attributor calls, the next event of the user is `zero_grad()`. -/
def Tidy : Bool → List (Op P V) → Prop
  | _, [] => True
  | _, .userZero :: ops => Tidy false ops
  | dirty, .userBackward _ :: ops => dirty = false ∧ Tidy false ops
  | dirty, .userStep :: ops => dirty = false ∧ Tidy false ops
  | dirty, .functional :: ops => Tidy dirty ops
  | _, .ekfac _ _ :: ops => Tidy true ops
  | _, .block _ :: ops => Tidy true ops
  | _, .factors _ :: ops => Tidy true ops

/-! ## EK-FAC -/

theorem accumulate_flat (tr : P → Bool) (n : ℕ) (u : P → List (Bool × V)) (b : Buf P V) (p : P) :
    accumulate (flatGrad tr n u) b p =
      if tr p then some (value b p + (n : ℝ) • ((u p).map Prod.snd).sum) else b p := by
  unfold accumulate flatGrad value
  by_cases h : tr p
  · simp only [h, if_true]
    cases b p <;> simp
  · simp only [h]
    rfl

theorem loop_works (tr : P → Bool) (k : ℤ) (l : List (Batch P V)) : ∀ (i : ℕ) (b : Buf P V), (∀ x ∈ l, Works x) →
    ekfacLoop tr k i l b = (fun p => if tr p ∧ (if (i : ℤ) < k then l.take (k - i).toNat else l) ≠ [] then
      some (value b p + total (if (i : ℤ) < k then l.take (k - i).toNat else l) p) else b p, .ok ()) := by
  induction l with
  | nil =>
    intro i b _
    simp only [ekfacLoop]
    congr 1
    funext p
    simp
  | cons x xs ih =>
    intro i b hw
    obtain ⟨u, hu⟩ := hw x (by simp)
    have hxs : ∀ y ∈ xs, Works y := fun y hy => hw y (by simp [hy])
    have hg : ∀ p, grad x p = ((u p).map Prod.snd).sum := fun p => by simp only [grad, hu]
    simp only [ekfacLoop, hu]
    by_cases hk : (i : ℤ) = k - 1
    · rw [if_pos hk]
      congr 1
      funext p
      have h1 : (i : ℤ) < k := by omega
      have h2 : (k - i).toNat = 1 := by omega
      rw [accumulate_flat, if_pos h1, h2]
      simp [total, hg]
    · rw [if_neg hk, ih (i + 1) _ hxs]
      congr 1
      funext p
      by_cases h1 : (i : ℤ) < k
      · have h2 : ((i + 1 : ℕ) : ℤ) < k := by push_cast; omega
        obtain ⟨j, hj⟩ : ∃ j : ℕ, (k - i).toNat = j + 1 := ⟨(k - i).toNat - 1, by omega⟩
        have h3 : (k - ((i + 1 : ℕ) : ℤ)).toNat = j := by push_cast; omega
        rw [if_pos h1, if_pos h2, h3, hj, List.take_succ_cons]
        rw [accumulate_flat]
        by_cases ht : tr p
        · by_cases he : xs.take j = []
          · simp [ht, he, total, hg]
          · simp [ht, he, total, hg, value, accumulate_flat]
            abel
        · simp [ht]
      · have h2 : ¬ ((i + 1 : ℕ) : ℤ) < k := by push_cast; omega
        rw [if_neg h1, if_neg h2]
        rw [accumulate_flat]
        by_cases ht : tr p
        · by_cases he : xs = []
          · simp [ht, he, total, hg]
          · simp [ht, he, total, hg, value, accumulate_flat]
            abel
        · simp [ht]

omit [AddCommGroup V] [Module ℝ V] in
theorem used_eq (k : Option ℤ) (l : List (Batch P V)) :
    (if ((0 : ℕ) : ℤ) < k.getD l.length then l.take (k.getD l.length - ((0 : ℕ) : ℤ)).toNat else l) = used k l := by
  cases k with
  | none =>
    simp only [used, Option.getD_none]
    split_ifs <;> simp
  | some k => simp [used]

/-- **EK-FAC's `cache` adds to the buffers**: twice the sum over the batches used of batch size times gradient of the target, for every trainable
parameter; and nothing for frozen ones or without batches. -/
theorem C223_ekfac (tr : P → Bool) (k : Option ℤ) (l : List (Batch P V)) (b : Buf P V) (hw : ∀ x ∈ l, Works x) (p : P) :
    (ekfacCache tr k l b).2 = .ok () ∧
    (ekfacCache tr k l b).1 p =
      if tr p ∧ used k l ≠ [] then some (value b p + (2 : ℝ) • total (used k l) p) else b p := by
  simp only [ekfacCache, loop_works tr _ l 0 _ hw, used_eq]
  refine ⟨trivial, ?_⟩
  by_cases h : tr p ∧ used k l ≠ []
  · simp only [if_pos h, value, Option.getD_some]
    congr 1
    rw [two_smul]
    abel
  · simp only [if_neg h]

/-- Caching `n` times adds `2 n` times the sum. -/
theorem C223_ekfac_repeated (tr : P → Bool) (k : Option ℤ) (l : List (Batch P V)) (b : Buf P V) (hw : ∀ x ∈ l, Works x) (n : ℕ) (p : P)
    (hp : tr p) (hu : used k l ≠ []) :
    value ((fun b => (ekfacCache tr k l b).1)^[n] b) p = value b p + (2 * n : ℝ) • total (used k l) p := by
  induction n with
  | zero => simp
  | succ n ih =>
    rw [Function.iterate_succ_apply', value, (C223_ekfac tr k l _ hw p).2, if_pos ⟨hp, hu⟩, Option.getD_some, ih]
    push_cast
    module

/-- For a target that is a mean over the samples, the sum over batches of size times gradient is the sum of the samples' gradients. -/
theorem C223_ekfac_mean (l : List (Batch P V)) (p : P) (sample : Batch P V → ℕ → V)
    (hm : ∀ x ∈ l, grad x p = (x.size : ℝ)⁻¹ • ((List.range x.size).map (sample x)).sum) :
    total l p = (l.map fun x => ((List.range x.size).map (sample x)).sum).sum := by
  rw [total]
  congr 1
  apply List.map_congr_left
  intro x hx
  rw [hm x hx]
  by_cases h : x.size = 0
  · simp [h]
  · rw [smul_smul, mul_inv_cancel₀ (by exact_mod_cast h), one_smul]

theorem loop_fails (tr : P → Bool) (k : ℤ) (l : List (Batch P V)) (x : Batch P V) (r : List (Batch P V)) (e : Err) (hx : x.uses = .error e) :
    ∀ (i : ℕ) (b : Buf P V), (∀ y ∈ l, Works y) → (k ≤ i ∨ i + l.length < k) →
    ekfacLoop tr k i (l ++ x :: r) b = (fun p => if tr p ∧ l ≠ [] then some (value b p + total l p) else b p, .error e) := by
  induction l with
  | nil =>
    intro i b _ _
    simp [ekfacLoop, hx]
  | cons y ys ih =>
    intro i b hw hk
    obtain ⟨u, hu⟩ := hw y (by simp)
    have hg : ∀ p, grad y p = ((u p).map Prod.snd).sum := fun p => by simp only [grad, hu]
    have hne : ¬ (i : ℤ) = k - 1 := by
      simp only [List.length_cons] at hk
      push_cast at hk
      omega
    simp only [List.cons_append, ekfacLoop, hu, if_neg hne]
    rw [ih (i + 1) _ (fun z hz => hw z (by simp [hz])) (by simp only [List.length_cons] at hk; push_cast at hk ⊢; omega)]
    congr 1
    funext p
    rw [accumulate_flat]
    by_cases ht : tr p
    · by_cases he : ys = []
      · simp [ht, he, total, hg]
      · simp [ht, he, total, hg, value, accumulate_flat]
        abel
    · simp [ht]

/-- If the forward pass of a batch raises in the first pass, the gradients of the batches before it remain, once. -/
theorem C223_ekfac_fails (tr : P → Bool) (k : Option ℤ) (l r : List (Batch P V)) (x : Batch P V) (e : Err) (b : Buf P V)
    (hw : ∀ y ∈ l, Works y) (hx : x.uses = .error e) (hk : ∀ m, k = some m → m ≤ 0 ∨ (l.length : ℤ) < m) :
    ekfacCache tr k (l ++ x :: r) b =
      (fun p => if tr p ∧ l ≠ [] then some (value b p + total l p) else b p, .error e) := by
  have := loop_fails tr (k.getD (l ++ x :: r).length) l x r e hx 0 b hw (by
    cases k with
    | none => right; simp only [Option.getD_none, List.length_append, List.length_cons]; push_cast; omega
    | some m =>
      rcases hk m rfl with h | h
      · left; simpa using h
      · right; simpa using h)
  simp only [ekfacCache]
  rw [this]

/-! ## The block-projected attributor and DVEmb -/

omit [Module ℝ V] in
theorem accumulate_zero (g b : Buf P V) : accumulate g (zeroGrad b) = g := by
  funext p
  simp only [accumulate, zeroGrad]
  cases g p <;> rfl

/-- What a batch leaves after the block-projected attributor: frozen parameters and those used in hooked layers only have no gradient, others the part
of the gradient through unhooked uses. -/
def left (tr : P → Bool) (x : Batch P V) (p : P) : Option V :=
  if tr p ∧ outside x p ≠ [] then some (outside x p).sum else none

/-- What a batch leaves after recording factors: the batch size times the gradient, for trainable parameters that are used. -/
def leftFactors (tr : P → Bool) (x : Batch P V) (p : P) : Option V :=
  if tr p ∧ allUses x p ≠ [] then some ((x.size : ℝ) • (allUses x p).sum) else none

omit [Module ℝ V] in
theorem reach_out (tr : P → Bool) (x : Batch P V) (u : P → List (Bool × V)) (hu : x.uses = .ok u) :
    reach tr (fun hooked => !hooked) u = left tr x := by
  funext p
  simp only [reach, left, outside, hu]
  by_cases ht : tr p
  · simp only [ht, if_true, true_and]
    cases h : (u p).filter fun s => !s.1 with
    | nil => simp
    | cons a as => simp
  · simp [ht]

theorem reach_all (tr : P → Bool) (x : Batch P V) (u : P → List (Bool × V)) (hu : x.uses = .ok u) :
    (fun p => (reach tr (fun _ => true) u p).map fun v => (x.size : ℝ) • v) = leftFactors tr x := by
  funext p
  simp only [reach, leftFactors, allUses, hu, List.filter_true]
  by_cases ht : tr p
  · simp only [ht, if_true, true_and]
    cases h : u p with
    | nil => simp
    | cons a as => simp
  · simp [ht]

/-- **The block-projected attributor replaces the buffers**: whatever was accumulated is lost, and what the last batch leaves remains. -/
theorem C223_block (tr : P → Bool) (l : List (Batch P V)) (x : Batch P V) (hw : ∀ y ∈ l ++ [x], Works y) (b : Buf P V) :
    blockLoop tr (l ++ [x]) b = (left tr x, .ok ()) := by
  induction l generalizing b with
  | nil =>
    obtain ⟨u, hu⟩ := hw x (by simp)
    simp only [List.nil_append, blockLoop, hu, accumulate_zero, reach_out tr x u hu]
  | cons y ys ih =>
    obtain ⟨u, hu⟩ := hw y (by simp)
    simp only [List.cons_append, blockLoop, hu]
    exact ih (fun z hz => hw z (by simp only [List.cons_append, List.mem_cons]; exact Or.inr hz)) _

omit [Module ℝ V] in
/-- A call that raises in the forward pass of a batch leaves no gradients at all. -/
theorem C223_block_fails (tr : P → Bool) (l r : List (Batch P V)) (x : Batch P V) (e : Err) (hw : ∀ y ∈ l, Works y) (hx : x.uses = .error e)
    (b : Buf P V) : blockLoop tr (l ++ x :: r) b = (fun _ => none, .error e) := by
  induction l generalizing b with
  | nil => simp only [List.nil_append, blockLoop, hx]; rfl
  | cons y ys ih =>
    obtain ⟨u, hu⟩ := hw y (by simp)
    simp only [List.cons_append, blockLoop, hu]
    exact ih (fun z hz => hw z (by simp [hz])) _

/-- The same for gradient factors of DVEmb, with the full gradient times the batch size. -/
theorem C223_factors (tr : P → Bool) (l : List (Batch P V)) (x : Batch P V) (hw : ∀ y ∈ l ++ [x], Works y) (b : Buf P V) :
    factorLoop tr (l ++ [x]) b = (leftFactors tr x, .ok ()) := by
  induction l generalizing b with
  | nil =>
    obtain ⟨u, hu⟩ := hw x (by simp)
    simp only [List.nil_append, factorLoop, hu, accumulate_zero, reach_all tr x u hu]
  | cons y ys ih =>
    obtain ⟨u, hu⟩ := hw y (by simp)
    simp only [List.cons_append, factorLoop, hu]
    exact ih (fun z hz => hw z (by simp only [List.cons_append, List.mem_cons]; exact Or.inr hz)) _

/-- Without batches nothing changes. -/
theorem C223_no_batches (tr : P → Bool) (k : Option ℤ) (b : Buf P V) :
    (ekfacCache tr k [] b).1 = b ∧ (blockLoop tr [] b).1 = b ∧ (factorLoop tr [] b).1 = b := ⟨rfl, rfl, rfl⟩

/-! ## In the user's training -/

theorem tidy_sim (tr : P → Bool) (ops : List (Op P V)) : ∀ (dirty : Bool) (b b' : Buf P V), Tidy dirty ops → (dirty = false → b = b') →
    steps tr ops b = steps tr (ops.filter Op.isUser) b' := by
  induction ops with
  | nil => intros; rfl
  | cons o ops ih =>
    intro dirty b b' ht hb
    cases o with
    | userZero => exact ih false _ _ ht fun _ => rfl
    | userBackward g =>
      obtain ⟨h1, h2⟩ := ht
      rw [hb h1]
      exact ih false _ _ h2 fun _ => rfl
    | userStep =>
      obtain ⟨h1, h2⟩ := ht
      rw [hb h1]
      simp only [List.filter_cons, Op.isUser, if_true, steps]
      rw [ih false _ _ h2 fun _ => rfl]
    | functional => exact ih dirty _ _ ht hb
    | ekfac k l => exact ih true _ _ ht fun h => by simp at h
    | block l => exact ih true _ _ ht fun h => by simp at h
    | factors l => exact ih true _ _ ht fun h => by simp at h

/-- **Training that clears first**: if, after attributor calls, the user's next operation is `zero_grad()`, every `step()` finds the gradients it would
find without the attributors. -/
theorem C223_tidy (tr : P → Bool) (ops : List (Op P V)) (b : Buf P V) (h : Tidy false ops) :
    steps tr ops b = steps tr (ops.filter Op.isUser) b :=
  tidy_sim tr ops false b b h fun _ => rfl

/-- **EK-FAC between `backward()` and `step()`**: the step is made with the gradient of the user's loss plus `2` times the sum over batches. -/
theorem C223_ekfac_before_step (tr : P → Bool) (k : Option ℤ) (l : List (Batch P V)) (hw : ∀ x ∈ l, Works x) (hu : used k l ≠ [])
    (g b : Buf P V) : steps tr [.userZero, .userBackward g, .ekfac k l, .userStep] b =
      [fun p => if tr p then some (value g p + (2 : ℝ) • total (used k l) p) else g p] := by
  simp only [steps, apply, accumulate_zero]
  congr 1
  funext p
  rw [(C223_ekfac tr k l g hw p).2]
  simp [hu]

/-- **Block-projected attribution between `backward()` and `step()`**: the step is made with what the attributor's last batch left, whatever the user's
loss. -/
theorem C223_block_before_step (tr : P → Bool) (l : List (Batch P V)) (x : Batch P V) (hw : ∀ y ∈ l ++ [x], Works y) (g b : Buf P V) :
    steps tr [.userZero, .userBackward g, .block (l ++ [x]), .userStep] b = [left tr x] := by
  simp only [steps, apply, C223_block tr l x hw]

/-- The condition is needed: if EK-FAC's sum is not 0 for a trainable parameter, the step finds another gradient than without it. -/
theorem C223_needed (tr : P → Bool) (k : Option ℤ) (l : List (Batch P V)) (hw : ∀ x ∈ l, Works x) (p : P) (hp : tr p)
    (hne : total (used k l) p ≠ 0) (g b : Buf P V) :
    steps tr [.userZero, .userBackward g, .ekfac k l, .userStep] b ≠ steps tr [.userZero, .userBackward g, .userStep] b := by
  have hu : used k l ≠ [] := fun h => hne (by rw [h]; simp [total])
  rw [C223_ekfac_before_step tr k l hw hu]
  intro h
  simp only [steps, apply, accumulate_zero, List.cons.injEq, and_true] at h
  have h1 := congrFun h p
  simp only [hp, if_true] at h1
  have h2 : value g p + (2 : ℝ) • total (used k l) p = value g p := by
    conv_rhs => rw [value, ← h1]
    rfl
  have h3 : (2 : ℝ) • total (used k l) p = 0 := by simpa using h2
  rcases smul_eq_zero.mp h3 with h4 | h4
  · norm_num at h4
  · exact hne h4

/-! ## Cases -/

/-- Two batches of 3 and 1 samples with one parameter used twice in the first (once in a hooked layer) and once, hooked, in the second. -/
def sampleBatches : List (Batch Unit ℝ) := [⟨3, .ok fun _ => [(true, 1), (false, 2)]⟩, ⟨1, .ok fun _ => [(true, 5)]⟩]

example : ∀ x ∈ sampleBatches, Works x := by
  intro x hx
  simp only [sampleBatches, List.mem_cons, List.not_mem_nil, or_false] at hx
  rcases hx with h | h <;> exact ⟨_, by rw [h]⟩

example : (ekfacCache (fun _ => true) none sampleBatches (fun _ => some 7)).1 () = some 35 := by
  rw [(C223_ekfac _ none sampleBatches _ (by
    intro x hx
    simp only [sampleBatches, List.mem_cons, List.not_mem_nil, or_false] at hx
    rcases hx with h | h <;> exact ⟨_, by rw [h]⟩) ()).2]
  simp [used, sampleBatches, total, grad, value]
  norm_num

/-- `max_iter=1` uses the first batch, `max_iter=0` both. -/
example : (used (some 1) sampleBatches).length = 1 ∧ (used (some 0) sampleBatches).length = 2 ∧ (used (some (-3)) sampleBatches).length = 2 := by
  simp [used, sampleBatches]

/-- After the block-projected attributor the parameter of the last batch has no gradient. -/
example : (blockLoop (fun _ => true) sampleBatches (fun _ => some 7)).1 () = none := by
  simp [blockLoop, sampleBatches, reach, accumulate, zeroGrad]

/-- A program to which the theorem on clearing applies. -/
example (g : Buf Unit ℝ) : Tidy false
    [.ekfac none sampleBatches, .block sampleBatches, .userZero, .functional, .userBackward g, .functional, .userStep] := by
  simp [Tidy]

end Verif.GradBuf
