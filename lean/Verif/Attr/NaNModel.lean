import Mathlib.Data.Option.NAry
import Mathlib.LinearAlgebra.Matrix.NonsingularInverse

/-! # Gradients that are not numbers (`dattri/algorithm/influence_function.py`, `tracin.py`, `trak.py`, `dattri/func/hessian.py`)

A sample whose loss overflows or divides zero by zero has NaN entries in its gradient.  `torch.nan_to_num` replaces them in
TracIn and TRAK, nothing does in the influence functions. -/

namespace Verif.NaN

/-- Floating point numbers as far as the influence functions need them: the operations, and that NaN in an operand gives NaN.
Nothing else is assumed (not even what a division by zero gives). -/
structure Arith (F : Type) where
  zero : F
  ofNat : ℕ → F
  add : F → F → F
  sub : F → F → F
  mul : F → F → F
  div : F → F → F
  isNaN : F → Prop
  add_left : ∀ a b, isNaN a → isNaN (add a b)
  add_right : ∀ a b, isNaN b → isNaN (add a b)
  sub_left : ∀ a b, isNaN a → isNaN (sub a b)
  sub_right : ∀ a b, isNaN b → isNaN (sub a b)
  mul_left : ∀ a b, isNaN a → isNaN (mul a b)
  mul_right : ∀ a b, isNaN b → isNaN (mul a b)
  div_left : ∀ a b, isNaN a → isNaN (div a b)
  div_right : ∀ a b, isNaN b → isNaN (div a b)

variable {F : Type} (A : Arith F)

/-- `torch.dot`, or an entry of `@`. -/
def dot (a b : List F) : F := (List.zipWith A.mul a b).foldl A.add A.zero

/-- Sum of two vectors. -/
def addV (a b : List F) : List F := List.zipWith A.add a b

/-- Number times vector. -/
def smul (x : F) (a : List F) : List F := a.map (A.mul x)

/-- `hvp_at_x`, hessian.py:443-449: the product with the Hessian of the loss on one batch plus `regularization * v`.
Simplified: the Hessian is given by its rows. -/
def hvp (reg : F) (H : List (List F)) (v : List F) : List F := List.zipWith (fun row x => A.add (dot A row v) (A.mul reg x)) H v

/-- One iteration, hessian.py:477-485, on `(ihvp_res, g_pre, d)` (`d_pre` always equals `g_pre`). -/
def cgStep (reg : F) (H : List (List F)) (s : List F × List F × List F) : List F × List F × List F :=
  let ad := hvp A reg H s.2.2
  let alpha := A.div (dot A s.2.1 s.2.1) (dot A s.2.2 ad)
  let res := addV A s.1 (smul A alpha s.2.2)
  let g := List.zipWith A.sub s.2.1 (smul A alpha ad)
  let beta := A.div (dot A g g) (dot A s.2.1 s.2.1)
  (res, g, addV A g (smul A beta s.2.2))

/-- `_cg`, hessian.py:466-486. -/
def cg (reg : F) (iters : ℕ) (H : List (List F)) (v : List F) : List F :=
  let g := List.zipWith A.sub v (hvp A reg H v)
  ((cgStep A reg H)^[iters] (v, g, g)).1

/-- `_lissa_loop`, hessian.py:900-919: the Hessians of the batches drawn in each repetition. -/
def lissaRep (oneMinusDamping scaling : F) (draws : List (List (List F))) (v : List F) : List F :=
  let cur := draws.foldl (fun cur H => List.zipWith A.sub (addV A v (smul A oneMinusDamping cur))
    ((hvp A A.zero H cur).map fun x => A.div x scaling)) v
  cur.map fun x => A.div x scaling

/-- The mean over the repetitions, hessian.py:919. -/
def lissa (oneMinusDamping scaling : F) (reps : List (List (List (List F)))) (v : List F) : List F :=
  ((reps.map fun draws => lissaRep A oneMinusDamping scaling draws v).foldl (addV A) (List.replicate v.length A.zero)).map
    fun x => A.div x (A.ofNat reps.length)

/-- `_get_layer_wise_reps`, influence_function.py:844-852. -/
def split : List ℕ → List F → List (List F)
  | [], _ => []
  | n :: ns, v => v.take n :: split ns (v.drop n)

/-- `_transform_single_test_rep`, influence_function.py:782-784. -/
def dataInfOne (reg : F) (v g : List F) : List F :=
  let coef := A.div (dot A v g) (A.add reg (dot A g g))
  (List.zipWith A.sub v (smul A coef g)).map fun x => A.div x reg

/-- One layer, influence_function.py:799-820 (the batches only group the sum). -/
def dataInfLayer (reg : F) (gs : List (List F)) (v : List F) : List F :=
  ((gs.map (dataInfOne A reg v)).foldl (addV A) (List.replicate v.length A.zero)).map fun x => A.div x (A.ofNat gs.length)

/-- `transform_test_rep` of DataInf, influence_function.py:786-821. -/
def dataInf (reg : F) (sizes : List ℕ) (cached : List (List F)) (v : List F) : List F :=
  (List.zipWith (fun l vl => dataInfLayer A reg (cached.map fun g => (split sizes g).getD l []) vl)
    (List.range sizes.length) (split sizes v)).flatten

/-- What the attributors see of a checkpoint: gradients of training and test samples, and the data the transformation uses. -/
structure Ckpt (F : Type) where
  train : ℕ → List F
  test : ℕ → List F
  trans : List F → List F

/-- The transformation of the CG attributor, influence_function.py:245-275: the results of the batches of the full training set
are added. -/
def transCG (reg : F) (iters : ℕ) (batches : List (List (List F))) (v : List F) : List F :=
  (batches.map fun H => cg A reg iters H v).foldl (addV A) (List.replicate v.length A.zero)

/-- Entry `(i, j)` of `attribute`, base.py:334-452, without RelatIF: `tda_output` starts with zeros, is multiplied by the index of
the checkpoint, gets the product and is divided.  Simplified: one entry, the positions are the subject of other properties. -/
def entry (ckpts : List (Ckpt F)) (i j : ℕ) : F :=
  (ckpts.zipIdx.foldl (fun t c => A.div (A.add (A.mul t (A.ofNat c.2)) (dot A (c.1.train i) (c.1.trans (c.1.test j))))
    (A.ofNat (c.2 + 1))) A.zero)

/-! ## TracIn and TRAK: exact numbers and NaN -/

variable {K : Type} [Field K]

/-- `torch.nan_to_num` (infinite values are not modelled). -/
def clean : Option K → K
  | none => 0
  | some x => x

/-- A checkpoint for TracIn: weight, projection and gradients. -/
structure TCkpt (K : Type) (p q : ℕ) where
  weight : K
  proj : (Fin p → K) → Fin q → K
  train : ℕ → Fin p → Option K
  test : ℕ → Fin p → Option K

/-- Product of two vectors with NaN. -/
def odot {q : ℕ} (a b : Fin q → Option K) : Option K :=
  ((List.finRange q).map fun k : Fin q => Option.map₂ (· * ·) (a k) (b k)).foldl (Option.map₂ (· + ·)) (some 0)

/-- Entry `(i, j)` of TracIn, tracin.py:104-258: the gradients are cleaned, projected, divided by their norm if asked
(`scale`, one otherwise) and multiplied. -/
def tracin {p q : ℕ} (scale : (Fin q → K) → K) (ckpts : List (TCkpt K p q)) (i j : ℕ) : Option K :=
  ckpts.foldl (fun t c =>
    let g := c.proj fun k => clean (c.train i k)
    let h := c.proj fun k => clean (c.test j k)
    Option.map₂ (· + ·) t (Option.map₂ (· * ·)
      (odot (fun k => some (g k / scale g)) fun k => some (h k / scale h)) (some c.weight))) (some 0)

/-- A checkpoint for TRAK with `n` training samples: projection, gradients and one minus the probabilities. -/
structure KCkpt (K : Type) (n p q : ℕ) where
  proj : (Fin p → K) → Fin q → K
  train : Fin n → Fin p → Option K
  test : ℕ → Fin p → Option K
  Q : Fin n → Option K

/-- The row of test sample `j` for one checkpoint, trak.py:297-377: gradients cleaned, divided by `norm_scaler` and projected; the
kernel is taken to be invertible. -/
noncomputable def trakRow {n p q : ℕ} (ns reg : K) (c : KCkpt K n p q) (j : ℕ) : Fin n → K :=
  let X : Matrix (Fin n) (Fin q) K := Matrix.of fun i => c.proj fun k => clean (c.train i k) / ns
  let y := c.proj fun k => clean (c.test j k) / ns
  Matrix.vecMul y ((X.transpose * X + Matrix.diagonal fun _ => reg)⁻¹ * X.transpose)

/-- The running means, trak.py:235-390, on `(running_xinv_XTX_XT, running_Q)` at one position. -/
noncomputable def trakStep {n p q : ℕ} (ns reg : K) (i : Fin n) (j : ℕ) (s : K × Option K) (c : KCkpt K n p q × ℕ) : K × Option K :=
  ((s.1 * (c.2 : K) + trakRow ns reg c.1 j i) / ((c.2 + 1 : ℕ) : K),
    Option.map₂ (· / ·) (Option.map₂ (· + ·) (Option.map₂ (· * ·) s.2 (some (c.2 : K))) (c.1.Q i)) (some ((c.2 + 1 : ℕ) : K)))

/-- Entry `(i, j)` of TRAK, trak.py:391-392. -/
noncomputable def trak {n p q : ℕ} (ns reg : K) (ckpts : List (KCkpt K n p q)) (i : Fin n) (j : ℕ) : Option K :=
  let s := ckpts.zipIdx.foldl (trakStep ns reg i j) (0, some 0)
  Option.map₂ (· * ·) (some s.1) s.2

end Verif.NaN
