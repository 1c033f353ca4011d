import Verif.DVEmb.FactorProps
import Verif.Projection.NormalProps

/-!
# C169: the projected gradients of DVEmb over the random draw
-/

namespace Verif.DVEmb

open Verif.Projection MeasureTheory ProbabilityTheory Finset Matrix

variable {n din dout k : ℕ}

/-! ### Specification -/

/-- Two samples whose activations have the same number of dimensions. -/
def SameRank {a b : ℕ} : Factors ℝ a b → Factors ℝ a b → Prop
  | .two _ _, .two _ _ => True
  | .three _, .three _ => True
  | _, _ => False

/-- The inner product of two matrices. -/
def inner {a b : ℕ} (X Y : Matrix (Fin a) (Fin b) ℝ) : ℝ := ∑ o, ∑ i, X o i * Y o i

/-- A generator which on the seed of the attributor draws the normal matrix `G` for the dimension of a square layer (a projector's matrix is the draw divided by the
root of the projected dimension, `C168_projector`). -/
def Draws (gen : PType → ℕ → (d k : ℕ) → Matrix (Fin k) (Fin d) ℝ) (seed : ℕ) (G : Fin n × Fin k → ℝ) : Prop :=
  ∀ r i, gen .normal seed n k r i = G (i, r) / Real.sqrt k

/-! ### Helper lemmas -/

/-- Independent columns. -/
lemma mean_indep {ι : Type} [Fintype ι] [DecidableEq ι] {a b : ℕ} (p : Fin a → ι) (q : Fin b → ι) (hp : Function.Injective p) (hq : Function.Injective q)
    (hpq : ∀ o i, p o ≠ q i) (X Y : Matrix (Fin a) (Fin b) ℝ) :
    ∫ G : ι → ℝ, (∑ o, ∑ i, X o i * (G (p o) * G (q i))) * (∑ o, ∑ i, Y o i * (G (p o) * G (q i))) ∂(gauss ι) = inner X Y := by
  rw [(mean_forms p q X Y).2]
  refine sum_congr rfl fun o _ => sum_congr rfl fun i _ => ?_
  simp [hpq, hp.eq_iff, hq.eq_iff]

/-- Columns of the same matrix. -/
lemma mean_same (r s : Fin k) (X Y : Matrix (Fin n) (Fin n) ℝ) :
    ∫ G : Fin n × Fin k → ℝ, (∑ o, ∑ i, X o i * (G (o, r) * G (i, s))) * (∑ o, ∑ i, Y o i * (G (o, r) * G (i, s))) ∂(gauss (Fin n × Fin k)) =
      inner X Y + if r = s then X.trace * Y.trace + inner X Yᵀ else 0 := by
  rw [(mean_forms (fun o => (o, r)) (fun i => (i, s)) X Y).2]
  simp only [Prod.mk.injEq, and_true]
  by_cases h : r = s
  · subst h
    simp only [and_true, if_true, mul_add, sum_add_distrib]
    have e1 : ∑ o, ∑ i, ∑ o', ∑ i', X o i * Y o' i' * ((if o = i then (1 : ℝ) else 0) * (if o' = i' then 1 else 0)) = X.trace * Y.trace := by
      simp only [Matrix.trace, diag_apply, sum_mul_sum]
      refine sum_congr rfl fun o _ => ?_
      rw [Finset.sum_eq_single o]
      · refine sum_congr rfl fun o' _ => ?_
        simp
      · intro i _ hi
        simp [Ne.symm hi]
      · simp
    have e2 : ∑ o, ∑ i, ∑ o', ∑ i', X o i * Y o' i' * ((if o = o' then (1 : ℝ) else 0) * (if i = i' then 1 else 0)) = inner X Y := by
      refine sum_congr rfl fun o _ => sum_congr rfl fun i _ => ?_
      simp
    have e3 : ∑ o, ∑ i, ∑ o', ∑ i', X o i * Y o' i' * ((if o = i' then (1 : ℝ) else 0) * (if i = o' then 1 else 0)) = inner X Yᵀ := by
      refine sum_congr rfl fun o _ => sum_congr rfl fun i _ => ?_
      simp
    rw [e1, e2, e3]
    ring
  · simp only [h, Ne.symm h, and_false, if_false, zero_mul, zero_add, add_zero]
    refine sum_congr rfl fun o _ => sum_congr rfl fun i _ => ?_
    simp

lemma kron_dot {a b : ℕ} (Pa : Matrix (Fin k) (Fin a) ℝ) (Pb : Matrix (Fin k) (Fin b) ℝ) (f g : Factors ℝ a b) (h : SameRank f g) :
    kronecker Pa Pb f ⬝ᵥ kronecker Pa Pb g =
      ∑ r, ∑ s, (∑ o, ∑ i, gradW f o i * (Pb r o * Pa s i)) * ∑ o, ∑ i, gradW g o i * (Pb r o * Pa s i) := by
  have e2 : ∀ (x : Fin a → ℝ) (y : Fin b → ℝ) (p : Fin k × Fin k), kronecker Pa Pb (.two x y) p =
      ∑ o, ∑ i, gradW (.two x y) o i * (Pb p.1 o * Pa p.2 i) := by
    intro x y p
    rw [C55_dvemb_2d]
    simp only [mulVec, dotProduct, kroneckerMap_apply, Fintype.sum_prod_type, flat]
    refine sum_congr rfl fun o _ => sum_congr rfl fun i _ => ?_
    ring
  have e3 : ∀ (l : List ((Fin a → ℝ) × (Fin b → ℝ))) (p : Fin k × Fin k), kronecker Pa Pb (.three l) p =
      ∑ o, ∑ i, gradW (.three l) o i * (Pb p.2 o * Pa p.1 i) := by
    intro l p
    rw [C55_dvemb_3d]
    simp only [mulVec, dotProduct, kroneckerMap_apply, Fintype.sum_prod_type, flat, transpose_apply]
    rw [sum_comm]
    refine sum_congr rfl fun o _ => sum_congr rfl fun i _ => ?_
    ring
  cases f with
  | two x y =>
    cases g with
    | two x' y' => simp only [dotProduct, Fintype.sum_prod_type, e2]
    | three l => exact h.elim
  | three l =>
    cases g with
    | two x y => exact h.elim
    | three l' =>
      simp only [dotProduct, Fintype.sum_prod_type, e3]
      rw [sum_comm]

lemma elem_dot {a b : ℕ} (c : ℝ) (Pa : Matrix (Fin k) (Fin a) ℝ) (Pb : Matrix (Fin k) (Fin b) ℝ) (f g : Factors ℝ a b) :
    elementwise c Pa Pb f ⬝ᵥ elementwise c Pa Pb g =
      c ^ 2 * ∑ r, (∑ o, ∑ i, gradW f o i * (Pb r o * Pa r i)) * ∑ o, ∑ i, gradW g o i * (Pb r o * Pa r i) := by
  simp only [dotProduct, elementwise_eq]
  rw [mul_sum]
  refine sum_congr rfl fun r _ => ?_
  have : ∀ h : Factors ℝ a b, ∑ o, ∑ i, Pb r o * Pa r i * gradW h o i = ∑ o, ∑ i, gradW h o i * (Pb r o * Pa r i) := fun h =>
    sum_congr rfl fun o _ => sum_congr rfl fun i _ => mul_comm _ _
  rw [this, this]
  ring

lemma scale_form {a b : ℕ} (X : Matrix (Fin a) (Fin b) ℝ) (u : Fin a → ℝ) (v : Fin b → ℝ) (k : ℕ) :
    ∑ o, ∑ i, X o i * (u o / Real.sqrt k * (v i / Real.sqrt k)) = (∑ o, ∑ i, X o i * (u o * v i)) / k := by
  rw [sum_div]
  refine sum_congr rfl fun o _ => ?_
  rw [sum_div]
  refine sum_congr rfl fun i _ => ?_
  rw [div_mul_div_comm, Real.mul_self_sqrt (Nat.cast_nonneg k), mul_div_assoc']

/-! ### C169 -/

/-- **C169** (Kronecker). A square layer: the input and the output projector of DVEmb get the same seed. Over the draw, the inner product of the projected gradients of
two samples has not the mean `⟨X, Y⟩` but also `(tr X tr Y + ⟨X, Yᵀ⟩) / k`. -/
theorem C169_kronecker (gen : (Fin n × Fin k → ℝ) → PType → ℕ → (d k : ℕ) → Matrix (Fin k) (Fin d) ℝ) (seed : ℕ) (hgen : ∀ G, Draws (gen G) seed G)
    (hk : 0 < k) (t : PType) (f g : Factors ℝ n n) (h : SameRank f g) :
    ∫ G, kronecker (setupProjectors (gen G) t seed k n n).1 (setupProjectors (gen G) t seed k n n).2 f ⬝ᵥ
      kronecker (setupProjectors (gen G) t seed k n n).1 (setupProjectors (gen G) t seed k n n).2 g ∂(Measure.pi fun _ => gaussianReal 0 1) =
      inner (gradW f) (gradW g) + ((gradW f).trace * (gradW g).trace + inner (gradW f) (gradW g)ᵀ) / k := by
  have hk' : (k : ℝ) ≠ 0 := by exact_mod_cast hk.ne'
  change ∫ G, _ ∂(gauss (Fin n × Fin k)) = _
  have hi : ∀ r s : Fin k, Integrable (fun G : Fin n × Fin k → ℝ => ((∑ o, ∑ i, gradW f o i * (G (o, r) * G (i, s))) *
      ∑ o, ∑ i, gradW g o i * (G (o, r) * G (i, s))) / ((k : ℝ) * k)) (gauss (Fin n × Fin k)) := fun r s =>
    (mean_forms (fun o => (o, r)) (fun i => (i, s)) (gradW f) (gradW g)).1.div_const _
  have hfun : (fun G => kronecker (setupProjectors (gen G) t seed k n n).1 (setupProjectors (gen G) t seed k n n).2 f ⬝ᵥ
      kronecker (setupProjectors (gen G) t seed k n n).1 (setupProjectors (gen G) t seed k n n).2 g) = fun G : Fin n × Fin k → ℝ =>
      ∑ r, ∑ s, ((∑ o, ∑ i, gradW f o i * (G (o, r) * G (i, s))) * ∑ o, ∑ i, gradW g o i * (G (o, r) * G (i, s))) / ((k : ℝ) * k) := by
    funext G
    rw [kron_dot _ _ f g h]
    refine sum_congr rfl fun r _ => sum_congr rfl fun s _ => ?_
    simp only [setupProjectors, hgen G r, hgen G s]
    rw [scale_form, scale_form, div_mul_div_comm]
  rw [hfun, integral_finsetSum _ fun r _ => integrable_finsetSum _ fun s _ => hi r s]
  have hr : ∀ r : Fin k, ∫ G, (∑ s, ((∑ o, ∑ i, gradW f o i * (G (o, r) * G (i, s))) * ∑ o, ∑ i, gradW g o i * (G (o, r) * G (i, s))) / ((k : ℝ) * k))
      ∂(gauss (Fin n × Fin k)) = (k * inner (gradW f) (gradW g) + ((gradW f).trace * (gradW g).trace + inner (gradW f) (gradW g)ᵀ)) / ((k : ℝ) * k) := by
    intro r
    rw [integral_finsetSum _ fun s _ => hi r s]
    simp only [integral_div, mean_same]
    rw [← sum_div, sum_add_distrib]
    simp
  simp only [hr, sum_const, card_univ, Fintype.card_fin, nsmul_eq_mul]
  field_simp

/-- **C169** (element-wise). With the element-wise product the mean is `⟨X, Y⟩ + tr X tr Y + ⟨X, Yᵀ⟩`, however large the projected dimension. -/
theorem C169_elementwise (gen : (Fin n × Fin k → ℝ) → PType → ℕ → (d k : ℕ) → Matrix (Fin k) (Fin d) ℝ) (seed : ℕ) (hgen : ∀ G, Draws (gen G) seed G)
    (hk : 0 < k) (t : PType) (f g : Factors ℝ n n) :
    ∫ G, elementwise (Real.sqrt k) (setupProjectors (gen G) t seed k n n).1 (setupProjectors (gen G) t seed k n n).2 f ⬝ᵥ
      elementwise (Real.sqrt k) (setupProjectors (gen G) t seed k n n).1 (setupProjectors (gen G) t seed k n n).2 g ∂(Measure.pi fun _ => gaussianReal 0 1) =
      inner (gradW f) (gradW g) + ((gradW f).trace * (gradW g).trace + inner (gradW f) (gradW g)ᵀ) := by
  have hk' : (k : ℝ) ≠ 0 := by exact_mod_cast hk.ne'
  change ∫ G, _ ∂(gauss (Fin n × Fin k)) = _
  have hfun : (fun G => elementwise (Real.sqrt k) (setupProjectors (gen G) t seed k n n).1 (setupProjectors (gen G) t seed k n n).2 f ⬝ᵥ
      elementwise (Real.sqrt k) (setupProjectors (gen G) t seed k n n).1 (setupProjectors (gen G) t seed k n n).2 g) = fun G : Fin n × Fin k → ℝ =>
      (∑ r, (∑ o, ∑ i, gradW f o i * (G (o, r) * G (i, r))) * ∑ o, ∑ i, gradW g o i * (G (o, r) * G (i, r))) / (k : ℝ) := by
    funext G
    rw [elem_dot, Real.sq_sqrt (Nat.cast_nonneg k), mul_sum, sum_div]
    refine sum_congr rfl fun r _ => ?_
    simp only [setupProjectors, hgen G r]
    rw [scale_form, scale_form]
    field_simp
  rw [hfun, integral_div, integral_finsetSum _ fun r _ => (mean_forms (fun o => (o, r)) (fun i => (i, r)) (gradW f) (gradW g)).1]
  simp only [mean_same, if_true, sum_const, card_univ, Fintype.card_fin, nsmul_eq_mul]
  field_simp

/-- The `k` columns of two independently drawn projectors, divided by the root of `k`. -/
abbrev Two (din dout k : ℕ) := (Fin din × Fin k) ⊕ (Fin dout × Fin k)

/-- The input projector. -/
noncomputable def indepIn (G : Two din dout k → ℝ) : Matrix (Fin k) (Fin din) ℝ := fun r i => G (.inl (i, r)) / Real.sqrt k

/-- The output projector. -/
noncomputable def indepOut (G : Two din dout k → ℝ) : Matrix (Fin k) (Fin dout) ℝ := fun r o => G (.inr (o, r)) / Real.sqrt k

/-- A pair of columns. -/
noncomputable def indepForm (X : Matrix (Fin dout) (Fin din) ℝ) (r s : Fin k) (G : Two din dout k → ℝ) : ℝ :=
  ∑ o, ∑ i, X o i * (G (.inr (o, r)) * G (.inl (i, s)))

lemma indepForm_mean (X Y : Matrix (Fin dout) (Fin din) ℝ) (r s : Fin k) :
    Integrable (fun G : Two din dout k → ℝ => indepForm X r s G * indepForm Y r s G) (gauss (Two din dout k)) ∧
    ∫ G : Two din dout k → ℝ, indepForm X r s G * indepForm Y r s G ∂(gauss (Two din dout k)) = inner X Y :=
  ⟨(mean_forms (ι := Two din dout k) (fun o => .inr (o, r)) (fun i => .inl (i, s)) X Y).1,
    mean_indep (ι := Two din dout k) (fun o => .inr (o, r)) (fun i => .inl (i, s)) (fun o o' h => by simpa using h) (fun i i' h => by simpa using h)
      (fun o i => by simp) X Y⟩

lemma indepForm_eq (X : Matrix (Fin dout) (Fin din) ℝ) (r s : Fin k) (G : Two din dout k → ℝ) :
    ∑ o, ∑ i, X o i * (indepOut G r o * indepIn G s i) = indepForm X r s G / k := by
  rw [indepForm, ← scale_form]
  rfl

/-- **C169** (independent projectors). If the two projectors were drawn independently, the inner products of Kronecker-projected gradients would have the mean
`⟨X, Y⟩`, for layers of any shape. -/
theorem C169_independent_kronecker (hk : 0 < k) (f g : Factors ℝ din dout) (h : SameRank f g) :
    ∫ G : Two din dout k → ℝ, kronecker (indepIn G) (indepOut G) f ⬝ᵥ kronecker (indepIn G) (indepOut G) g ∂(Measure.pi fun _ => gaussianReal 0 1) =
      inner (gradW f) (gradW g) := by
  have hk' : (k : ℝ) ≠ 0 := by exact_mod_cast hk.ne'
  change ∫ G, _ ∂(gauss (Two din dout k)) = _
  have hfun : (fun G : Two din dout k → ℝ => kronecker (indepIn G) (indepOut G) f ⬝ᵥ kronecker (indepIn G) (indepOut G) g) =
      fun G => ∑ r, ∑ s, indepForm (gradW f) r s G * indepForm (gradW g) r s G / ((k : ℝ) * k) := by
    funext G
    rw [kron_dot _ _ f g h]
    refine sum_congr rfl fun r _ => sum_congr rfl fun s _ => ?_
    rw [indepForm_eq, indepForm_eq, div_mul_div_comm]
  have hi : ∀ r s : Fin k, Integrable (fun G : Two din dout k → ℝ => indepForm (gradW f) r s G * indepForm (gradW g) r s G / ((k : ℝ) * k))
      (gauss (Two din dout k)) := fun r s => (indepForm_mean _ _ r s).1.div_const _
  rw [hfun, integral_finsetSum _ fun r _ => integrable_finsetSum _ fun s _ => hi r s]
  have hr : ∀ r : Fin k, ∫ G : Two din dout k → ℝ, (∑ s, indepForm (gradW f) r s G * indepForm (gradW g) r s G / ((k : ℝ) * k)) ∂(gauss (Two din dout k)) =
      inner (gradW f) (gradW g) / k := by
    intro r
    rw [integral_finsetSum _ fun s _ => hi r s]
    simp only [integral_div, (indepForm_mean _ _ _ _).2, sum_const, card_univ, Fintype.card_fin, nsmul_eq_mul]
    field_simp
  simp only [hr, sum_const, card_univ, Fintype.card_fin, nsmul_eq_mul]
  field_simp

/-- **C169** (independent projectors). The same for element-wise products. -/
theorem C169_independent_elementwise (hk : 0 < k) (f g : Factors ℝ din dout) :
    ∫ G : Two din dout k → ℝ, elementwise (Real.sqrt k) (indepIn G) (indepOut G) f ⬝ᵥ elementwise (Real.sqrt k) (indepIn G) (indepOut G) g
      ∂(Measure.pi fun _ => gaussianReal 0 1) = inner (gradW f) (gradW g) := by
  have hk' : (k : ℝ) ≠ 0 := by exact_mod_cast hk.ne'
  change ∫ G, _ ∂(gauss (Two din dout k)) = _
  have hfun : (fun G : Two din dout k → ℝ => elementwise (Real.sqrt k) (indepIn G) (indepOut G) f ⬝ᵥ elementwise (Real.sqrt k) (indepIn G) (indepOut G) g) =
      fun G => (∑ r, indepForm (gradW f) r r G * indepForm (gradW g) r r G) / (k : ℝ) := by
    funext G
    rw [elem_dot, Real.sq_sqrt (Nat.cast_nonneg k), mul_sum, sum_div]
    refine sum_congr rfl fun r _ => ?_
    rw [indepForm_eq, indepForm_eq]
    field_simp
  rw [hfun, integral_div, integral_finsetSum _ fun r _ => (indepForm_mean _ _ r r).1]
  simp only [(indepForm_mean _ _ _ _).2, sum_const, card_univ, Fintype.card_fin, nsmul_eq_mul]
  field_simp

/-- A generator as in the hypothesis exists. -/
example : ∃ gen : (Fin 2 × Fin 3 → ℝ) → PType → ℕ → (d k : ℕ) → Matrix (Fin k) (Fin d) ℝ, ∀ G, Draws (gen G) 7 G :=
  ⟨fun G _ _ d k r i => if h : (i : ℕ) < 2 ∧ (r : ℕ) < 3 then G (⟨i, h.1⟩, ⟨r, h.2⟩) / Real.sqrt k else 0, fun G r i => by
    dsimp only
    rw [dif_pos ⟨i.isLt, r.isLt⟩]⟩

/-- Orthogonal gradients whose element-wise projections have inner products with the mean 1 instead of 0. -/
example : let f : Factors ℝ 2 2 := .two ![1, 0] ![1, 0]
    let g : Factors ℝ 2 2 := .two ![0, 1] ![0, 1]
    inner (gradW f) (gradW g) = 0 ∧ (gradW f).trace * (gradW g).trace + inner (gradW f) (gradW g)ᵀ = 1 := by
  intro f g
  have hf : gradW f = !![1, 0; 0, 0] := by
    ext o i
    fin_cases o <;> fin_cases i <;> simp [f, gradW]
  have hg : gradW g = !![0, 0; 0, 1] := by
    ext o i
    fin_cases o <;> fin_cases i <;> simp [g, gradW]
  rw [hf, hg]
  simp [inner, Matrix.trace, Fin.sum_univ_two]

end Verif.DVEmb
