import Verif.BlockIF.IFProps
import Verif.DVEmb.FactorProps
import Verif.Projection.NormalProps
import Mathlib.Logic.Equiv.Fin.Basic

/-!
# C168: the mean of LoGra's scores over the random projections

`/repo/dattri/algorithm/logra.py` lines 76-117 configure the two sparsifiers of every layer as normal projections to `k` dimensions and the second stage as the
identity; the compressed gradients are those of `core/compressor.py` lines 140-210 (`Verif.DVEmb.compress`).
-/

namespace Verif.BlockIF

open Verif Verif.DVEmb Verif.Projection MeasureTheory ProbabilityTheory Finset Matrix

variable {L : ℕ} {din dout : Fin L → ℕ} {k : ℕ}

/-! ### Model -/

/-- The random numbers: one standard normal per layer, output feature and column, and one per layer, input feature and column. The sparsifiers' seeds are pairwise
distinct (`C68`), so their matrices are modelled as independent. -/
abbrev Noise (din dout : Fin L → ℕ) (k : ℕ) := (Σ l, Fin (dout l) × Fin k) ⊕ (Σ l, Fin (din l) × Fin k)

/-- The matrix applied to output gradients in layer `l` (compressor.py:323-335). -/
noncomputable def outMat (G : Noise din dout k → ℝ) (l : Fin L) : Matrix (Fin k) (Fin (dout l)) ℝ := fun r o => G (.inl ⟨l, o, r⟩) / Real.sqrt k

/-- The matrix applied to inputs in layer `l` (compressor.py:336-348). -/
noncomputable def inMat (G : Noise din dout k → ℝ) (l : Fin L) : Matrix (Fin k) (Fin (din l)) ℝ := fun r i => G (.inr ⟨l, i, r⟩) / Real.sqrt k

/-- The identity second stage on the flattened outer product (`outer_product.reshape(batch_size, -1)`, compressor.py:206-210). -/
def flatten (k : ℕ) : Matrix (Fin (k * k)) (Fin k × Fin k) ℝ := fun m p => if finProdFinEquiv p = m then 1 else 0

/-- What the backward pass of the mean loss of a batch of `B` samples delivers for a sample: the output gradients of the sample's own loss divided by `B`
(block_projected_if.py:264-283: the task's loss of the batch). -/
noncomputable def ofMean {a b : ℕ} (B : ℕ) : Factors ℝ a b → Factors ℝ a b
  | .two x y => .two x ((B : ℝ)⁻¹ • y)
  | .three l => .three (l.map fun q => (q.1, (B : ℝ)⁻¹ • q.2))

/-- The compressed gradients of a batch, given the layer factors of each sample's own loss (hook.py:159-206, compressor.py:140-210). -/
noncomputable def compressBatch (G : Noise din dout k → ℝ) (b : List ((l : Fin L) → Factors ℝ (din l) (dout l))) : List (Row ℝ fun _ : Fin L => k * k) :=
  b.map fun f l => compress (outMat G l) (inMat G l) (flatten k) b.length (ofMean b.length (f l))

/-- The loader as the attributor sees it for the draw `G`. -/
noncomputable def lograData (G : Noise din dout k → ℝ) (spec : Loader) (bs : List (List ((l : Fin L) → Factors ℝ (din l) (dout l)))) :
    Data ℝ fun _ : Fin L => k * k := ⟨spec, bs.map (compressBatch G)⟩

/-- A loader whose batches have the sizes PyTorch gives them. -/
structure Served (spec : Loader) {S : Type} (bs : List (List S)) : Prop where
  real : spec.Real
  length : bs.length = spec.batches
  sizes : ∀ (k : ℕ) (b : List S), bs[k]? = some b → (b.length : ℤ) = spec.count k

/-! ### Helper lemmas -/

lemma gradW_ofMean {a b : ℕ} (B : ℕ) (f : Factors ℝ a b) : gradW (ofMean B f) = (B : ℝ)⁻¹ • gradW f := by
  cases f with
  | two x y =>
    ext o i
    change (B : ℝ)⁻¹ * y o * x i = (B : ℝ)⁻¹ * (y o * x i)
    ring
  | three l =>
    ext o i
    change ((l.map fun q => (q.1, (B : ℝ)⁻¹ • q.2)).map fun p => p.1 i * p.2 o).sum = (B : ℝ)⁻¹ * (l.map fun p => p.1 i * p.2 o).sum
    rw [List.map_map, ← List.sum_map_mul_left]
    congr 1
    refine List.map_congr_left fun q _ => ?_
    simp only [Function.comp_apply, Pi.smul_apply, smul_eq_mul]
    ring

lemma flatten_mulVec (v : Fin k × Fin k → ℝ) (m : Fin (k * k)) : (flatten k *ᵥ v) m = v (finProdFinEquiv.symm m) := by
  simp only [mulVec, dotProduct, flatten, ite_mul, one_mul, zero_mul]
  rw [Finset.sum_eq_single (finProdFinEquiv.symm m)]
  · rw [if_pos (Equiv.apply_symm_apply _ _)]
  · intro p _ hp
    rw [if_neg]
    intro h
    exact hp (by rw [← h]; simp)
  · simp

/-- The compressed gradient does not depend on the batch size. -/
lemma compress_eq {B : ℕ} (hB : B ≠ 0) (G : Noise din dout k → ℝ) (l : Fin L) (f : Factors ℝ (din l) (dout l)) (m : Fin (k * k)) :
    compress (outMat G l) (inMat G l) (flatten k) B (ofMean B f) m =
      ∑ o, ∑ i, gradW f o i * (outMat G l (finProdFinEquiv.symm m).1 o * inMat G l (finProdFinEquiv.symm m).2 i) := by
  rw [C55_compressor, gradW_ofMean, smul_smul, mul_inv_cancel₀ (by exact_mod_cast hB), one_smul, flatten_mulVec]
  simp only [mulVec, dotProduct, kroneckerMap_apply, Fintype.sum_prod_type, flat]
  refine sum_congr rfl fun o _ => sum_congr rfl fun i _ => ?_
  ring

/-- The mean of a product of two bilinear forms in two independent columns. -/
lemma mean_bilinear {ι : Type} [Fintype ι] [DecidableEq ι] {m n : ℕ} (p : Fin m → ι) (q : Fin n → ι) (hp : Function.Injective p) (hq : Function.Injective q)
    (hpq : ∀ o i, p o ≠ q i) (X Y : Matrix (Fin m) (Fin n) ℝ) :
    Integrable (fun G : ι → ℝ => (∑ o, ∑ i, X o i * (G (p o) * G (q i))) * ∑ o, ∑ i, Y o i * (G (p o) * G (q i))) (gauss ι) ∧
    ∫ G : ι → ℝ, (∑ o, ∑ i, X o i * (G (p o) * G (q i))) * (∑ o, ∑ i, Y o i * (G (p o) * G (q i))) ∂(gauss ι) = ∑ o, ∑ i, X o i * Y o i := by
  obtain ⟨h1, h2⟩ := mean_forms p q X Y
  refine ⟨h1, h2.trans ?_⟩
  refine sum_congr rfl fun o _ => sum_congr rfl fun i _ => ?_
  simp [hpq, hp.eq_iff, hq.eq_iff]

lemma mean_dot (hk : 0 < k) {B B' : ℕ} (hB : B ≠ 0) (hB' : B' ≠ 0) (f g : (l : Fin L) → Factors ℝ (din l) (dout l)) :
    ∫ G : Noise din dout k → ℝ, ∑ l, ∑ m, compress (outMat G l) (inMat G l) (flatten k) B (ofMean B (f l)) m *
      compress (outMat G l) (inMat G l) (flatten k) B' (ofMean B' (g l)) m ∂(gauss (Noise din dout k)) =
    ∑ l, ∑ o, ∑ i, gradW (f l) o i * gradW (g l) o i := by
  have hk' : (k : ℝ) ≠ 0 := by exact_mod_cast hk.ne'
  have hs : ∀ (G : Noise din dout k → ℝ) (l : Fin L) (X : Matrix (Fin (dout l)) (Fin (din l)) ℝ) (r s : Fin k),
      ∑ o, ∑ i, X o i * (outMat G l r o * inMat G l s i) = (∑ o, ∑ i, X o i * (G (.inl ⟨l, o, r⟩) * G (.inr ⟨l, i, s⟩))) / k := by
    intro G l X r s
    rw [sum_div]
    refine sum_congr rfl fun o _ => ?_
    rw [sum_div]
    refine sum_congr rfl fun i _ => ?_
    rw [outMat, inMat, div_mul_div_comm, Real.mul_self_sqrt (Nat.cast_nonneg k), mul_div_assoc']
  have key : ∀ (l : Fin L) (m : Fin (k * k)),
      Integrable (fun G : Noise din dout k → ℝ => compress (outMat G l) (inMat G l) (flatten k) B (ofMean B (f l)) m *
        compress (outMat G l) (inMat G l) (flatten k) B' (ofMean B' (g l)) m) (gauss (Noise din dout k)) ∧
      ∫ G : Noise din dout k → ℝ, compress (outMat G l) (inMat G l) (flatten k) B (ofMean B (f l)) m *
        compress (outMat G l) (inMat G l) (flatten k) B' (ofMean B' (g l)) m ∂(gauss (Noise din dout k)) =
        (∑ o, ∑ i, gradW (f l) o i * gradW (g l) o i) / (k * k) := by
    intro l m
    have hfun : (fun G : Noise din dout k → ℝ => compress (outMat G l) (inMat G l) (flatten k) B (ofMean B (f l)) m *
        compress (outMat G l) (inMat G l) (flatten k) B' (ofMean B' (g l)) m) = fun G =>
        ((∑ o, ∑ i, gradW (f l) o i * (G (.inl ⟨l, o, (finProdFinEquiv.symm m).1⟩) * G (.inr ⟨l, i, (finProdFinEquiv.symm m).2⟩))) *
          ∑ o, ∑ i, gradW (g l) o i * (G (.inl ⟨l, o, (finProdFinEquiv.symm m).1⟩) * G (.inr ⟨l, i, (finProdFinEquiv.symm m).2⟩))) / (k * k) := by
      funext G
      rw [compress_eq hB, compress_eq hB', hs, hs, div_mul_div_comm]
    obtain ⟨h1, h2⟩ := mean_bilinear (ι := Noise din dout k) (fun o => .inl ⟨l, o, (finProdFinEquiv.symm m).1⟩) (fun i => .inr ⟨l, i, (finProdFinEquiv.symm m).2⟩)
      (fun o o' h => by simpa using h) (fun i i' h => by simpa using h) (fun o i => by simp) (gradW (f l)) (gradW (g l))
    rw [hfun]
    refine ⟨h1.div_const _, ?_⟩
    rw [integral_div, h2]
  rw [integral_finsetSum _ fun l _ => integrable_finsetSum _ fun m _ => (key l m).1]
  refine sum_congr rfl fun l _ => ?_
  rw [integral_finsetSum _ fun m _ => (key l m).1]
  simp only [(key l _).2, sum_const, card_univ, Fintype.card_fin, nsmul_eq_mul]
  push_cast
  field_simp

lemma flatten_data (spec : Loader) (bs : List (List ((l : Fin L) → Factors ℝ (din l) (dout l)))) (i : ℕ)
    (f : (l : Fin L) → Factors ℝ (din l) (dout l)) (h : bs.flatten[i]? = some f) :
    ∃ B, B ≠ 0 ∧ ∀ G : Noise din dout k → ℝ, (lograData G spec bs).batches.flatten[i]? =
      some fun l => compress (outMat G l) (inMat G l) (flatten k) B (ofMean B (f l)) := by
  induction bs generalizing i with
  | nil => simp at h
  | cons b bs ih =>
    rw [List.flatten_cons] at h
    by_cases hi : i < b.length
    · rw [List.getElem?_append_left hi] at h
      refine ⟨b.length, by omega, fun G => ?_⟩
      simp only [lograData, List.map_cons, List.flatten_cons]
      rw [List.getElem?_append_left (by simpa [compressBatch] using hi)]
      simp [compressBatch, h]
    · rw [List.getElem?_append_right (by omega)] at h
      obtain ⟨B, h1, h2⟩ := ih _ h
      refine ⟨B, h1, fun G => ?_⟩
      simp only [lograData, List.map_cons, List.flatten_cons]
      rw [List.getElem?_append_right (by simpa [compressBatch] using hi)]
      have := h2 G
      simp only [lograData] at this
      rw [← this]
      simp [compressBatch]

lemma lograData_wf (G : Noise din dout k → ℝ) {spec : Loader} {bs : List (List ((l : Fin L) → Factors ℝ (din l) (dout l)))} (h : Served spec bs) :
    (lograData G spec bs).WF := by
  refine ⟨h.real, by simp [lograData, h.length], ?_⟩
  intro q b hb
  simp only [lograData, List.getElem?_map, Option.map_eq_some_iff] at hb
  obtain ⟨b', hb', rfl⟩ := hb
  simpa [compressBatch, lograData] using h.sizes q b' hb'

lemma lograData_length (G : Noise din dout k → ℝ) (spec : Loader) (bs : List (List ((l : Fin L) → Factors ℝ (din l) (dout l)))) :
    (lograData G spec bs).batches.flatten.length = bs.flatten.length := by
  simp [lograData, List.length_flatten, compressBatch, Function.comp_def]

/-! ### C168 -/

/-- **C168** (the matrices are what the projectors apply). A normal `BasicProjector` with the draw of a layer's sparsifier returns for each row `x` the row `P x`,
after any history of calls (other than a freed single-block matrix). -/
theorem C168_projector (block : ℕ) (hb : 0 < block) (seed : ℤ) (hk : 0 < k) (G : Noise din dout k → ℝ) (l : Fin L) :
    (∃ st0, (normalProjector block seed fun q : Fin (dout l) × Fin k => G (.inl ⟨l, q⟩)).init = .ok st0 ∧ ∀ h, ¬ (k ≤ block ∧ Lost 0 h 0) → ∀ xs,
      ((normalProjector block seed fun q : Fin (dout l) × Fin k => G (.inl ⟨l, q⟩)).project
        ((normalProjector block seed fun q : Fin (dout l) × Fin k => G (.inl ⟨l, q⟩)).run st0 h) xs 0).2 = .ok (xs.map fun x => List.ofFn (outMat G l *ᵥ x))) ∧
    (∃ st0, (normalProjector block seed fun q : Fin (din l) × Fin k => G (.inr ⟨l, q⟩)).init = .ok st0 ∧ ∀ h, ¬ (k ≤ block ∧ Lost 0 h 0) → ∀ xs,
      ((normalProjector block seed fun q : Fin (din l) × Fin k => G (.inr ⟨l, q⟩)).project
        ((normalProjector block seed fun q : Fin (din l) × Fin k => G (.inr ⟨l, q⟩)).run st0 h) xs 0).2 = .ok (xs.map fun x => List.ofFn (inMat G l *ᵥ x))) := by
  have key : ∀ {d : ℕ} (W : Fin d × Fin k → ℝ) (P : Matrix (Fin k) (Fin d) ℝ), (∀ r i, P r i = W (i, r) / Real.sqrt k) →
      ∃ st0, (normalProjector block seed W).init = .ok st0 ∧ ∀ h, ¬ (k ≤ block ∧ Lost 0 h 0) → ∀ xs,
        ((normalProjector block seed W).project ((normalProjector block seed W).run st0 h) xs 0).2 = .ok (xs.map fun x => List.ofFn (P *ᵥ x)) := by
    intro d W P hP
    obtain ⟨st0, h0, hh⟩ := C28_history (normalProjector block seed W) (Or.inl rfl) hk hb
    refine ⟨st0, h0, fun h hl xs => ?_⟩
    rw [(hh h xs 0).2 fun he => hl ((hh h xs 0).1.1 he).2]
    congr 1
    refine List.map_congr_left fun x _ => ?_
    show (List.range k).map _ = _
    apply List.ext_getElem
    · simp
    · intro j h1 h2
      have hj : j < k := by simpa using h1
      simp only [List.getElem_map, List.getElem_range, List.getElem_ofFn]
      have := normalProjector_entry block seed W x ⟨j, hj⟩
      simp only at this
      rw [this, sum_div]
      simp only [mulVec, dotProduct, hP]
      refine sum_congr rfl fun a _ => ?_
      ring
  exact ⟨key _ _ fun r i => rfl, key _ _ fun r i => rfl⟩

/-- **C168** (unbiased scores). LoGra with the identity Hessian: cache a loader, attribute any test loader. For every draw this succeeds with one row per training and
one column per test sample, and the mean over the draws of every entry is the sum over the layers of the inner products of the samples' weight (and bias) gradients,
whatever the batches. -/
theorem C168_logra (hk : 0 < k) (hL : 0 < L) (spec spec' : Loader) (train test : List (List ((l : Fin L) → Factors ℝ (din l) (dout l))))
    (hs : Served spec train) (hne : train ≠ []) (ht : test.flatten ≠ []) (damping : Option ℝ) (again : Data ℝ fun _ : Fin L => k * k) :
    ∃ M : (Noise din dout k → ℝ) → Mat ℝ,
      (∀ G, ∃ st, cache .identity damping (St.new ℝ _ none) (lograData G spec train) = (st, .ok ()) ∧
        (attribute' .identity damping st again (lograData G spec' test)).2 = .ok (M G) ∧ (M G).r = train.flatten.length ∧ (M G).c = test.flatten.length) ∧
      ∀ (i j : ℕ) (f g : (l : Fin L) → Factors ℝ (din l) (dout l)), train.flatten[i]? = some f → test.flatten[j]? = some g →
        ∫ G, (M G).f i j ∂(Measure.pi fun _ => gaussianReal 0 1) = ∑ l, ∑ o, ∑ i, gradW (f l) o i * gradW (g l) o i := by
  have hd : ∑ _l : Fin L, k * k ≠ 0 := by
    simp
    omega
  have hall : ∀ G : Noise din dout k → ℝ, ∃ st M, cache .identity damping (St.new ℝ _ none) (lograData G spec train) = (st, .ok ()) ∧
      (attribute' .identity damping st again (lograData G spec' test)).2 = .ok M ∧
      Scores M (lograData G spec train).batches.flatten (lograData G spec' test).batches.flatten := by
    intro G
    have hwf := lograData_wf G hs
    have hne' : (lograData G spec train).batches ≠ [] := by simpa [lograData] using hne
    have ht' : (lograData G spec' test).batches.flatten ≠ [] := by
      intro h
      apply ht
      rw [← List.length_eq_zero_iff, ← lograData_length G spec' test, h]
      rfl
    obtain ⟨st, h1, -⟩ := stored_cache (stored_new (K := ℝ)) hwf hne' (fun hl => by rw [List.length_eq_zero_iff.1 hl])
    have hc : cache .identity damping (St.new ℝ _ none) (lograData G spec train) = (st, .ok ()) := by
      unfold cache
      rw [h1]
    obtain ⟨M, h2, h3⟩ := C60_entries .identity damping hwf hne' hc again (lograData G spec' test) ht' hd
    have hid : (preconditioned Hessian.identity (damping.getD (1 / 100000)) (lograData G spec train).batches.flatten) = id := rfl
    rw [hid, List.map_id] at h3
    exact ⟨st, M, hc, h2, h3⟩
  choose st M h1 h2 h3 using hall
  refine ⟨M, fun G => ⟨st G, h1 G, h2 G, by rw [(h3 G).r, lograData_length], by rw [(h3 G).c, lograData_length]⟩, ?_⟩
  intro i j f g hi hj
  obtain ⟨B, hB, e1⟩ := flatten_data (k := k) spec train i f hi
  obtain ⟨B', hB', e2⟩ := flatten_data (k := k) spec' test j g hj
  have : (fun G => (M G).f i j) = fun G => ∑ l, ∑ m, compress (outMat G l) (inMat G l) (flatten k) B (ofMean B (f l)) m *
      compress (outMat G l) (inMat G l) (flatten k) B' (ofMean B' (g l)) m := by
    funext G
    exact (h3 G).f i j _ _ (e1 G) (e2 G)
  rw [this]
  exact mean_dot hk hB hB' f g

/-! ### A concrete case -/

/-- One layer with two inputs and one output; two training samples in one batch, one test sample of two positions. -/
def exTrain : List (List ((l : Fin 1) → Factors ℝ 2 1)) := [[fun _ => .two ![1, 2] ![3], fun _ => .two ![0, 1] ![-1]]]

def exTest : List (List ((l : Fin 1) → Factors ℝ 2 1)) := [[fun _ => .three [(![1, 0], ![1]), (![0, 1], ![2])]]]

example : Served ⟨1, 2, 2, false, true⟩ exTrain := by
  refine ⟨⟨by decide, rfl, rfl⟩, rfl, ?_⟩
  intro q b hb
  match q with
  | 0 =>
    simp only [exTrain, List.getElem?_cons_zero, Option.some.injEq] at hb
    subst hb
    rfl
  | q + 1 => simp [exTrain] at hb

/-- The inner product of the first training sample's gradient `(3, 6)` with the test sample's gradient `(1, 2)`. -/
example : ∑ l : Fin 1, ∑ o : Fin 1, ∑ i : Fin 2, gradW ((fun _ => .two ![1, 2] ![3] : (l : Fin 1) → Factors ℝ 2 1) l) o i *
    gradW ((fun _ => .three [(![1, 0], ![1]), (![0, 1], ![2])] : (l : Fin 1) → Factors ℝ 2 1) l) o i = 15 := by
  simp [gradW, Fin.sum_univ_two]
  norm_num

end Verif.BlockIF
