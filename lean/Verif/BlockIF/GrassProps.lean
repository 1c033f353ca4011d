import Verif.BlockIF.MeanProps
import Mathlib.Data.Fintype.Perm
import Mathlib.Data.Fintype.BigOperators

/-!
# C171: the mean of FactGraSS scores over the random draw

`/repo/dattri/algorithm/factgrass.py` lines 81-111 configure the two sparsifiers of every layer as random masks with `k` coordinates and, on the CPU, the second stage
as a normal projection to `p` dimensions; the compressed gradients are those of `core/compressor.py` lines 140-210 (`Verif.DVEmb.compress`).
-/

namespace Verif.BlockIF

open Verif Verif.DVEmb Verif.Projection MeasureTheory ProbabilityTheory Finset Matrix

variable {L : ℕ} {din dout : Fin L → ℕ} {k p : ℕ}

/-! ### Model -/

/-- The random permutations: one of the output and one of the input features of every layer (projection.py:76-80). The seeds of the sparsifiers are distinct (`C68`), so
they are modelled as independent. -/
abbrev Masks (din dout : Fin L → ℕ) := (l : Fin L) → Equiv.Perm (Fin (dout l)) × Equiv.Perm (Fin (din l))

/-- The random numbers of the second stage. Its seed in a layer is that of the input mask of the layer (`C68`); the draws of the two different distributions are modelled as
independent. -/
abbrev Normals (din dout : Fin L → ℕ) (k p : ℕ) := Σ l : Fin L, Fin (min k (dout l) * min k (din l)) × Fin p

lemma maskOf_length {d : ℕ} (k : ℕ) (σ : Equiv.Perm (Fin d)) : (maskOf (List.ofFn σ) k).length = min k d := by
  simp [maskOf, List.length_mergeSort]

/-- The coordinate at place `r` of a mask (`features[:, active_indices]`, projection.py:355-356). -/
def keptAt {d : ℕ} (k : ℕ) (σ : Equiv.Perm (Fin d)) (r : Fin (min k d)) : Fin d :=
  (maskOf (List.ofFn σ) k)[r.1]'(by rw [maskOf_length]; exact r.2)

/-- A mask as a matrix. -/
def maskMat {d : ℕ} (k : ℕ) (σ : Equiv.Perm (Fin d)) : Matrix (Fin (min k d)) (Fin d) ℝ := fun r a => if keptAt k σ r = a then 1 else 0

/-- The second stage of layer `l`, a normal projection of the flattened outer product (compressor.py:206-210, projection.py:366-380). -/
noncomputable def stageTwo (G : Normals din dout k p → ℝ) (l : Fin L) : Matrix (Fin p) (Fin (min k (dout l)) × Fin (min k (din l))) ℝ :=
  fun m q => G ⟨l, finProdFinEquiv q, m⟩ / Real.sqrt p

/-- The compressed gradient of a sample in a batch of `B`, given the layer factors of its own loss (hook.py:159-206, compressor.py:140-210). -/
noncomputable def grassRow (σ : Masks din dout) (G : Normals din dout k p → ℝ) (B : ℕ) (f : (l : Fin L) → Factors ℝ (din l) (dout l)) :
    Row ℝ fun _ : Fin L => p :=
  fun l => compress (maskMat k (σ l).1) (maskMat k (σ l).2) (stageTwo G l) B (ofMean B (f l))

/-- The loader as the attributor sees it for one draw. -/
noncomputable def grassData (σ : Masks din dout) (G : Normals din dout k p → ℝ) (spec : Loader)
    (bs : List (List ((l : Fin L) → Factors ℝ (din l) (dout l)))) : Data ℝ fun _ : Fin L => p :=
  ⟨spec, bs.map fun b => b.map (grassRow σ G b.length)⟩

/-! ### Helper lemmas -/

lemma maskMat_mulVec {d : ℕ} (σ : Equiv.Perm (Fin d)) (v : Fin d → ℝ) (r : Fin (min k d)) : (maskMat k σ *ᵥ v) r = v (keptAt k σ r) := by
  simp [mulVec, dotProduct, maskMat]

lemma sum_kept {d : ℕ} (σ : Equiv.Perm (Fin d)) (F : Fin d → ℝ) :
    ∑ r, F (keptAt k σ r) = ∑ r : Fin (min k d), F (σ (Fin.castLE (min_le_right _ _) r)) := by
  have h1 : ∑ r, F (keptAt k σ r) = ((maskOf (List.ofFn σ) k).map F).sum := by
    rw [← List.sum_ofFn]
    congr 1
    apply List.ext_getElem
    · simp [maskOf_length]
    · intro i h1 h2
      simp [keptAt]
  have h2 : (List.ofFn σ).take k = List.ofFn (fun i : Fin (min k d) => σ (Fin.castLE (min_le_right _ _) i)) := by
    apply List.ext_getElem
    · simp
    · intro i h1 h2; simp
  rw [h1, maskOf, (List.Perm.map _ (List.mergeSort_perm _ _)).sum_eq, h2, List.map_ofFn, List.sum_ofFn]
  rfl

/-- Averaged over the permutations, every coordinate is kept with the share `min k d / d`. -/
lemma avg_kept {d : ℕ} (F : Fin d → ℝ) :
    (Fintype.card (Equiv.Perm (Fin d)) : ℝ)⁻¹ * ∑ σ : Equiv.Perm (Fin d), ∑ r, F (keptAt k σ r) = ((min k d : ℕ) : ℝ) / d * ∑ a, F a := by
  rcases Nat.eq_zero_or_pos d with rfl | hd
  · have : ∀ σ : Equiv.Perm (Fin 0), ∑ r, F (keptAt k σ r) = 0 := by
      intro σ
      apply Finset.sum_eq_zero
      intro r _
      exact absurd r.2 (by simp)
    simp [this]
  have hd' : (d : ℝ) ≠ 0 := by exact_mod_cast hd.ne'
  simp only [sum_kept]
  rw [Finset.sum_comm]
  have hone : ∀ i : Fin d, ∑ σ : Equiv.Perm (Fin d), F (σ i) = (Nat.factorial d : ℝ) * (∑ a, F a) / d := by
    intro i
    have hsame : ∀ j : Fin d, ∑ σ : Equiv.Perm (Fin d), F (σ j) = ∑ σ : Equiv.Perm (Fin d), F (σ i) := by
      intro j
      apply Fintype.sum_equiv (Equiv.mulRight (Equiv.swap i j))
      intro σ; simp
    have h1 : ∑ j : Fin d, ∑ σ : Equiv.Perm (Fin d), F (σ j) = d * ∑ σ : Equiv.Perm (Fin d), F (σ i) := by
      simp only [hsame, Finset.sum_const, Finset.card_univ, Fintype.card_fin, nsmul_eq_mul]
    rw [Finset.sum_comm] at h1
    have h2 : ∀ σ : Equiv.Perm (Fin d), ∑ j, F (σ j) = ∑ a, F a := fun σ => Equiv.sum_comp σ F
    simp only [h2, Finset.sum_const, Finset.card_univ, Fintype.card_perm, Fintype.card_fin, nsmul_eq_mul] at h1
    rw [h1, mul_div_cancel_left₀ _ hd']
  simp only [hone, Finset.sum_const, Finset.card_univ, Fintype.card_fin, nsmul_eq_mul, Fintype.card_perm]
  have hf : (Nat.factorial d : ℝ) ≠ 0 := by exact_mod_cast Nat.factorial_ne_zero d
  field_simp

/-- The average over independent draws of a quantity that depends on one of them. -/
lemma avg_coord {β : Fin L → Type} [∀ l, Fintype (β l)] [∀ l, Nonempty (β l)] (l : Fin L) (F : β l → ℝ) :
    (Fintype.card ((l : Fin L) → β l) : ℝ)⁻¹ * ∑ π : (l : Fin L) → β l, F (π l) = (Fintype.card (β l) : ℝ)⁻¹ * ∑ b, F b := by
  classical
  have h1 : ∑ π : (l : Fin L) → β l, F (π l) = ∑ q : β l × ((j : {j // j ≠ l}) → β j), F q.1 :=
    Fintype.sum_equiv (Equiv.piSplitAt l β) _ _ fun π => rfl
  have h2 : Fintype.card ((l : Fin L) → β l) = Fintype.card (β l) * Fintype.card ((j : {j // j ≠ l}) → β j) := by
    rw [← Fintype.card_prod]
    exact Fintype.card_congr (Equiv.piSplitAt l β)
  have h3 : (Fintype.card ((j : {j // j ≠ l}) → β j) : ℝ) ≠ 0 := by exact_mod_cast Fintype.card_ne_zero
  have h4 : (Fintype.card (β l) : ℝ) ≠ 0 := by exact_mod_cast Fintype.card_ne_zero
  rw [h1, h2, Fintype.sum_prod_type]
  simp only [Finset.sum_const, Finset.card_univ, nsmul_eq_mul, ← Finset.mul_sum]
  push_cast
  field_simp

/-- Averaged over the two masks of a layer, an entry of the weight matrix is kept with the product of the shares. -/
lemma avg_masks {a b : ℕ} (F : Fin a → Fin b → ℝ) :
    (Fintype.card (Equiv.Perm (Fin a) × Equiv.Perm (Fin b)) : ℝ)⁻¹ *
        ∑ s : Equiv.Perm (Fin a) × Equiv.Perm (Fin b), ∑ r, ∑ t, F (keptAt k s.1 r) (keptAt k s.2 t) =
      ((min k a : ℕ) : ℝ) / a * (((min k b : ℕ) : ℝ) / b) * ∑ o, ∑ i, F o i := by
  rw [Fintype.sum_prod_type, Fintype.card_prod, Nat.cast_mul]
  have h1 : ∀ s : Equiv.Perm (Fin a), ∑ t : Equiv.Perm (Fin b), ∑ r, ∑ q, F (keptAt k s r) (keptAt k t q) =
      Fintype.card (Equiv.Perm (Fin b)) * (((min k b : ℕ) : ℝ) / b * ∑ i, ∑ r, F (keptAt k s r) i) := by
    intro s
    have hc : (Fintype.card (Equiv.Perm (Fin b)) : ℝ) ≠ 0 := by exact_mod_cast Fintype.card_ne_zero
    rw [← avg_kept (k := k) fun i => ∑ r, F (keptAt k s r) i, mul_inv_cancel_left₀ hc]
    refine sum_congr rfl fun t _ => ?_
    rw [Finset.sum_comm]
  have hc : (Fintype.card (Equiv.Perm (Fin b)) : ℝ) ≠ 0 := by exact_mod_cast Fintype.card_ne_zero
  have h2 := avg_kept (k := k) fun o : Fin a => ∑ i, F o i
  simp only [h1, ← Finset.mul_sum]
  have h3 : ∑ s : Equiv.Perm (Fin a), ∑ i, ∑ r, F (keptAt k s r) i = ∑ s : Equiv.Perm (Fin a), ∑ r, ∑ i, F (keptAt k s r) i :=
    sum_congr rfl fun s _ => Finset.sum_comm
  rw [h3, mul_inv, mul_assoc ((_ : ℝ)⁻¹), inv_mul_cancel_left₀ hc, mul_left_comm, h2]
  ring

lemma grass_entry {B : ℕ} (hB : B ≠ 0) (σ : Masks din dout) (G : Normals din dout k p → ℝ) (f : (l : Fin L) → Factors ℝ (din l) (dout l)) (l : Fin L)
    (m : Fin p) : grassRow σ G B f l m =
      (∑ q : Fin (min k (dout l)) × Fin (min k (din l)), gradW (f l) (keptAt k (σ l).1 q.1) (keptAt k (σ l).2 q.2) * G ⟨l, finProdFinEquiv q, m⟩) / Real.sqrt p := by
  unfold grassRow
  rw [C55_compressor, gradW_ofMean, smul_smul, mul_inv_cancel₀ (by exact_mod_cast hB), one_smul]
  simp only [mulVec, dotProduct, stageTwo]
  rw [sum_div]
  refine sum_congr rfl fun q _ => ?_
  have : ∑ x, kroneckerMap (fun x1 x2 => x1 * x2) (maskMat k (σ l).1) (maskMat k (σ l).2) q x * flat (gradW (f l)) x = gradW (f l) (keptAt k (σ l).1 q.1) (keptAt k (σ l).2 q.2) := by
    rw [Fintype.sum_prod_type]
    simp only [kroneckerMap_apply, maskMat, flat, ite_mul, one_mul, zero_mul, Finset.sum_ite_eq, Finset.mem_univ, if_true, Finset.sum_ite_irrel,
      Finset.sum_const_zero]
  rw [this]
  ring

/-- For fixed masks, the second stage preserves inner products of the kept entries on average. -/
lemma grass_mean (hp : 0 < p) {B B' : ℕ} (hB : B ≠ 0) (hB' : B' ≠ 0) (σ : Masks din dout) (f g : (l : Fin L) → Factors ℝ (din l) (dout l)) :
    ∫ G : Normals din dout k p → ℝ, ∑ l, ∑ m, grassRow σ G B f l m * grassRow σ G B' g l m ∂(gauss (Normals din dout k p)) =
      ∑ l, ∑ r, ∑ t, gradW (f l) (keptAt k (σ l).1 r) (keptAt k (σ l).2 t) * gradW (g l) (keptAt k (σ l).1 r) (keptAt k (σ l).2 t) := by
  classical
  have hp' : (p : ℝ) ≠ 0 := by exact_mod_cast hp.ne'
  let c : ((l : Fin L) → Factors ℝ (din l) (dout l)) → (l : Fin L) → Fin p → Normals din dout k p → ℝ := fun f l m x =>
    if h : x.1 = l then if x.2.2 = m then
      (let q := finProdFinEquiv.symm x.2.1; gradW (f x.1) (keptAt k (σ x.1).1 q.1) (keptAt k (σ x.1).2 q.2)) else 0 else 0
  have hlin : ∀ (f : (l : Fin L) → Factors ℝ (din l) (dout l)) (l : Fin L) (m : Fin p) (W : Normals din dout k p → ℝ),
      ∑ x, c f l m x * W x = ∑ q : Fin (min k (dout l)) × Fin (min k (din l)),
        gradW (f l) (keptAt k (σ l).1 q.1) (keptAt k (σ l).2 q.2) * W ⟨l, finProdFinEquiv q, m⟩ := by
    intro f l m W
    rw [Fintype.sum_sigma, Finset.sum_eq_single l]
    · rw [Fintype.sum_prod_type, ← Equiv.sum_comp finProdFinEquiv]
      refine sum_congr rfl fun q _ => ?_
      rw [Finset.sum_eq_single m]
      · simp only [c, dif_pos, if_pos, Equiv.symm_apply_apply]
      · intro m' _ hm
        simp [c, hm]
      · simp
    · intro l' _ hl
      apply Finset.sum_eq_zero
      intro x _
      simp [c, hl]
    · simp
  have key : ∀ (l : Fin L) (m : Fin p),
      Integrable (fun G : Normals din dout k p → ℝ => grassRow σ G B f l m * grassRow σ G B' g l m) (gauss (Normals din dout k p)) ∧
      ∫ G : Normals din dout k p → ℝ, grassRow σ G B f l m * grassRow σ G B' g l m ∂(gauss (Normals din dout k p)) =
        (∑ r, ∑ t, gradW (f l) (keptAt k (σ l).1 r) (keptAt k (σ l).2 t) * gradW (g l) (keptAt k (σ l).1 r) (keptAt k (σ l).2 t)) / p := by
    intro l m
    have hfun : (fun G : Normals din dout k p → ℝ => grassRow σ G B f l m * grassRow σ G B' g l m) = fun G =>
        lin (c f l m) G * lin (c g l m) G / p := by
      funext G
      rw [grass_entry hB, grass_entry hB', ← hlin f l m G, ← hlin g l m G, div_mul_div_comm, Real.mul_self_sqrt (Nat.cast_nonneg p)]
      rfl
    obtain ⟨h1, h2⟩ := gauss_two (c f l m) (c g l m)
    rw [hfun]
    refine ⟨h1.div_const _, ?_⟩
    rw [integral_div, h2, hlin f l m (c g l m), Fintype.sum_prod_type]
    congr 1
    refine sum_congr rfl fun r _ => sum_congr rfl fun t _ => ?_
    simp only [c, dif_pos, if_pos, Equiv.symm_apply_apply]
  rw [integral_finsetSum _ fun l _ => integrable_finsetSum _ fun m _ => (key l m).1]
  refine sum_congr rfl fun l _ => ?_
  rw [integral_finsetSum _ fun m _ => (key l m).1]
  simp only [(key l _).2, sum_const, card_univ, Fintype.card_fin, nsmul_eq_mul]
  field_simp

lemma grass_flatten (spec : Loader) (bs : List (List ((l : Fin L) → Factors ℝ (din l) (dout l)))) (i : ℕ)
    (f : (l : Fin L) → Factors ℝ (din l) (dout l)) (h : bs.flatten[i]? = some f) :
    ∃ B, B ≠ 0 ∧ ∀ (σ : Masks din dout) (G : Normals din dout k p → ℝ), (grassData σ G spec bs).batches.flatten[i]? = some (grassRow σ G B f) := by
  induction bs generalizing i with
  | nil => simp at h
  | cons b bs ih =>
    rw [List.flatten_cons] at h
    by_cases hi : i < b.length
    · rw [List.getElem?_append_left hi] at h
      refine ⟨b.length, by omega, fun σ G => ?_⟩
      simp only [grassData, List.map_cons, List.flatten_cons]
      rw [List.getElem?_append_left (by simpa using hi)]
      simp [h]
    · rw [List.getElem?_append_right (by omega)] at h
      obtain ⟨B, h1, h2⟩ := ih _ h
      refine ⟨B, h1, fun σ G => ?_⟩
      simp only [grassData, List.map_cons, List.flatten_cons]
      rw [List.getElem?_append_right (by simpa using hi)]
      have := h2 σ G
      simp only [grassData] at this
      rw [← this]
      simp

lemma grass_wf (σ : Masks din dout) (G : Normals din dout k p → ℝ) {spec : Loader} {bs : List (List ((l : Fin L) → Factors ℝ (din l) (dout l)))}
    (h : Served spec bs) : (grassData σ G spec bs).WF := by
  refine ⟨h.real, by simp [grassData, h.length], ?_⟩
  intro q b hb
  simp only [grassData, List.getElem?_map, Option.map_eq_some_iff] at hb
  obtain ⟨b', hb', rfl⟩ := hb
  simpa [grassData] using h.sizes q b' hb'

lemma grass_length (σ : Masks din dout) (G : Normals din dout k p → ℝ) (spec : Loader) (bs : List (List ((l : Fin L) → Factors ℝ (din l) (dout l)))) :
    (grassData σ G spec bs).batches.flatten.length = bs.flatten.length := by
  simp [grassData, List.length_flatten, Function.comp_def]

/-! ### C171 -/

/-- **C171** (the matrices are what the projectors apply). A `random_mask` `BasicProjector` with the permutation `σ` returns for each row `x` the row `P x` of kept
coordinates, after any history of calls. -/
theorem C171_projector {d : ℕ} (block : ℕ) (hb : 0 < block) (hk : 0 < k) (seed : ℤ) (σ : Equiv.Perm (Fin d)) :
    ∃ st0, Basic.init ⟨k, seed, .randomMask, block, 0, ⟨fun _ _ _ _ => 0, fun _ => List.ofFn σ⟩⟩ = .ok st0 ∧ ∀ h xs,
      (Basic.project ⟨k, seed, .randomMask, block, 0, ⟨fun _ _ _ _ => 0, fun _ => List.ofFn σ⟩⟩
        (Basic.run ⟨k, seed, .randomMask, block, 0, ⟨fun _ _ _ _ => 0, fun _ => List.ofFn σ⟩⟩ st0 h) xs 0).2 =
        .ok (xs.map fun x => List.ofFn (maskMat k σ *ᵥ x)) := by
  obtain ⟨st0, h0, hh⟩ := C28_history ⟨k, seed, .randomMask, block, 0, ⟨fun _ _ _ _ => 0, fun _ => List.ofFn σ⟩⟩
    (Or.inr (Or.inr (Or.inl rfl))) hk hb
  refine ⟨st0, h0, fun h xs => ?_⟩
  rw [(hh h xs 0).2 fun he => by
    have := ((hh h xs 0).1.1 he).1
    simp at this]
  congr 1
  refine List.map_congr_left fun x _ => ?_
  apply List.ext_getElem
  · have := maskOf_length k σ
    simp only [maskOf] at this
    simp [idealRow]
  · intro j h1 h2
    rw [List.getElem_ofFn, maskMat_mulVec]
    simp [idealRow, keptAt, maskOf]

/-- **C171** (second stage). A normal `BasicProjector` with the draw of a layer returns for the flattened outer product `x` the row `R x`, after any history of calls
(other than a freed single-block matrix). -/
theorem C171_second_stage (block : ℕ) (hb : 0 < block) (seed : ℤ) (hp : 0 < p) (G : Normals din dout k p → ℝ) (l : Fin L) :
    ∃ st0, (normalProjector block seed fun q : Fin (min k (dout l) * min k (din l)) × Fin p => G ⟨l, q⟩).init = .ok st0 ∧ ∀ h, ¬ (p ≤ block ∧ Lost 0 h 0) →
      ∀ xs, ((normalProjector block seed fun q : Fin (min k (dout l) * min k (din l)) × Fin p => G ⟨l, q⟩).project
        ((normalProjector block seed fun q : Fin (min k (dout l) * min k (din l)) × Fin p => G ⟨l, q⟩).run st0 h) xs 0).2 =
        .ok (xs.map fun x => List.ofFn (stageTwo G l *ᵥ fun q => x (finProdFinEquiv q))) := by
  obtain ⟨st0, h0, hh⟩ := C28_history (normalProjector block seed fun q : Fin (min k (dout l) * min k (din l)) × Fin p => G ⟨l, q⟩) (Or.inl rfl) hp hb
  refine ⟨st0, h0, fun h hl xs => ?_⟩
  rw [(hh h xs 0).2 fun he => hl ((hh h xs 0).1.1 he).2]
  congr 1
  refine List.map_congr_left fun x _ => ?_
  show (List.range p).map _ = _
  apply List.ext_getElem
  · simp
  · intro j h1 h2
    have hj : j < p := by simpa using h1
    simp only [List.getElem_map, List.getElem_range, List.getElem_ofFn]
    have := normalProjector_entry block seed (fun q : Fin (min k (dout l) * min k (din l)) × Fin p => G ⟨l, q⟩) x ⟨j, hj⟩
    simp only at this
    rw [this, sum_div, ← Equiv.sum_comp finProdFinEquiv]
    simp only [mulVec, dotProduct, stageTwo]
    refine sum_congr rfl fun a _ => ?_
    ring

/-- **C171** (weighted scores). FactGraSS on the CPU with the identity Hessian: cache a loader, attribute any test loader. For every draw this succeeds with one row per
training and one column per test sample, and the mean of every entry over all draws of masks and normal matrices is the sum over the layers of the inner products of the
samples' weight (and bias) gradients, each layer weighted by `min k (outputs) / outputs * min k (inputs) / inputs`. -/
theorem C171_factgrass (hp : 0 < p) (hL : 0 < L) (spec spec' : Loader) (train test : List (List ((l : Fin L) → Factors ℝ (din l) (dout l))))
    (hs : Served spec train) (hne : train ≠ []) (ht : test.flatten ≠ []) (damping : Option ℝ) (again : Data ℝ fun _ : Fin L => p) :
    ∃ M : Masks din dout → (Normals din dout k p → ℝ) → Mat ℝ,
      (∀ σ G, ∃ st, cache .identity damping (St.new ℝ _ none) (grassData σ G spec train) = (st, .ok ()) ∧
        (attribute' .identity damping st again (grassData σ G spec' test)).2 = .ok (M σ G) ∧ (M σ G).r = train.flatten.length ∧
          (M σ G).c = test.flatten.length) ∧
      ∀ (i j : ℕ) (f g : (l : Fin L) → Factors ℝ (din l) (dout l)), train.flatten[i]? = some f → test.flatten[j]? = some g →
        (Fintype.card (Masks din dout) : ℝ)⁻¹ * ∑ σ : Masks din dout, ∫ G, (M σ G).f i j ∂(Measure.pi fun _ => gaussianReal 0 1) =
          ∑ l, ((min k (dout l) : ℕ) : ℝ) / dout l * (((min k (din l) : ℕ) : ℝ) / din l) * ∑ o, ∑ i, gradW (f l) o i * gradW (g l) o i := by
  have hd : ∑ _l : Fin L, p ≠ 0 := by
    simp
    omega
  have hall : ∀ (σ : Masks din dout) (G : Normals din dout k p → ℝ), ∃ st M,
      cache .identity damping (St.new ℝ _ none) (grassData σ G spec train) = (st, .ok ()) ∧
      (attribute' .identity damping st again (grassData σ G spec' test)).2 = .ok M ∧
      Scores M (grassData σ G spec train).batches.flatten (grassData σ G spec' test).batches.flatten := by
    intro σ G
    have hwf := grass_wf σ G hs
    have hne' : (grassData σ G spec train).batches ≠ [] := by simpa [grassData] using hne
    have ht' : (grassData σ G spec' test).batches.flatten ≠ [] := by
      intro h
      apply ht
      rw [← List.length_eq_zero_iff, ← grass_length σ G spec' test, h]
      rfl
    obtain ⟨st, h1, -⟩ := stored_cache (stored_new (K := ℝ)) hwf hne' (fun hl => by rw [List.length_eq_zero_iff.1 hl])
    have hc : cache .identity damping (St.new ℝ _ none) (grassData σ G spec train) = (st, .ok ()) := by
      unfold cache
      rw [h1]
    obtain ⟨M, h2, h3⟩ := C60_entries .identity damping hwf hne' hc again (grassData σ G spec' test) ht' hd
    have hid : (preconditioned Hessian.identity (damping.getD (1 / 100000)) (grassData σ G spec train).batches.flatten) = id := rfl
    rw [hid, List.map_id] at h3
    exact ⟨st, M, hc, h2, h3⟩
  choose st M h1 h2 h3 using hall
  refine ⟨M, fun σ G => ⟨st σ G, h1 σ G, h2 σ G, by rw [(h3 σ G).r, grass_length], by rw [(h3 σ G).c, grass_length]⟩, ?_⟩
  intro i j f g hi hj
  obtain ⟨B, hB, e1⟩ := grass_flatten (k := k) (p := p) spec train i f hi
  obtain ⟨B', hB', e2⟩ := grass_flatten (k := k) (p := p) spec' test j g hj
  have hmean : ∀ σ : Masks din dout, ∫ G, (M σ G).f i j ∂(Measure.pi fun _ => gaussianReal 0 1) =
      ∑ l, ∑ r, ∑ t, gradW (f l) (keptAt k (σ l).1 r) (keptAt k (σ l).2 t) * gradW (g l) (keptAt k (σ l).1 r) (keptAt k (σ l).2 t) := by
    intro σ
    rw [← grass_mean (k := k) hp hB hB' σ f g]
    have : (fun G => (M σ G).f i j) = fun G => ∑ l, ∑ m, grassRow σ G B f l m * grassRow σ G B' g l m := by
      funext G
      exact (h3 σ G).f i j _ _ (e1 σ G) (e2 σ G)
    rw [this]
    rfl
  simp only [hmean]
  rw [Finset.sum_comm, Finset.mul_sum]
  refine sum_congr rfl fun l _ => ?_
  rw [← avg_masks (k := k) fun o i => gradW (f l) o i * gradW (g l) o i]
  exact avg_coord (β := fun l => Equiv.Perm (Fin (dout l)) × Equiv.Perm (Fin (din l))) l fun s : Equiv.Perm (Fin (dout l)) × Equiv.Perm (Fin (din l)) =>
    ∑ r, ∑ t, gradW (f l) (keptAt k s.1 r) (keptAt k s.2 t) * gradW (g l) (keptAt k s.1 r) (keptAt k s.2 t)

/-! ### A concrete case -/

/-- One layer with two inputs and one output: with `k = 1` half of the inner product `15` of `C168`'s example. -/
example : ((min 1 1 : ℕ) : ℝ) / (1 : ℕ) * (((min 1 2 : ℕ) : ℝ) / (2 : ℕ)) * 15 = 15 / 2 := by norm_num

/-- Two permutations of two features: the masks of one coordinate keep either. -/
example : keptAt 1 (1 : Equiv.Perm (Fin 2)) ⟨0, by decide⟩ = 0 ∧ keptAt 1 (Equiv.swap 0 1 : Equiv.Perm (Fin 2)) ⟨0, by decide⟩ = 1 := by
  constructor <;> simp [keptAt, maskOf]

/-- The weights can reverse an order: a layer with two inputs (share 1/2) and one with one input (share 1), `k = 1`. A sample whose gradient has the inner product 3 in the
first layer comes before one with the inner product 2 in the second layer, but after it by mean score. -/
example : (2 : ℝ) < 3 ∧ ((min 1 1 : ℕ) : ℝ) / (1 : ℕ) * (((min 1 2 : ℕ) : ℝ) / (2 : ℕ)) * 3 + ((min 1 1 : ℕ) : ℝ) / (1 : ℕ) * (((min 1 1 : ℕ) : ℝ) / (1 : ℕ)) * 0 <
    ((min 1 1 : ℕ) : ℝ) / (1 : ℕ) * (((min 1 2 : ℕ) : ℝ) / (2 : ℕ)) * 0 + ((min 1 1 : ℕ) : ℝ) / (1 : ℕ) * (((min 1 1 : ℕ) : ℝ) / (1 : ℕ)) * 2 := by
  norm_num

end Verif.BlockIF
