import Verif.Hessian.LissaProps
import Mathlib.GroupTheory.Perm.Basic
import Mathlib.Data.Fintype.Perm
import Mathlib.Data.Fin.Tuple.Basic
import Mathlib.Algebra.BigOperators.Fin
import Mathlib.Data.Fintype.BigOperators

/-!
# C134: LiSSA on average

`torch.randperm` draws every permutation of the samples with the same probability, independently in every
step of every repeat.  The expectation is the mean over all sequences of draws.
-/

namespace Verif.Hessian

open Matrix

variable {n N : ℕ}

/-! ### Specification -/

/-- What `torch.randperm(N)` returns for the permutation `π`. -/
def permList (π : Equiv.Perm (Fin N)) : List ℕ := List.ofFn fun i => (π i : ℕ)

/-- The draws of `T` steps, as a sequence. -/
def draws {T : ℕ} (σ : Fin T → Equiv.Perm (Fin N)) (t : ℕ) : List ℕ :=
  if h : t < T then permList (σ ⟨t, h⟩) else []

/-- The draws of all repeats. -/
def drawsAll {rep T : ℕ} (σ : Fin rep → Fin T → Equiv.Perm (Fin N)) (r : ℕ) : ℕ → List ℕ :=
  if h : r < rep then draws (σ ⟨r, h⟩) else fun _ => []

/-- Expectation: the mean over all values of a draw. -/
noncomputable def expect {Ω V : Type} [Fintype Ω] [AddCommGroup V] [Module ℝ V] (f : Ω → V) : V :=
  ((Fintype.card Ω : ℝ)⁻¹) • ∑ ω, f ω

/-! ### Helper lemmas -/

theorem expect_const {Ω V : Type} [Fintype Ω] [Nonempty Ω] [AddCommGroup V] [Module ℝ V] (c : V) :
    expect (fun _ : Ω => c) = c := by
  unfold expect
  have : (Fintype.card Ω : ℝ) ≠ 0 := by exact_mod_cast Fintype.card_ne_zero
  rw [Finset.sum_const, Finset.card_univ, ← Nat.cast_smul_eq_nsmul ℝ, smul_smul, inv_mul_cancel₀ this, one_smul]

theorem expect_add {Ω V : Type} [Fintype Ω] [AddCommGroup V] [Module ℝ V] (f g : Ω → V) :
    expect (fun ω => f ω + g ω) = expect f + expect g := by
  unfold expect
  rw [Finset.sum_add_distrib, smul_add]

theorem expect_smul {Ω V : Type} [Fintype Ω] [AddCommGroup V] [Module ℝ V] (c : ℝ) (f : Ω → V) :
    expect (fun ω => c • f ω) = c • expect f := by
  unfold expect
  rw [← Finset.smul_sum, smul_comm]

theorem expect_equiv {Ω Ω' V : Type} [Fintype Ω] [Fintype Ω'] [AddCommGroup V] [Module ℝ V] (e : Ω' ≃ Ω)
    (f : Ω → V) : expect f = expect fun ω => f (e ω) := by
  unfold expect
  rw [Fintype.card_congr e, Equiv.sum_comp e f]

theorem expect_prod {Ω Ω' V : Type} [Fintype Ω] [Fintype Ω'] [AddCommGroup V] [Module ℝ V]
    (f : Ω × Ω' → V) : expect f = expect fun a => expect fun b => f (a, b) := by
  unfold expect
  rw [Fintype.sum_prod_type, Fintype.card_prod, ← Finset.smul_sum, smul_smul, Nat.cast_mul, mul_inv]

theorem expect_sum {Ω V ι : Type} [Fintype Ω] [AddCommGroup V] [Module ℝ V] (s : Finset ι) (f : ι → Ω → V) :
    expect (fun ω => ∑ i ∈ s, f i ω) = ∑ i ∈ s, expect (f i) := by
  unfold expect
  rw [Finset.sum_comm, Finset.smul_sum]

theorem expect_mulVec {Ω : Type} [Fintype Ω] (A : Matrix (Fin n) (Fin n) ℝ) (f : Ω → Fin n → ℝ) :
    expect (fun ω => A *ᵥ f ω) = A *ᵥ expect f := by
  unfold expect
  rw [mulVec_smul]
  congr 1
  exact (map_sum (Matrix.mulVecLin A) f Finset.univ).symm

theorem expect_mulVec_left {Ω : Type} [Fintype Ω] (A : Ω → Matrix (Fin n) (Fin n) ℝ) (v : Fin n → ℝ) :
    expect (fun ω => A ω *ᵥ v) = expect A *ᵥ v := by
  unfold expect
  rw [smul_mulVec, Matrix.sum_mulVec]

theorem lissaRec_congr (hv : List ℕ → Matrix (Fin n) (Fin n) ℝ) (p q : ℕ → List ℕ) (b : ℕ) (d s : ℝ)
    (v : Fin n → ℝ) (T : ℕ) (h : ∀ t < T, p t = q t) : lissaRec hv p b d s v T = lissaRec hv q b d s v T := by
  induction T with
  | zero => rfl
  | succ T ih => rw [lissaRec_succ, lissaRec_succ, ih fun t ht => h t (by omega), h T (by omega)]

theorem draws_snoc {T : ℕ} (σ : Fin T → Equiv.Perm (Fin N)) (π : Equiv.Perm (Fin N)) :
    (∀ t < T, draws (Fin.snoc (α := fun _ => Equiv.Perm (Fin N)) σ π) t = draws σ t) ∧
    draws (Fin.snoc (α := fun _ => Equiv.Perm (Fin N)) σ π) T = permList π := by
  constructor
  · intro t ht
    unfold draws
    rw [dif_pos (by omega), dif_pos ht]
    congr 1
    exact Fin.snoc_castSucc (α := fun _ => Equiv.Perm (Fin N)) π σ ⟨t, ht⟩
  · unfold draws
    rw [dif_pos (by omega)]
    congr 1
    exact Fin.snoc_last (α := fun _ => Equiv.Perm (Fin N)) π σ

/-- Equivalence splitting off the last draw. -/
def snocE (G : Type) (T : ℕ) : (Fin T → G) × G ≃ (Fin (T + 1) → G) where
  toFun x := Fin.snoc (α := fun _ => G) x.1 x.2
  invFun f := (Fin.init f, f (Fin.last T))
  left_inv x := by simp
  right_inv f := by simp

theorem expect_lissaRec (hv : List ℕ → Matrix (Fin n) (Fin n) ℝ) (b : ℕ) (d s : ℝ) (v : Fin n → ℝ) (T : ℕ) :
    expect (fun σ : Fin T → Equiv.Perm (Fin N) => lissaRec hv (draws σ) b d s v T) =
      (∑ k ∈ Finset.range (T + 1),
        (1 - (d • 1 + s⁻¹ • expect fun π : Equiv.Perm (Fin N) => hv ((permList π).take b))) ^ k) *ᵥ v := by
  induction T with
  | zero => simp only [lissaRec]; rw [expect_const]; simp
  | succ T ih =>
    have hM : expect (fun π : Equiv.Perm (Fin N) => iterMat (hv ((permList π).take b)) d s) =
        1 - (d • 1 + s⁻¹ • expect fun π : Equiv.Perm (Fin N) => hv ((permList π).take b)) := by
      have e : (fun π : Equiv.Perm (Fin N) => iterMat (hv ((permList π).take b)) d s) =
          fun π => (1 - d • (1 : Matrix (Fin n) (Fin n) ℝ)) + (-s⁻¹) • hv ((permList π).take b) := by
        funext π
        unfold iterMat
        module
      rw [e, expect_add, expect_const, expect_smul]
      module
    rw [expect_equiv (snocE (Equiv.Perm (Fin N)) T), expect_prod]
    have step : ∀ (σ : Fin T → Equiv.Perm (Fin N)) (π : Equiv.Perm (Fin N)),
        lissaRec hv (draws (snocE (Equiv.Perm (Fin N)) T (σ, π))) b d s v (T + 1) =
          v + iterMat (hv ((permList π).take b)) d s *ᵥ lissaRec hv (draws σ) b d s v T := by
      intro σ π
      obtain ⟨h1, h2⟩ := draws_snoc σ π
      rw [lissaRec_succ]
      have e1 : draws (snocE (Equiv.Perm (Fin N)) T (σ, π)) T = permList π := h2
      rw [e1, show lissaRec hv (draws (snocE (Equiv.Perm (Fin N)) T (σ, π))) b d s v T =
        lissaRec hv (draws σ) b d s v T from lissaRec_congr hv _ (draws σ) b d s v T h1]
      rfl
    simp only [step, expect_add, expect_const]
    simp only [expect_mulVec_left, hM, expect_mulVec, ih]
    rw [mulVec_mulVec, Finset.mul_sum, Finset.sum_range_succ' _ (T + 1), add_mulVec, pow_zero, one_mulVec,
      add_comm]
    congr 2
    exact Finset.sum_congr rfl fun k _ => (pow_succ' _ _).symm

theorem expect_coord {rep : ℕ} {G V : Type} [Fintype G] [Nonempty G] [AddCommGroup V] [Module ℝ V]
    (r : Fin rep) (f : G → V) : expect (fun σ : Fin rep → G => f (σ r)) = expect f := by
  cases rep with
  | zero => exact r.elim0
  | succ m =>
    rw [expect_equiv (Fin.insertNthEquiv (fun _ => G) r), expect_prod]
    simp only [Fin.insertNthEquiv_apply, Fin.insertNth_apply_same, expect_const]

theorem expect_perm {V : Type} [AddCommGroup V] [Module ℝ V] (hN : 0 < N) (g : Fin N → V) (j : Fin N) :
    expect (fun π : Equiv.Perm (Fin N) => g (π j)) = (N : ℝ)⁻¹ • ∑ i, g i := by
  have hj : ∀ j' : Fin N, expect (fun π : Equiv.Perm (Fin N) => g (π j')) =
      expect fun π : Equiv.Perm (Fin N) => g (π j) := by
    intro j'
    rw [expect_equiv (Equiv.mulRight (Equiv.swap j j'))]
    congr 1
    funext π
    simp
  have h1 : ∑ j' : Fin N, expect (fun π : Equiv.Perm (Fin N) => g (π j')) = ∑ i, g i := by
    rw [← expect_sum]
    have : (fun π : Equiv.Perm (Fin N) => ∑ j', g (π j')) = fun _ => ∑ i, g i := by
      funext π
      exact Equiv.sum_comp π g
    rw [this, expect_const]
  simp only [hj, Finset.sum_const, Finset.card_univ, Fintype.card_fin] at h1
  have hN' : (N : ℝ) ≠ 0 := by exact_mod_cast hN.ne'
  rw [← h1, ← Nat.cast_smul_eq_nsmul ℝ, smul_smul, inv_mul_cancel₀ hN', one_smul]

/-! ### C134 -/

/-- **C134** (any loss).  The expectation of the LiSSA estimate is the truncated Neumann series of the
expected Hessian of a batch, for every batch size, number of repeats and recursion depth. -/
theorem C134_mean (hv : List ℕ → Matrix (Fin n) (Fin n) ℝ) (b rep T : ℕ) (d s : ℝ) (v : Fin n → ℝ)
    (hrep : 0 < rep) (hs : s ≠ 0) :
    ∃ est : (Fin rep → Fin T → Equiv.Perm (Fin N)) → Fin n → ℝ,
      (∀ σ, ihvpLissa hv (drawsAll σ) b rep T d s v = .ok (some (est σ))) ∧
      expect est = s⁻¹ • ((∑ k ∈ Finset.range (T + 1),
        (1 - (d • 1 + s⁻¹ • expect fun π : Equiv.Perm (Fin N) => hv ((permList π).take b))) ^ k) *ᵥ v) := by
  refine ⟨fun σ => ((rep : ℝ)⁻¹) • ∑ r : Fin rep, (1 / s) • lissaRec hv (draws (σ r)) b d s v T, fun σ => ?_, ?_⟩
  · unfold ihvpLissa
    rw [if_neg hrep.ne', if_neg hs]
    congr 3
    rw [← List.sum_ofFn]
    congr 1
    apply List.ext_getElem
    · simp
    · intro i h1 h2
      have hi : i < rep := by simpa using h1
      simp [drawsAll, hi]
  · rw [expect_smul, expect_sum]
    have : ∀ r : Fin rep, expect (fun σ : Fin rep → Fin T → Equiv.Perm (Fin N) =>
        (1 / s) • lissaRec hv (draws (σ r)) b d s v T) = (1 / s) • ((∑ k ∈ Finset.range (T + 1),
        (1 - (d • 1 + s⁻¹ • expect fun π : Equiv.Perm (Fin N) => hv ((permList π).take b))) ^ k) *ᵥ v) := by
      intro r
      rw [expect_smul, expect_coord r fun τ => lissaRec hv (draws τ) b d s v T, expect_lissaRec]
    simp only [this, Finset.sum_const, Finset.card_univ, Fintype.card_fin]
    have hr : (rep : ℝ) ≠ 0 := by exact_mod_cast hrep.ne'
    rw [← Nat.cast_smul_eq_nsmul ℝ, smul_smul, inv_mul_cancel₀ hr, one_smul, one_div]

/-- **C134** (mean loss).  If the loss of a batch is the mean of the losses of its samples, the expected
Hessian of a batch is the Hessian on all samples, for every positive batch size. -/
theorem C134_mean_loss (h : ℕ → Matrix (Fin n) (Fin n) ℝ) (hN : 0 < N) (b : ℕ) (hb : 0 < b) :
    expect (fun π : Equiv.Perm (Fin N) =>
      (((permList π).take b).length : ℝ)⁻¹ • (((permList π).take b).map h).sum) =
      (N : ℝ)⁻¹ • ∑ i : Fin N, h i := by
  have hl : ∀ π : Equiv.Perm (Fin N), (((permList π).take b).map h).sum =
      ∑ j : Fin (min b N), h (π ⟨j, by omega⟩) := by
    intro π
    rw [← List.sum_ofFn]
    congr 1
    apply List.ext_getElem
    · simp [permList]
    · intro i h1 h2
      simp [permList]
  have hlen : ∀ π : Equiv.Perm (Fin N), ((permList π).take b).length = min b N := by
    intro π
    simp [permList]
  simp only [hl, hlen]
  rw [expect_smul, expect_sum]
  simp only [fun j : Fin (min b N) => expect_perm hN (fun i : Fin N => h i) ⟨j, by omega⟩, Finset.sum_const,
    Finset.card_univ, Fintype.card_fin]
  have hm : ((min b N : ℕ) : ℝ) ≠ 0 := by
    have : 0 < min b N := by omega
    exact_mod_cast this.ne'
  rw [← Nat.cast_smul_eq_nsmul ℝ, smul_smul, inv_mul_cancel₀ hm, one_smul]

/-- **C134** (sum loss).  If the loss of a batch is the sum over its samples, the expected Hessian of a batch
is `min(batch_size, N) / N` times the Hessian on all samples: the estimate depends on the batch size. -/
theorem C134_sum_loss (h : ℕ → Matrix (Fin n) (Fin n) ℝ) (hN : 0 < N) (b : ℕ) :
    expect (fun π : Equiv.Perm (Fin N) => (((permList π).take b).map h).sum) =
      (((min b N : ℕ) : ℝ) / N) • ∑ i : Fin N, h i := by
  have hl : ∀ π : Equiv.Perm (Fin N), (((permList π).take b).map h).sum =
      ∑ j : Fin (min b N), h (π ⟨j, by omega⟩) := by
    intro π
    rw [← List.sum_ofFn]
    congr 1
    apply List.ext_getElem
    · simp [permList]
    · intro i h1 h2
      simp [permList]
  simp only [hl]
  rw [expect_sum]
  simp only [fun j : Fin (min b N) => expect_perm hN (fun i : Fin N => h i) ⟨j, by omega⟩, Finset.sum_const,
    Finset.card_univ, Fintype.card_fin]
  rw [← Nat.cast_smul_eq_nsmul ℝ, smul_smul, div_eq_mul_inv]

/-- **C134** (unbiased).  With a mean loss the expected LiSSA estimate is the truncated Neumann series of the
Hessian on all samples: `(d I + H/s)(s E[x]) = v - (I - d I - H/s)^(T+1) v`. -/
theorem C134_unbiased (h : ℕ → Matrix (Fin n) (Fin n) ℝ) (hv : List ℕ → Matrix (Fin n) (Fin n) ℝ)
    (hvm : ∀ l, hv l = (l.length : ℝ)⁻¹ • (l.map h).sum) (hN : 0 < N) (b rep T : ℕ) (hb : 0 < b) (d s : ℝ)
    (v : Fin n → ℝ) (hrep : 0 < rep) (hs : s ≠ 0) :
    ∃ est : (Fin rep → Fin T → Equiv.Perm (Fin N)) → Fin n → ℝ,
      (∀ σ, ihvpLissa hv (drawsAll σ) b rep T d s v = .ok (some (est σ))) ∧
      ∀ H, H = (N : ℝ)⁻¹ • ∑ i : Fin N, h i →
        (d • (1 : Matrix (Fin n) (Fin n) ℝ) + s⁻¹ • H) *ᵥ (s • expect est) =
          v - (1 - (d • 1 + s⁻¹ • H)) ^ (T + 1) *ᵥ v := by
  obtain ⟨est, h1, h2⟩ := C134_mean (N := N) hv b rep T d s v hrep hs
  refine ⟨est, h1, ?_⟩
  rintro H rfl
  have hH : (expect fun π : Equiv.Perm (Fin N) => hv ((permList π).take b)) = (N : ℝ)⁻¹ • ∑ i : Fin N, h i := by
    simp only [hvm]
    exact C134_mean_loss h hN b hb
  rw [hH] at h2
  generalize (N : ℝ)⁻¹ • ∑ i : Fin N, h i = H at h2 ⊢
  have e : d • (1 : Matrix (Fin n) (Fin n) ℝ) + s⁻¹ • H = 1 - (1 - (d • 1 + s⁻¹ • H)) := by simp
  rw [h2, smul_smul, mul_inv_cancel₀ hs, one_smul, mulVec_mulVec]
  have key := mul_neg_geom_sum (1 - (d • (1 : Matrix (Fin n) (Fin n) ℝ) + s⁻¹ • H)) (T + 1)
  rw [← e] at key
  rw [key, sub_mulVec, one_mulVec]

/-- Two samples with different Hessians and batch size one: the estimate depends on the draw, although it is
right on average. -/
example : lissaRec (n := 1) (fun l => !![(l.headD 0 : ℝ)]) (draws (N := 2) (T := 1) fun _ => 1) 1 0 1 ![1] 1 = ![2] ∧
    lissaRec (n := 1) (fun l => !![(l.headD 0 : ℝ)]) (draws (N := 2) (T := 1) fun _ => Equiv.swap 0 1) 1 0 1 ![1] 1
      = ![1] := by
  constructor
  · funext i
    fin_cases i
    simp [lissaRec, draws, permList, sampleBatch, vecHead]
    norm_num
  · funext i
    fin_cases i
    simp [lissaRec, draws, permList, sampleBatch, vecHead]

end Verif.Hessian
