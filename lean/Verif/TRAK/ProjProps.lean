import Verif.TRAK.ProjModel
import Verif.TRAK.PolyLemmas
import Verif.TRAK.RidgeProps
import Mathlib.LinearAlgebra.Dimension.Constructions
import Mathlib.LinearAlgebra.FiniteDimensional.Lemmas

/-!
# C239: TRAK with its random projection, and when it returns scores
-/

namespace Verif.TRAK

open Verif.Projection MeasureTheory ProbabilityTheory Finset

variable {X C : Type} {D : ℕ}

/-! ### Specification -/

/-- TRAK on given features: the projections of the scaled gradients, which depend on the checkpoint's number but not on the batches. -/
noncomputable def PTrak.plain (A : PTrak X C D) (env : Env) : Attributor ℝ X (C × ℕ) A.width where
  phiLoss ck x := toVec A.width (A.projector.row env ck.2 (A.scaled (A.gLoss ck.1 x)))
  phiTarget ck x := toVec A.width (A.projector.row env ck.2 (A.scaled (A.gTarget ck.1 x)))
  prob ck x := A.prob ck.1 x
  ckpts := A.ckpts.zipIdx
  reg := A.reg

/-- `p` of the samples have linearly independent gradients. -/
def Rich (g : X → Fin D → ℝ) (data : List X) (p : ℕ) : Prop :=
  ∃ f : Fin p → Fin data.length, LinearIndependent ℝ fun j => g data[f j]

/-- The settings of the attributor that have a projection matrix. -/
abbrev PTrak.params (A : PTrak X C D) : TracIn.ProjParams := A.projector.params

/-! ### Helper lemmas -/

lemma zipIdx_twice (l : List C) (n : ℕ) : (l.zipIdx n).zipIdx n = (l.zipIdx n).map fun x => (x, x.2) := by
  induction l generalizing n with
  | nil => rfl
  | cons a l ih => simp [ih]

lemma catProj_eq (pyInt : List Char → Option ℤ) (env : Env) (A : PTrak X C D) (hdev : A.dev = .cpu) (hk : A.params.ptype ≠ .sjlt ∧ A.params.ptype ≠ .grass)
    (hp : 0 < A.params.projDim) (k : ℕ) (l : Loader X) (hb : 0 < l.bs) (g : X → Fin D → ℝ) :
    catProj pyInt env A k l g = catRows l fun x => toVec A.width (A.projector.row env k (A.scaled (g x))) := by
  unfold catProj catRows
  congr 1
  refine TracIn.foldlM_congr' _ _ fun acc b hbm => ?_
  split
  · rfl
  · rw [TracIn.projected_ok pyInt env A.projector hdev hk hp k _ (by simpa using TracIn.batch_ne l hb b hbm)]
    show Except.ok _ = Except.ok _
    rw [List.map_map, List.map_map]
    rfl

lemma foldlM_map' {α β γ : Type} (f : β → γ → Except Err β) (h : α → γ) : ∀ (l : List α) (b : β), (l.map h).foldlM f b = l.foldlM (fun b a => f b (h a)) b
  | [], _ => rfl
  | a :: l, b => by
    rw [List.map_cons, List.foldlM_cons, List.foldlM_cons]
    cases f b (h a) with
    | error e => rfl
    | ok b' => exact foldlM_map' f h l b'

lemma width_dense (A : PTrak X C D) (hk : A.params.ptype = .normal ∨ A.params.ptype = .rademacher) : A.width = A.params.projDim := by
  unfold PTrak.width
  rcases hk with h | h <;> rw [h]

lemma rich_le {g : X → Fin D → ℝ} {data : List X} {p : ℕ} (h : Rich g data p) : p ≤ data.length ∧ p ≤ D := by
  obtain ⟨f, hf⟩ := h
  have hinj : Function.Injective f := fun a b hab => hf.injective (by simp only [hab])
  refine ⟨by simpa using Fintype.card_le_of_injective f hinj, by simpa using hf.fintype_card_le_finrank⟩

/-- Spanning features need enough independent gradients. -/
lemma rich_of_spans {w : ℕ} (g : X → Fin D → ℝ) (data : List X) (E : Fin D → Fin w → ℝ) (s : ℝ)
    (h : Spans (fun x j => (∑ a, g x a * E a j) * s) data) : Rich g data w := by
  let φ : Fin data.length → Fin w → ℝ := fun i j => (∑ a, g data[i] a * E a j) * s
  have htop : Submodule.span ℝ (Set.range φ) = ⊤ := by
    by_contra hne
    obtain ⟨f, hf0, hf⟩ := Submodule.exists_le_ker_of_lt_top _ (lt_top_iff_ne_top.2 hne)
    have hfv : ∀ u : Fin w → ℝ, f u = u ⬝ᵥ fun j => f (Pi.single j 1) := by
      intro u
      have h2 : u = ∑ a, u a • (Pi.single a (1 : ℝ) : Fin w → ℝ) := by
        funext b
        simp [Finset.sum_apply, Pi.single_apply]
      conv_lhs => rw [h2, map_sum]
      simp [dotProduct]
    have h0 : (fun j => f (Pi.single j 1)) = 0 := by
      refine h _ fun x hx => ?_
      obtain ⟨i, hi, rfl⟩ := List.mem_iff_getElem.1 hx
      rw [← hfv]
      exact LinearMap.mem_ker.1 (hf (Submodule.subset_span ⟨⟨i, hi⟩, rfl⟩))
    refine hf0 (LinearMap.ext fun u => ?_)
    rw [hfv, h0]
    simp
  obtain ⟨κ, a, ha, hsp, hli⟩ := exists_linearIndependent' ℝ φ
  have : Finite κ := Finite.of_injective a ha
  have := Fintype.ofFinite κ
  have hcard : Fintype.card κ = w := by
    rw [htop] at hsp
    have := finrank_span_eq_card hli
    rw [hsp] at this
    simpa using this.symm
  let e : Fin w ≃ κ := (Fintype.equivFinOfCardEq hcard).symm
  refine ⟨fun j => a (e j), ?_⟩
  let L : (Fin D → ℝ) →ₗ[ℝ] (Fin w → ℝ) :=
    { toFun := fun u j => (∑ b, u b * E b j) * s
      map_add' := fun u v => by funext j; simp [add_mul, Finset.sum_add_distrib]
      map_smul' := fun c u => by funext j; simp [Finset.mul_sum, mul_assoc, Finset.sum_mul] }
  refine LinearIndependent.of_comp L ?_
  exact (hli.comp e e.injective)

/-- Enough independent gradients: almost all matrices give spanning features. -/
lemma spans_of_rich {w : ℕ} (g : X → Fin D → ℝ) (data : List X) (s : ℝ) (hs : s ≠ 0) (π : Fin D × Fin w → ℤ × ℕ × ℕ) (hπ : Function.Injective π)
    (h : Rich g data w) : ∀ᵐ G ∂(TracIn.noise .normal), Spans (fun x j => (∑ a, g x a * G (π (a, j))) * s) data := by
  obtain ⟨f, hf⟩ := h
  obtain ⟨W, hW⟩ := exists_dual _ hf
  let B : Matrix (Fin w) (Fin w) (MvPolynomial (Fin D × Fin w) ℝ) := Matrix.of fun j k => ∑ a, MvPolynomial.C (g data[f j] a) * MvPolynomial.X (a, k)
  have hev : ∀ Y : Fin D × Fin w → ℝ, MvPolynomial.eval Y B.det = (Matrix.of fun j k => ∑ a, g data[f j] a * Y (a, k)).det := by
    intro Y
    rw [RingHom.map_det]
    congr 1
    ext j k
    simp [B]
  have hP : B.det ≠ 0 := by
    intro h0
    have h1 := hev W
    rw [h0, map_zero] at h1
    have h2 : (Matrix.of fun j k => ∑ a, g data[f j] a * W (a, k)) = (1 : Matrix (Fin w) (Fin w) ℝ) := by
      ext j k
      rw [Matrix.of_apply, hW, Matrix.one_apply]
    rw [h2, Matrix.det_one] at h1
    exact zero_ne_one h1
  filter_upwards [poly_ae π hπ _ hP] with G hG v hv
  rw [hev] at hG
  by_contra hne
  refine hG (Matrix.exists_mulVec_eq_zero_iff.1 ⟨v, hne, ?_⟩)
  funext j
  have h1 := hv data[f j] (List.getElem_mem _)
  have h2 : s * ((Matrix.of fun j k => ∑ a, g data[f j] a * G (π (a, k))).mulVec v) j = 0 := by
    rw [← h1]
    simp only [Matrix.mulVec, dotProduct, Matrix.of_apply, Finset.mul_sum]
    exact Finset.sum_congr rfl fun k _ => by ring
  exact (mul_eq_zero.1 h2).resolve_left hs

/-! ### C239 -/

/-- **C239** (features). On the CPU, with a type other than `sjlt` and `grass`, `cache`, `attribute` and `self_attribute` do what TRAK does on fixed features,
namely the projections of the scaled gradients: nothing depends on how the loaders are batched. -/
theorem C239_features (pyInt : List Char → Option ℤ) (env : Env) (A : PTrak X C D) (hdev : A.dev = .cpu)
    (hk : A.params.ptype ≠ .sjlt ∧ A.params.ptype ≠ .grass) (hp : 0 < A.params.projDim) (st : State ℝ X A.width) :
    (∀ full : Loader X, 0 < full.bs → cacheP pyInt env A full = cache (A.plain env) st full) ∧
    (∀ (te : Loader X) (tr : Option (Loader X)), 0 < te.bs → (∀ l ∈ tr, 0 < l.bs) → attributeP pyInt env A st te tr = attribute' (A.plain env) st te tr) ∧
    ∀ tr : Option (Loader X), (∀ l ∈ tr, 0 < l.bs) → selfAttributeP pyInt env A st tr = selfAttribute (A.plain env) st tr := by
  have hc : ∀ (k : ℕ) (l : Loader X) (_ : 0 < l.bs) (g : X → Fin D → ℝ),
      catProj pyInt env A k l g = catRows l fun x => toVec A.width (A.projector.row env k (A.scaled (g x))) := fun k l hb g =>
    catProj_eq pyInt env A hdev hk hp k l hb g
  have hz : (A.plain env).ckpts.zipIdx = A.ckpts.zipIdx.map fun x => (x, x.2) := zipIdx_twice A.ckpts 0
  have ht : ∀ (c : C) (k : ℕ) (l : Loader X), 0 < l.bs → trainPartP pyInt env A c k l = trainPart (A.plain env) (c, k) l := by
    intro c k l hb
    unfold trainPartP trainPart
    rw [hc k l hb]
    rfl
  refine ⟨fun full hb => ?_, fun te tr h1 h2 => ?_, fun tr h => ?_⟩
  · unfold cacheP cache
    rw [hz, foldlM_map']
    congr 1
    refine TracIn.foldlM_congr' _ _ fun s ci _ => ?_
    rw [ht _ _ _ hb]
    rfl
  · unfold attributeP attribute'
    split
    · rfl
    · split
      · rfl
      · rw [hz, foldlM_map']
        congr 1
        refine TracIn.foldlM_congr' _ _ fun s ci _ => ?_
        cases tr with
        | none =>
          simp only [attrStepP, attrStep]
          rw [hc _ _ h1]
          refine congrArg (fun k => catRows te ((A.plain env).phiTarget ci) >>= k) (funext fun Ψ => ?_)
          cases st.inv[ci.2]? <;> rfl
        | some l =>
          simp only [attrStepP, attrStep]
          rw [ht _ _ _ (h2 l rfl), hc _ _ h1]
          rfl
  · cases tr with
    | none => rfl
    | some l =>
      simp only [selfAttributeP, selfAttribute]
      split
      · rfl
      · rw [hz, foldlM_map']
        congr 1
        refine TracIn.foldlM_congr' _ _ fun s ci _ => ?_
        unfold selfStepP selfStep
        rw [ht _ _ _ (h l rfl)]
        refine congrArg (fun k => trainPart (A.plain env) ci l >>= k) (funext fun p => ?_)
        refine congrArg (fun k => solveT A.reg p.1 >>= k) (funext fun inv => ?_)
        refine congrArg (fun M : Mat ℝ => Except.ok (some (runMat s.1 ci.2 M), some (runQ s.2 ci.2 p.2))) ?_
        refine congrArg (Mat.mk 1 p.1.length) (funext fun _ => funext fun i => ?_)
        cases p.1[i]? <;> cases inv[i]? <;> rfl

end Verif.TRAK
