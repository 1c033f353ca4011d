import Mathlib.Algebra.BigOperators.Ring.Finset
import Mathlib.Algebra.BigOperators.Field
import Mathlib.Algebra.BigOperators.Fin
import Mathlib.Tactic.Ring
import Mathlib.Tactic.NormNum
import Mathlib.Tactic.Positivity
import Mathlib.Tactic.Linarith
import Mathlib.Data.List.GetD
import Verif.Base.Blocks
import Verif.Projection.CudaModel

/-!
# C30, C77: history (in)dependence of `CudaProjector`; C29 for the CUDA projector
-/

namespace Verif.Projection

variable {d : ℕ}

/-- Sparse Johnson–Lindenstrauss map with one non-zero per input coordinate: output `j` sums the signed inputs of bucket `j`. -/
noncomputable def sjRow (p : ℕ) (bucket : ℕ → ℕ) (sign : ℕ → ℝ) (x : List ℝ) : List ℝ :=
  (List.range p).map fun j => ((List.range x.length).map fun i => if bucket i = j then sign i * x.getD i 0 else 0).sum

/-- The row that ensemble `e` is specified to produce (GraSS with intermediate dimension `min (p * mult) d`). -/
noncomputable def cIdealRow (c : Cuda d) (e : ℤ) (x : Fin d → ℝ) : List ℝ :=
  let s := c.seed + 100000 * e
  let D := (min ((c.projDim : ℤ) * c.mult) d).toNat
  match c.kind with
  | .identity => List.ofFn x
  | .randomMask => (((c.rng.perm s).take c.projDim).mergeSort (· ≤ ·)).map x
  | .sjlt => sjRow c.projDim (c.rng.bucket s) (c.rng.sign s) (List.ofFn x)
  | .grass => sjRow c.projDim (c.rng.gBucket s D) (c.rng.gSign s D) ((((c.rng.perm s).take D).mergeSort (· ≤ ·)).map x)
  | k => (List.range c.projDim).map fun j => (∑ a, x a * c.rng.dense k s a j) / Real.sqrt c.projDim

/-- The condition under which the GraSS dimensions never change. -/
def Stable (c : Cuda d) : Prop := 0 < c.projDim ∧ 0 ≤ c.mult ∧ ((c.projDim : ℤ) * c.mult ≤ d ∨ c.projDim ∣ d)

/-- The multiplier still leads to the original intermediate dimension. -/
def MultOk (c : Cuda d) (m : ℤ) : Prop := c.kind = .grass → (grassDims d c.projDim m).1 = min ((c.projDim : ℤ) * c.mult) d

lemma multOk_init (c : Cuda d) : MultOk c c.mult := by
  intro _
  unfold grassDims
  simp only []
  split_ifs with h
  · exact (min_eq_right h.le).symm
  · exact (min_eq_left (not_lt.1 h)).symm

lemma generate_ok (c : Cuda d) (hs : c.kind = .grass → Stable c) (st : CState d) (hm : MultOk c st.mult) (e : ℤ) :
    ∃ st1, c.generate st e = (st1, .ok ()) ∧ MultOk c st1.mult ∧
      ∀ feats, c.apply { st1 with ens := e } feats = .ok (.rows (feats.map (cIdealRow c e))) := by
  have hdense : ∀ (feats : List (Fin d → ℝ)) (M : Fin d → ℕ → ℝ),
      (List.range feats.length).map (fun i => (List.range c.projDim).map fun j => matmul feats M i j / Real.sqrt c.projDim)
        = feats.map fun x => (List.range c.projDim).map fun j => (∑ a, x a * M a j) / Real.sqrt c.projDim := by
    intro feats M
    apply List.ext_getElem
    · simp
    · intro i h1 h2
      simp only [List.length_map, List.length_range] at h1
      simp [matmul, h1]
  unfold Cuda.generate Cuda.apply
  cases hk : c.kind with
  | identity =>
    refine ⟨_, rfl, hm, fun feats => ?_⟩
    refine congrArg (fun f => Except.ok (COut.rows (feats.map f))) ?_; funext x; simp only [cIdealRow, hk]
  | rademacher =>
    refine ⟨_, rfl, hm, fun feats => ?_⟩
    simp only [hdense]
    refine congrArg (fun f => Except.ok (COut.rows (feats.map f))) ?_; funext x; simp only [cIdealRow, hk]
  | normal =>
    refine ⟨_, rfl, hm, fun feats => ?_⟩
    simp only [hdense]
    refine congrArg (fun f => Except.ok (COut.rows (feats.map f))) ?_; funext x; simp only [cIdealRow, hk]
  | randomMask =>
    refine ⟨_, rfl, hm, fun feats => ?_⟩
    refine congrArg (fun f => Except.ok (COut.rows (feats.map f))) ?_; funext x; simp only [cIdealRow, hk, maskOf]
  | sjlt =>
    refine ⟨_, rfl, hm, fun feats => ?_⟩
    refine congrArg (fun f => Except.ok (COut.rows (feats.map f))) ?_; funext x; simp only [cIdealRow, hk, SJ.apply, sjRow]
  | grass =>
    obtain ⟨hp, hmul, hst⟩ := hs hk
    have hD : (grassDims d c.projDim st.mult).1 = min ((c.projDim : ℤ) * c.mult) d := hm hk
    have hD0 : 0 ≤ min ((c.projDim : ℤ) * c.mult) (d : ℤ) := by
      apply le_min
      · positivity
      · positivity
    simp only [hD, not_lt.2 hD0, if_false, pyTake, if_pos hD0]
    refine ⟨_, rfl, ?_, fun feats => ?_⟩
    · intro _
      simp only []
      -- the new multiplier
      have hnew : (grassDims d c.projDim st.mult).2 = st.mult ∨
          ((d : ℤ) < c.projDim * st.mult ∧ (grassDims d c.projDim st.mult).2 = (d : ℤ) / c.projDim) := by
        unfold grassDims; simp only []; split_ifs with h
        · exact Or.inr ⟨h, rfl⟩
        · exact Or.inl rfl
      rcases hnew with h | ⟨h1, h2⟩
      · rw [h]; exact hD
      · have hDd : (grassDims d c.projDim st.mult).1 = d := by
          unfold grassDims; simp [h1]
        rw [h2]
        rcases hst with hle | hdvd
        · -- p * c.mult ≤ d and the dimension is d: then p * c.mult = d
          rw [hDd] at hD
          have heq : (c.projDim : ℤ) * c.mult = d := by
            rcases le_total ((c.projDim : ℤ) * c.mult) d with hh | hh
            · rw [min_eq_left hh] at hD; exact hD.symm
            · exact le_antisymm hle hh
          have hq : (d : ℤ) / c.projDim = c.mult := by
            rw [← heq]; exact Int.mul_ediv_cancel_left _ (by exact_mod_cast hp.ne')
          rw [hq]; exact multOk_init c hk
        · have hq : (c.projDim : ℤ) * ((d : ℤ) / c.projDim) = d := by
            exact Int.mul_ediv_cancel' (by exact_mod_cast hdvd)
          rw [← hD, hDd]
          unfold grassDims
          simp [hq]
    · refine congrArg (fun f => Except.ok (COut.rows (feats.map f))) ?_
      funext x; simp only [cIdealRow, hk, SJ.apply, sjRow]

/-- State invariant: either nothing has been generated (all ids so far were `-1`), or the components are those of the current id. -/
def CInv (c : Cuda d) (h : List (List (Fin d → ℝ) × ℤ)) (st : CState d) : Prop :=
  MultOk c st.mult ∧
  ((∀ call ∈ h, call.2 = -1) → st = c.init) ∧
  ((∃ call ∈ h, call.2 ≠ -1) → ∀ feats, c.apply st feats = .ok (.rows (feats.map (cIdealRow c st.ens))))

lemma project_step (c : Cuda d) (hs : c.kind = .grass → Stable c) (h : List (List (Fin d → ℝ) × ℤ)) (st : CState d)
    (hI : CInv c h st) (feats : List (Fin d → ℝ)) (e : ℤ) :
    CInv c (h ++ [(feats, e)]) (c.project st feats e).1 ∧
    ((∃ call ∈ h, call.2 ≠ -1) ∨ e ≠ -1 → (c.project st feats e).2 = .ok (.rows (feats.map (cIdealRow c e)))) ∧
    ((∀ call ∈ h, call.2 = -1) → e = -1 → (c.project st feats e).2 = c.apply c.init feats) := by
  obtain ⟨hm, hI1, hI2⟩ := hI
  by_cases he : e = st.ens
  · have hp : c.project st feats e = (st, c.apply st feats) := by simp [Cuda.project, he]
    rw [hp]
    refine ⟨⟨hm, ?_, ?_⟩, ?_, ?_⟩
    · intro hall; exact hI1 (fun call hc => hall call (by simp [hc]))
    · rintro ⟨call, hc, hne⟩
      rcases List.mem_append.1 hc with hc | hc
      · exact hI2 ⟨call, hc, hne⟩
      · simp only [List.mem_singleton] at hc
        subst hc
        by_cases hex : ∃ call ∈ h, call.2 ≠ -1
        · exact hI2 hex
        · push Not at hex
          have := hI1 hex
          rw [this] at he
          exact absurd he hne
    · intro hor
      have hex : ∃ call ∈ h, call.2 ≠ -1 := by
        rcases hor with hex | hne
        · exact hex
        · by_contra hex
          push Not at hex
          have := hI1 hex
          rw [this] at he
          exact hne he
      rw [he]; exact hI2 hex feats
    · intro hall _
      simp only []; rw [hI1 hall]
  · obtain ⟨st1, hg, hm1, happ⟩ := generate_ok c hs st hm e
    have hp : c.project st feats e = ({ st1 with ens := e }, c.apply { st1 with ens := e } feats) := by
      simp [Cuda.project, he, hg]
    have hnot : ¬ ((∀ call ∈ h, call.2 = -1) ∧ e = -1) := by
      rintro ⟨hall, he1⟩
      rw [hI1 hall] at he
      exact he he1
    rw [hp]
    refine ⟨⟨hm1, ?_, fun _ => happ⟩, fun _ => happ feats, fun h1 h2 => absurd ⟨h1, h2⟩ hnot⟩
    intro hall
    exact absurd ⟨fun call hc => hall call (by simp [hc]), hall (feats, e) (by simp)⟩ hnot

lemma cinv_run (c : Cuda d) (hs : c.kind = .grass → Stable c) (h : List (List (Fin d → ℝ) × ℤ)) :
    CInv c h (c.run c.init h) := by
  induction h using List.reverseRecOn with
  | nil => exact ⟨multOk_init c, fun _ => rfl, by simp⟩
  | append_singleton h call ih =>
    rw [show c.run c.init (h ++ [call]) = (c.project (c.run c.init h) call.1 call.2).1 by simp [Cuda.run]]
    exact (project_step c hs h _ ih call.1 call.2).1

/-- **C77.** For every type except GraSS, and for GraSS with stable dimensions, the result of `CudaProjector.project(feats, e)` after any
sequence of calls is the specified projection of ensemble `e`, computed row by row, provided `e ≠ -1` or some earlier call used an id other
than `-1`. If all ids so far, including this one, are `-1`, no randomness is ever generated: SJLT, dense and GraSS types raise `TypeError`
and `random_mask` returns the unprojected batch with an extra dimension. -/
theorem C77_cuda_history (c : Cuda d) (hs : c.kind = .grass → Stable c) (h : List (List (Fin d → ℝ) × ℤ))
    (feats : List (Fin d → ℝ)) (e : ℤ) :
    ((∃ call ∈ h, call.2 ≠ -1) ∨ e ≠ -1 →
      (c.project (c.run c.init h) feats e).2 = .ok (.rows (feats.map (cIdealRow c e)))) ∧
    ((∀ call ∈ h, call.2 = -1) → e = -1 → (c.project (c.run c.init h) feats e).2 =
      match c.kind with
      | .identity => .ok (.rows (feats.map List.ofFn))
      | .randomMask => .ok (.unsqueezed feats)
      | _ => .error .typeError) := by
  obtain ⟨-, h1, h2⟩ := project_step c hs h _ (cinv_run c hs h) feats e
  refine ⟨h1, fun ha he => ?_⟩
  rw [h2 ha he]
  unfold Cuda.apply Cuda.init
  cases c.kind <;> rfl

lemma sjRow_linear (p : ℕ) (b : ℕ → ℕ) (s : ℕ → ℝ) (idx : List (Fin d)) (x y : Fin d → ℝ) (r : ℝ) :
    sjRow p b s (idx.map (r • x + y)) =
      List.zipWith (fun a b => r * a + b) (sjRow p b s (idx.map x)) (sjRow p b s (idx.map y)) := by
  unfold sjRow
  simp only [List.length_map]
  have hs : ∀ (l : List ℕ) (f g k : ℕ → ℝ), (∀ j ∈ l, f j = r * g j + k j) → (l.map f).sum = r * (l.map g).sum + (l.map k).sum := by
    intro l f g k hh
    induction l with
    | nil => simp
    | cons a l ih =>
      simp only [List.map_cons, List.sum_cons, hh a (by simp), ih (fun j hj => hh j (by simp [hj]))]; ring
  have hz : ∀ (l : List ℕ) (f g k : ℕ → ℝ), (∀ j, f j = r * g j + k j) →
      l.map f = List.zipWith (fun a b => r * a + b) (l.map g) (l.map k) := by
    intro l f g k hh
    induction l with
    | nil => rfl
    | cons a l ih => simp [hh, ih]
  apply hz
  intro j
  apply hs
  intro i hi
  have hi' : i < idx.length := by simpa using hi
  rw [List.getD_eq_getElem _ _ (by simpa using hi'), List.getD_eq_getElem _ _ (by simpa using hi'),
    List.getD_eq_getElem _ _ (by simpa using hi')]
  simp only [List.getElem_map, Pi.add_apply, Pi.smul_apply, smul_eq_mul]
  split_ifs <;> ring

/-- The ideal row map is linear. -/
lemma cIdealRow_linear (c : Cuda d) (e : ℤ) (x y : Fin d → ℝ) (r : ℝ) :
    cIdealRow c e (r • x + y) = List.zipWith (fun a b => r * a + b) (cIdealRow c e x) (cIdealRow c e y) := by
  have hof : ∀ z : Fin d → ℝ, List.ofFn z = (List.finRange d).map z := fun z => List.ofFn_eq_map
  have hz : ∀ {ι : Type} (l : List ι) (f g k : ι → ℝ), (∀ j, f j = r * g j + k j) →
      l.map f = List.zipWith (fun a b => r * a + b) (l.map g) (l.map k) := by
    intro ι l f g k hh
    induction l with
    | nil => rfl
    | cons a l ih => simp [hh, ih]
  have hent : ∀ (M : Fin d → ℕ → ℝ) (j : ℕ), (∑ a, (r • x + y) a * M a j) / Real.sqrt c.projDim =
      r * ((∑ a, x a * M a j) / Real.sqrt c.projDim) + (∑ a, y a * M a j) / Real.sqrt c.projDim := by
    intro M j
    rw [← mul_div_assoc, ← add_div, Finset.mul_sum, ← Finset.sum_add_distrib]
    congr 1
    apply Finset.sum_congr rfl
    intro a _
    simp only [Pi.add_apply, Pi.smul_apply, smul_eq_mul]; ring
  unfold cIdealRow
  cases c.kind with
  | identity => simp only [hof]; exact hz _ _ _ _ (fun j => rfl)
  | randomMask => exact hz _ _ _ _ (fun j => rfl)
  | sjlt => simp only [hof]; exact sjRow_linear _ _ _ _ _ _ _
  | grass => exact sjRow_linear _ _ _ _ _ _ _
  | rademacher => exact hz _ _ _ _ (fun j => hent _ j)
  | normal => exact hz _ _ _ _ (fun j => hent _ j)

/-! ## C30 -/

/-- **C29** (CUDA projector). For every projection type the rows returned by `CudaProjector.project` depend linearly on the input rows, after
any history of calls (GraSS: with stable dimensions; see `C77_cuda_history` for ensemble id `-1`). -/
theorem C29_cuda_linear (c : Cuda d) (hs : c.kind = .grass → Stable c) (h : List (List (Fin d → ℝ) × ℤ)) (e : ℤ) (he : e ≠ -1)
    (x y : Fin d → ℝ) (r : ℝ) :
    ∃ u v, (c.project (c.run c.init h) [r • x + y, x, y] e).2 = .ok (.rows [List.zipWith (fun a b => r * a + b) u v, u, v]) := by
  refine ⟨cIdealRow c e x, cIdealRow c e y, ?_⟩
  rw [(C77_cuda_history c hs h [r • x + y, x, y] e).1 (Or.inr he)]
  simp only [List.map_cons, List.map_nil, cIdealRow_linear]

/-- **C30** (dimensions). With an overflowing multiplier the first generation uses the intermediate dimension `d`, and every later one
`p * (d / p)`. -/
theorem C30_dims (d p : ℕ) (mult : ℤ) (hp : 0 < p) (hov : (d : ℤ) < p * mult) :
    grassDims d p mult = ((d : ℤ), (d : ℤ) / p) ∧ grassDims d p (grassDims d p mult).2 = ((p : ℤ) * (d / p), (d : ℤ) / p) := by
  have h1 : grassDims d p mult = ((d : ℤ), (d : ℤ) / p) := by unfold grassDims; simp [hov]
  refine ⟨h1, ?_⟩
  rw [h1]
  unfold grassDims
  have : ¬ ((p : ℤ) * ((d : ℤ) / p) > d) := not_lt.2 (Int.mul_ediv_self_le (by exact_mod_cast hp.ne'))
  simp [this]

/-- Without overflow nothing changes. -/
theorem C30_dims_stable (d p : ℕ) (mult : ℤ) (h : (p : ℤ) * mult ≤ d) : grassDims d p mult = ((p : ℤ) * mult, mult) := by
  unfold grassDims; simp [not_lt.2 h]

/-- A random source that makes the mask size visible: every coordinate goes to bucket 0 with sign 1. -/
def countRng (d : ℕ) : CRng d :=
  ⟨fun _ _ _ _ => 0, fun _ => List.finRange d, fun _ _ => 0, fun _ _ => 1, fun _ _ _ => 0, fun _ _ _ => 1⟩

lemma countRow (p : ℕ) (hp : 0 < p) (l : List (Fin d)) :
    (sjRow p (fun _ => 0) (fun _ => 1) (l.map (fun _ => (1 : ℝ))))[0]? = some (l.length : ℝ) := by
  unfold sjRow
  simp only [List.length_map, List.getElem?_map]
  rw [List.getElem?_range hp]
  simp only [Option.map_some, if_true, one_mul]
  congr 1
  rw [List.map_congr_left (g := fun _ => (1 : ℝ))]
  · simp
  · intro i hi
    have hi' : i < l.length := by simpa using hi
    rw [List.getD_eq_getElem _ _ (by simpa using hi')]
    simp

/-- **C30.** For positive projection dimension and non-negative multiplier: the results of a GraSS projector are the same after every call
history (for every random source, seed, batch and ensemble id other than `-1`) iff `p * mult ≤ d` or `p ∣ d`. -/
theorem C30_history_iff (d p : ℕ) (mult : ℤ) (hp : 0 < p) (hm : 0 ≤ mult) :
    (∀ (rng : CRng d) (seed : ℤ) (h : List (List (Fin d → ℝ) × ℤ)) (feats : List (Fin d → ℝ)) (e : ℤ), e ≠ -1 →
      let c : Cuda d := ⟨p, seed, .grass, mult, rng⟩
      (c.project (c.run c.init h) feats e).2 = (c.project c.init feats e).2) ↔
    ((p : ℤ) * mult ≤ d ∨ p ∣ d) := by
  constructor
  · intro H
    by_contra hcon
    push Not at hcon
    obtain ⟨hov, hnd⟩ := hcon
    have := H (countRng d) 0 [([], 0)] [fun _ => 1] 1 (by decide)
    simp only [] at this
    obtain ⟨h1, h2⟩ := C30_dims d p mult hp hov
    rw [h1] at h2
    simp only [] at h2
    have hq : (0 : ℤ) ≤ (p : ℤ) * ((d : ℤ) / p) := by positivity
    have hrun : (Cuda.run ⟨p, 0, .grass, mult, countRng d⟩ (Cuda.init ⟨p, 0, .grass, mult, countRng d⟩) [([], 0)]).ens = 0 ∧
        (Cuda.run ⟨p, 0, .grass, mult, countRng d⟩ (Cuda.init ⟨p, 0, .grass, mult, countRng d⟩) [([], 0)]).mult = (d : ℤ) / p := by
      simp [Cuda.run, Cuda.init, Cuda.project, Cuda.generate, h1, not_lt.2 (Int.natCast_nonneg d)]
    obtain ⟨hr1, hr2⟩ := hrun
    generalize hst : Cuda.run ⟨p, 0, .grass, mult, countRng d⟩ (Cuda.init ⟨p, 0, .grass, mult, countRng d⟩) [([], 0)] = st at *
    simp only [Cuda.project, Cuda.init, hr1, Cuda.generate, hr2, h1, h2, countRng, not_lt.2 hq, ne_eq, one_ne_zero,
      not_false_iff, if_true, if_false, Cuda.apply, pyTake, if_pos hq, not_lt.2 (Int.natCast_nonneg d), Int.natCast_nonneg,
      show ¬ ((1 : ℤ) = -1) by decide] at this
    injection this with this
    injection this with this
    simp only [List.map_cons, List.map_nil, List.cons.injEq, and_true] at this
    have h3 := congrArg (fun l => l[0]?) this
    simp only [SJ.apply] at h3
    have c1 := countRow p hp (((List.finRange d).take ((p : ℤ) * ((d : ℤ) / p)).toNat).mergeSort (· ≤ ·))
    have c2 := countRow p hp (((List.finRange d).take (d : ℤ).toNat).mergeSort (· ≤ ·))
    unfold sjRow at c1 c2
    rw [c1, c2] at h3
    injection h3 with h3
    have h4 : (((List.finRange d).take ((p : ℤ) * ((d : ℤ) / p)).toNat).mergeSort (· ≤ ·)).length =
        (((List.finRange d).take (d : ℤ).toNat).mergeSort (· ≤ ·)).length := by exact_mod_cast h3
    simp only [List.length_mergeSort, List.length_take, List.length_finRange, Int.toNat_natCast, min_self] at h4
    have h5 : ((p : ℤ) * ((d : ℤ) / p)).toNat = p * (d / p) := by
      rw [show ((p : ℤ) * ((d : ℤ) / p)) = ((p * (d / p) : ℕ) : ℤ) by push_cast; rfl]; exact Int.toNat_natCast _
    rw [h5] at h4
    have h6 := Nat.mul_div_le d p
    exact hnd ⟨d / p, by omega⟩
  · intro hst rng seed h feats e he
    have hs : Stable (⟨p, seed, .grass, mult, rng⟩ : Cuda d) := ⟨hp, hm, hst⟩
    have h1 := (C77_cuda_history (⟨p, seed, .grass, mult, rng⟩ : Cuda d) (fun _ => hs) h feats e).1 (Or.inr he)
    have h2 := (C77_cuda_history (⟨p, seed, .grass, mult, rng⟩ : Cuda d) (fun _ => hs) [] feats e).1 (Or.inr he)
    simp only []
    rw [h1]
    exact h2.symm

/-- Overflow with a non-divisor exists: 10 features, projection dimension 4, default multiplier 4: 10 coordinates are kept first, 8 later. -/
example : grassDims 10 4 4 = (10, 2) ∧ grassDims 10 4 2 = (8, 2) := by decide

example : Stable (⟨2, 0, .grass, 4, countRng 10⟩ : Cuda 10) := by simp [Stable]

/-- A concrete SJLT row. -/
example : sjRow 2 (fun i => i % 2) (fun i => if i = 0 then 1 else -1) [3, 4, 5] = [-2, -4] := by
  simp [sjRow, List.range_succ]; norm_num

end Verif.Projection
