import Verif.TracIn.ProjModel
import Verif.TracIn.Props
import Verif.Projection.RandomProps
import Verif.Projection.TailProps
import Mathlib.Probability.Independence.InfinitePi

/-!
# C238: TracIn always projects
-/

namespace Verif.TracIn

open Verif.Projection MeasureTheory ProbabilityTheory Finset

variable {X C : Type} {D : ℕ}

/-! ### Specification -/

/-- The projection of a gradient at checkpoint number `c`: the row of the CPU projector that depends on the seed, the type, the dimensions and `c` only (C157). -/
noncomputable def PAttributor.row (A : PAttributor X C D) (env : Env) (c : ℕ) (g : Fin D → ℝ) : List ℝ :=
  idealRow (cpuProj env D A.params.projDim A.params.seed A.params.ptype) c g

/-- Specification: Euclidean norm of a row. -/
noncomputable def rowNorm (u : List ℝ) : ℝ := Real.sqrt (u.map (· ^ 2)).sum

/-- Specification: what one checkpoint adds to a score, per unit of weight. -/
noncomputable def rowScore (normalized : Bool) (u v : List ℝ) : ℝ :=
  if normalized then rowDot u v / (max (rowNorm u) 1e-12 * max (rowNorm v) 1e-12) else rowDot u v

/-- Checkpoints with their numbers and weights. -/
def PAttributor.steps (A : PAttributor X C D) : List ((C × ℕ) × ℝ) := A.ckpts.zipIdx.zip A.weights

/-! ### Helper lemmas -/

lemma check_kind (pyInt : List Char → Option ℤ) (k : Kind) : checkArg pyInt .cpu (.str (kindName k)) =
    if k = .sjlt ∨ k = .grass then .error .valueError else .ok (k, 4) := by
  cases k <;> rfl

lemma toVec_ofFn (g : Fin D → ℝ) : toVec D (List.ofFn g) = g := by
  funext i
  simp [toVec]

lemma projected_ok (pyInt : List Char → Option ℤ) (env : Env) (A : PAttributor X C D) (hdev : A.dev = .cpu) (hk : A.params.ptype ≠ .sjlt ∧ A.params.ptype ≠ .grass)
    (hp : 0 < A.params.projDim) (c : ℕ) (grads : List (Fin D → ℝ)) (hg : grads ≠ []) :
    projected pyInt env A c grads = .ok (grads.map (A.row env c)) := by
  have hb : 0 < grads.length := List.length_pos_iff.2 hg
  have hB : IsBatch (.tensor D (grads.map List.ofFn)) grads.length D := by
    refine ⟨rfl, by simp, ?_⟩
    intro x hx
    obtain ⟨g, -, rfl⟩ := List.mem_map.1 hx
    simp
  have hc : checkArg pyInt .cpu (A.randParams grads.length).ptype = .ok (A.params.ptype, 4) := by
    show checkArg pyInt .cpu (.str (kindName A.params.ptype)) = _
    rw [check_kind, if_neg (by rintro (h | h) <;> [exact hk.1 h; exact hk.2 h])]
  obtain ⟨P, hP, hrun⟩ := C157_cpu pyInt env (A.randParams grads.length) hdev A.params.ptype 4 hc hp _ D hB hb
  unfold projected
  rw [hP]
  have := hrun [] _ grads.length hB hb (fun _ _ => 0) c
  refine Eq.trans this ?_
  simp only [rowsOf, List.map_map]
  congr 1
  refine List.map_congr_left fun g _ => ?_
  simp only [Function.comp, toVec_ofFn]
  rfl

lemma foldlM_congr' {α β : Type} {f g : β → α → Except Err β} : ∀ (l : List α) (b : β), (∀ b, ∀ a ∈ l, f b a = g b a) → l.foldlM f b = l.foldlM g b
  | [], _, _ => rfl
  | a :: l, b, h => by
    rw [List.foldlM_cons, List.foldlM_cons, h b a (by simp)]
    cases g b a with
    | error e => rfl
    | ok b' => exact foldlM_congr' l b' fun b a ha => h b a (List.mem_cons_of_mem _ ha)

lemma batch_ne (l : Loader X) (h : 0 < l.bs) (b : ℕ) (hb : b ∈ List.range l.nb) : l.batch b ≠ [] := by
  rw [List.mem_range] at hb
  have := (lt_numBatches_iff h).1 hb
  rw [← List.length_pos_iff, Loader.batch, length_batchAt]
  omega

lemma dotRow_eq (u v : List ℝ) : dotRow u v = rowDot u v := rfl

lemma dot_div (a b : ℝ) : ∀ u v : List ℝ, rowDot (u.map (· / a)) (v.map (· / b)) = rowDot u v / (a * b)
  | [], v => by simp [rowDot]
  | u :: us, [] => by simp [rowDot]
  | u :: us, v :: vs => by
    have := dot_div a b us vs
    simp only [rowDot] at this ⊢
    rw [List.map_cons, List.map_cons, List.zipWith_cons_cons, List.zipWith_cons_cons, List.sum_cons, List.sum_cons, this, div_mul_div_comm, add_div]

lemma block_entry (n : Bool) (w : ℝ) (us vs : List (List ℝ)) (i j : ℕ) (u v : List ℝ) (hu : us[i]? = some u) (hv : vs[j]? = some v) :
    (projBlock n w us vs).f i j = w * rowScore n u v := by
  simp only [projBlock, hu, hv, rowScore, dotRow_eq]
  split
  · rw [normRow, normRow, dot_div, mul_comm]
    rfl
  · rw [mul_comm]

section
variable (pyInt : List Char → Option ℤ) (env : Env) (A : PAttributor X C D) (hdev : A.dev = .cpu)
  (hk : A.params.ptype ≠ .sjlt ∧ A.params.ptype ≠ .grass) (hp : 0 < A.params.projDim)
include hdev hk hp

lemma projPairLoop_eq (tr te : Loader X) (h1 : 0 < tr.bs) (h2 : 0 < te.bs) (c : ℕ) (k : C) (w : ℝ) (M : Mat ℝ) :
    projPairLoop pyInt env A tr te c k w M = pairLoop tr te (fun a b => projBlock A.normalized w
      ((a.map (A.gLoss k)).map (A.row env c)) ((b.map (A.gTarget k)).map (A.row env c))) M := by
  unfold projPairLoop pairLoop
  refine foldlM_congr' _ _ fun M b hb => ?_
  split
  · rfl
  · rw [projected_ok pyInt env A hdev hk hp c _ (by simpa using batch_ne tr h1 b hb)]
    refine foldlM_congr' _ _ fun M t ht => ?_
    split
    · rfl
    · rw [projected_ok pyInt env A hdev hk hp c _ (by simpa using batch_ne te h2 t ht)]
      rfl

lemma projSliceLoop_eq (tr : Loader X) (h1 : 0 < tr.bs) (c : ℕ) (k : C) (w : ℝ) (v : Vec ℝ) :
    projSliceLoop pyInt env A tr c k w v = sliceLoop tr (fun a => projSelf A.normalized w ((a.map (A.gLoss k)).map (A.row env c))) v := by
  unfold projSliceLoop sliceLoop
  refine foldlM_congr' _ _ fun M b hb => ?_
  split
  · rfl
  · rw [projected_ok pyInt env A hdev hk hp c _ (by simpa using batch_ne tr h1 b hb)]
    rfl

lemma steps_spec (tr te : Loader X) (h1 : 0 < tr.bs) (h2 : 0 < te.bs) (s1 : tr.supported = true) (s2 : te.supported = true) (l : List ((C × ℕ) × ℝ)) (M : Mat ℝ)
    (hr : M.r = tr.data.length) (hc : M.c = te.data.length) :
    ∃ M', l.foldlM (fun M x => projPairLoop pyInt env A tr te x.1.2 x.1.1 x.2 M) M = .ok M' ∧ M'.r = tr.data.length ∧ M'.c = te.data.length ∧
      ∀ i (hi : i < tr.data.length) j (hj : j < te.data.length), M'.f i j = M.f i j + (l.map fun x => x.2 * rowScore A.normalized
        (A.row env x.1.2 (A.gLoss x.1.1 tr.data[i])) (A.row env x.1.2 (A.gTarget x.1.1 te.data[j]))).sum := by
  induction l generalizing M with
  | nil => exact ⟨M, rfl, hr, hc, by simp⟩
  | cons x l ih =>
    obtain ⟨M1, e1, r1, c1, f1⟩ := pairLoop_spec tr te (fun a b => projBlock A.normalized x.2
      ((a.map (A.gLoss x.1.1)).map (A.row env x.1.2)) ((b.map (A.gTarget x.1.1)).map (A.row env x.1.2)))
      (fun p q => x.2 * rowScore A.normalized (A.row env x.1.2 (A.gLoss x.1.1 p)) (A.row env x.1.2 (A.gTarget x.1.1 q)))
      (fun a b => by simp [projBlock]) (fun a b => by simp [projBlock])
      (fun a b i j p q ha hb => block_entry _ _ _ _ _ _ _ _ (by simp [ha]) (by simp [hb])) h1 h2 s1 s2 M hr hc
    obtain ⟨M2, e2, r2, c2, f2⟩ := ih M1 r1 c1
    refine ⟨M2, ?_, r2, c2, fun i hi j hj => ?_⟩
    · rw [List.foldlM_cons, projPairLoop_eq pyInt env A hdev hk hp tr te h1 h2, e1]
      exact e2
    · rw [f2 i hi j hj, f1 i hi j hj, List.map_cons, List.sum_cons, add_assoc]

lemma self_steps_spec (tr : Loader X) (h1 : 0 < tr.bs) (s1 : tr.supported = true) (l : List ((C × ℕ) × ℝ)) (v : Vec ℝ) (hv : v.n = tr.data.length) :
    ∃ v', l.foldlM (fun v x => projSliceLoop pyInt env A tr x.1.2 x.1.1 x.2 v) v = .ok v' ∧ v'.n = tr.data.length ∧
      ∀ i (hi : i < tr.data.length), v'.f i = v.f i + (l.map fun x => x.2 * if A.normalized then 1 else
        rowDot (A.row env x.1.2 (A.gLoss x.1.1 tr.data[i])) (A.row env x.1.2 (A.gLoss x.1.1 tr.data[i]))).sum := by
  induction l generalizing v with
  | nil => exact ⟨v, rfl, hv, by simp⟩
  | cons x l ih =>
    obtain ⟨v1, e1, n1, f1⟩ := sliceLoop_spec tr (fun a => projSelf A.normalized x.2 ((a.map (A.gLoss x.1.1)).map (A.row env x.1.2)))
      (fun p => x.2 * if A.normalized then 1 else rowDot (A.row env x.1.2 (A.gLoss x.1.1 p)) (A.row env x.1.2 (A.gLoss x.1.1 p)))
      (fun a => by simp [projSelf])
      (fun a i p ha => by
        simp only [projSelf, List.getElem?_map, ha, Option.map_some, dotRow_eq]
        split <;> rw [mul_comm]) h1 s1 v hv
    obtain ⟨v2, e2, n2, f2⟩ := ih v1 n1
    refine ⟨v2, ?_, n2, fun i hi => ?_⟩
    · rw [List.foldlM_cons, projSliceLoop_eq pyInt env A hdev hk hp tr h1, e1]
      exact e2
    · rw [f2 i hi, f1 i hi, List.map_cons, List.sum_cons, add_assoc]

end

lemma row_dense (env : Env) (A : PAttributor X C D) (hk : A.params.ptype = .normal ∨ A.params.ptype = .rademacher) (c : ℕ) (g : Fin D → ℝ) :
    A.row env c g = (List.range A.params.projDim).map fun j =>
      (∑ a, g a * (env.cpu D).dense A.params.ptype (A.params.seed + 1000 * (j / min A.params.projDim 100 : ℕ) + 100000 * c) a (j % min A.params.projDim 100)) /
        Real.sqrt A.params.projDim := by
  unfold PAttributor.row
  generalize A.params = P at hk
  obtain ⟨p, mb, s, k⟩ := P
  rcases hk with hk | hk <;> · simp only at hk; subst hk; rfl

/-! ### C238 -/

/-- **C238** (scores). On the CPU, with a type other than `sjlt` and `grass`, each score is the weighted sum over the checkpoints of the (optionally normalised) inner
products of the projections of the two samples' gradients, the projection depending on the checkpoint's number but not on the batches; `self_attribute` uses the
projections as well, and returns the sum of the weights if gradients are normalised. -/
theorem C238_scores (pyInt : List Char → Option ℤ) (env : Env) (A : PAttributor X C D) (hdev : A.dev = .cpu)
    (hk : A.params.ptype ≠ .sjlt ∧ A.params.ptype ≠ .grass) (hp : 0 < A.params.projDim) (hl : A.ckpts.length = A.weights.length) (tr te : Loader X)
    (h1 : 0 < tr.bs) (h2 : 0 < te.bs) (s1 : tr.supported = true) (s2 : te.supported = true) :
    (∃ M, attributeP pyInt env A tr te = .ok M ∧ M.r = tr.data.length ∧ M.c = te.data.length ∧
      ∀ i (hi : i < tr.data.length) j (hj : j < te.data.length), M.f i j = (A.steps.map fun x => x.2 * rowScore A.normalized
        (A.row env x.1.2 (A.gLoss x.1.1 tr.data[i])) (A.row env x.1.2 (A.gTarget x.1.1 te.data[j]))).sum) ∧
    ∃ v, selfAttributeP pyInt env A tr = .ok v ∧ v.n = tr.data.length ∧
      ∀ i (hi : i < tr.data.length), v.f i = (A.steps.map fun x => x.2 * if A.normalized then 1 else
        rowDot (A.row env x.1.2 (A.gLoss x.1.1 tr.data[i])) (A.row env x.1.2 (A.gLoss x.1.1 tr.data[i]))).sum := by
  constructor
  · obtain ⟨M, e, r, c, f⟩ := steps_spec pyInt env A hdev hk hp tr te h1 h2 s1 s2 A.steps (Mat.zeros tr.data.length te.data.length) rfl rfl
    refine ⟨M, ?_, r, c, fun i hi j hj => ?_⟩
    · unfold attributeP
      rw [if_neg (by simpa using hl)]
      exact e
    · rw [f i hi j hj]
      simp [Mat.zeros]
  · obtain ⟨v, e, n, f⟩ := self_steps_spec pyInt env A hdev hk hp tr h1 s1 A.steps ⟨tr.data.length, fun _ => 0⟩ rfl
    refine ⟨v, ?_, n, fun i hi => ?_⟩
    · unfold selfAttributeP
      rw [if_neg (by simpa using hl)]
      exact e
    · rw [f i hi]
      simp

/-- **C238** (default). An attributor constructed without `proj_params` projects every gradient to 512 numbers with normal entries from seed 0. -/
theorem C238_default (env : Env) (A : PAttributor X C D) (h : A.projParams = none) (c : ℕ) (g : Fin D → ℝ) :
    A.row env c g = (List.range 512).map fun j =>
      (∑ a, g a * (env.cpu D).dense .normal (1000 * (j / 100 : ℕ) + 100000 * c) a (j % 100)) / Real.sqrt 512 := by
  have hp : A.params = {} := by rw [PAttributor.params, h]; rfl
  have k1 : A.params.ptype = .normal := by rw [hp]
  have k2 : A.params.projDim = 512 := by rw [hp]
  have k3 : A.params.seed = 0 := by rw [hp]
  rw [row_dense env A (Or.inl k1) c g, k1, k2, k3]
  refine List.map_congr_left fun j _ => ?_
  rw [show min 512 100 = 100 from rfl, zero_add]
  norm_num

lemma rowDot_ofFn (g h : Fin D → ℝ) : rowDot (List.ofFn g) (List.ofFn h) = ip g h := by
  rw [List.ofFn_eq_map, List.ofFn_eq_map, rowDot_map, ip]
  rfl

lemma rowNorm_ofFn (g : Fin D → ℝ) : rowNorm (List.ofFn g) = nrm g := by
  unfold rowNorm nrm
  rw [List.ofFn_eq_map, List.map_map]
  rfl

/-- **C238** (identity). Only the type `identity` gives the scores of the gradients themselves; any positive `proj_dim` will do. -/
theorem C238_identity (pyInt : List Char → Option ℤ) (env : Env) (A : PAttributor X C D) (hdev : A.dev = .cpu) (hk : A.params.ptype = .identity)
    (hp : 0 < A.params.projDim) (hl : A.ckpts.length = A.weights.length) (tr te : Loader X)
    (h1 : 0 < tr.bs) (h2 : 0 < te.bs) (s1 : tr.supported = true) (s2 : te.supported = true) :
    ∃ M, attributeP pyInt env A tr te = .ok M ∧ M.r = tr.data.length ∧ M.c = te.data.length ∧
      ∀ i (hi : i < tr.data.length) j (hj : j < te.data.length), M.f i j = ((A.ckpts.zip A.weights).map fun x => x.2 *
        if A.normalized then ip (A.gLoss x.1 tr.data[i]) (A.gTarget x.1 te.data[j]) /
          (max (nrm (A.gLoss x.1 tr.data[i])) 1e-12 * max (nrm (A.gTarget x.1 te.data[j])) 1e-12)
        else ip (A.gLoss x.1 tr.data[i]) (A.gTarget x.1 te.data[j])).sum := by
  obtain ⟨M, e, r, c, f⟩ := (C238_scores pyInt env A hdev (by rw [hk]; decide) hp hl tr te h1 h2 s1 s2).1
  refine ⟨M, e, r, c, fun i hi j hj => ?_⟩
  rw [f i hi j hj]
  have hrow : ∀ c g, A.row env c g = List.ofFn g := by
    intro c g
    unfold PAttributor.row idealRow
    have : (cpuProj env D A.params.projDim A.params.seed A.params.ptype).kind = .identity := hk
    rw [this]
  have hz : A.ckpts.zip A.weights = A.steps.map fun x => (x.1.1, x.2) := by
    unfold PAttributor.steps
    have : A.ckpts = A.ckpts.zipIdx.map (·.1) := by simp
    conv_lhs => rw [this]
    rw [List.zip_map_left]
    rfl
  rw [hz, List.map_map]
  refine congrArg List.sum (List.map_congr_left fun x _ => ?_)
  simp only [hrow, rowScore, Function.comp, rowDot_ofFn, rowNorm_ofFn]

lemma refused_kind (pyInt : List Char → Option ℤ) (env : Env) (A : PAttributor X C D) (hdev : A.dev = .cpu)
    (hk : A.params.ptype = .sjlt ∨ A.params.ptype = .grass) (c : ℕ) (grads : List (Fin D → ℝ)) (hg : grads ≠ []) :
    projected pyInt env A c grads = .error .valueError := by
  have hb : grads.length ≠ 0 := by simpa using hg
  unfold projected randomProject
  have h1 : shapeList (A.randParams grads.length).fbs (.tensor D (grads.map List.ofFn)) = .ok [(grads.map List.ofFn).length * D / grads.length] := by
    simp [shapeList, PAttributor.randParams, hb]
  rw [h1]
  have h2 : checkArg pyInt (A.randParams grads.length).dev (A.randParams grads.length).ptype = .error .valueError := by
    show checkArg pyInt A.dev (.str (kindName A.params.ptype)) = _
    rw [hdev, check_kind, if_pos hk]
  simp only [h2]

lemma refused_dim (pyInt : List Char → Option ℤ) (env : Env) (A : PAttributor X C D) (hdev : A.dev = .cpu)
    (hk : A.params.ptype ≠ .sjlt ∧ A.params.ptype ≠ .grass) (hp : A.params.projDim = 0) (c : ℕ) (grads : List (Fin D → ℝ)) (hg : grads ≠ []) :
    projected pyInt env A c grads = .error .zeroDivisionError := by
  have hb : grads.length ≠ 0 := by simpa using hg
  unfold projected randomProject
  have h1 : shapeList (A.randParams grads.length).fbs (.tensor D (grads.map List.ofFn)) = .ok [(grads.map List.ofFn).length * D / grads.length] := by
    simp [shapeList, PAttributor.randParams, hb]
  rw [h1]
  have h2 : checkArg pyInt (A.randParams grads.length).dev (A.randParams grads.length).ptype = .ok (A.params.ptype, 4) := by
    show checkArg pyInt A.dev (.str (kindName A.params.ptype)) = _
    rw [hdev, check_kind, if_neg (by rintro (h | h) <;> [exact hk.1 h; exact hk.2 h])]
  simp only [h2]
  have h3 : (A.randParams grads.length).dev = .cpu := hdev
  have h4 : (A.randParams grads.length).projDim = 0 := hp
  simp [makeProjector, h3, h4, Basic.init, Basic.blockSize, Except.map]

/-- **C238** (refused). With at least one checkpoint and one sample, the types `sjlt` and `grass` raise `ValueError` on the CPU and a `proj_dim` of 0 raises
`ZeroDivisionError`, even for the type `identity`. -/
theorem C238_refused (pyInt : List Char → Option ℤ) (env : Env) (A : PAttributor X C D) (hdev : A.dev = .cpu) (hl : A.ckpts.length = A.weights.length)
    (hc : A.ckpts ≠ []) (tr te : Loader X) (h1 : 0 < tr.bs) (s1 : tr.supported = true) (hn : tr.data ≠ []) :
    (A.params.ptype = .sjlt ∨ A.params.ptype = .grass →
      attributeP pyInt env A tr te = .error .valueError ∧ selfAttributeP pyInt env A tr = .error .valueError) ∧
    (A.params.ptype ≠ .sjlt → A.params.ptype ≠ .grass → A.params.projDim = 0 →
      attributeP pyInt env A tr te = .error .zeroDivisionError ∧ selfAttributeP pyInt env A tr = .error .zeroDivisionError) := by
  have hb : 0 < tr.nb := by
    unfold Loader.nb
    rw [lt_numBatches_iff h1, Nat.zero_mul]
    exact List.length_pos_iff.2 hn
  obtain ⟨n, hnb⟩ := Nat.exists_eq_succ_of_ne_zero hb.ne'
  have hne := batch_ne tr h1 0 (List.mem_range.2 hb)
  have main : ∀ x : Err, (∀ c grads, grads ≠ [] → projected pyInt env A c grads = .error x) →
      attributeP pyInt env A tr te = .error x ∧ selfAttributeP pyInt env A tr = .error x := by
    intro x hx
    obtain ⟨k, ks, hk⟩ := List.exists_cons_of_ne_nil hc
    obtain ⟨w, ws, hw⟩ : ∃ w ws, A.weights = w :: ws := List.exists_cons_of_ne_nil (by
      intro h
      rw [h, hk] at hl
      simp at hl)
    have hr : List.range tr.nb = 0 :: (List.range n).map Nat.succ := by rw [hnb, List.range_succ_eq_map]
    constructor
    · unfold attributeP
      rw [if_neg (by simpa using hl), hk, hw, List.zipIdx_cons, List.zip_cons_cons, List.foldlM_cons]
      have : ∀ M, projPairLoop pyInt env A tr te 0 k w M = .error x := by
        intro M
        unfold projPairLoop
        rw [hr, List.foldlM_cons]
        simp only [s1, Bool.not_true, Bool.false_eq_true, if_false]
        rw [hx 0 _ (by simpa using hne)]
        rfl
      rw [this]
      rfl
    · unfold selfAttributeP
      rw [if_neg (by simpa using hl), hk, hw, List.zipIdx_cons, List.zip_cons_cons, List.foldlM_cons]
      have : ∀ v, projSliceLoop pyInt env A tr 0 k w v = .error x := by
        intro v
        unfold projSliceLoop
        rw [hr, List.foldlM_cons]
        simp only [s1, Bool.not_true, Bool.false_eq_true, if_false]
        rw [hx 0 _ (by simpa using hne)]
        rfl
      rw [this]
      rfl
  exact ⟨fun hk => main _ fun c g hg => refused_kind pyInt env A hdev hk c g hg,
    fun k1 k2 hp => main _ fun c g hg => refused_dim pyInt env A hdev ⟨k1, k2⟩ hp c g hg⟩

end Verif.TracIn
