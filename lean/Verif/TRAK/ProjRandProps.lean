import Verif.TRAK.ProjProps

/-!
# C239: for which projections TRAK returns scores
-/

namespace Verif.TRAK

open Verif.Projection MeasureTheory ProbabilityTheory Finset

variable {X C : Type} {D : ℕ}

/-- **C239** (columns). With normal or random-sign matrices a feature of a sample is its gradient times the matrix that belongs to the seed and the checkpoint's number,
divided by the square roots of `proj_dim` and of the number of trainable parameters; with `identity` only the latter division is left. -/
theorem C239_columns (env : Env) (A : PTrak X C D) (c : C) (k : ℕ) (x : X) :
    (A.params.ptype = .normal ∨ A.params.ptype = .rademacher → A.width = A.params.projDim ∧ ∀ j : Fin A.width, (A.plain env).phiLoss (c, k) x j =
      (∑ a, A.gLoss c x a * (env.cpu D).dense A.params.ptype (A.params.seed + 1000 * ((j : ℕ) / min A.params.projDim 100 : ℕ) + 100000 * k) a
        (j % min A.params.projDim 100)) / (Real.sqrt A.params.projDim * Real.sqrt A.numParams)) ∧
    (A.params.ptype = .identity → A.width = D ∧ ∀ (j : Fin A.width) (i : Fin D), (i : ℕ) = j →
      (A.plain env).phiLoss (c, k) x j = A.gLoss c x i / Real.sqrt A.numParams) := by
  constructor
  · intro hk
    have hw := width_dense A hk
    refine ⟨hw, fun j => ?_⟩
    have hj : (j : ℕ) < A.params.projDim := hw ▸ j.2
    show (A.projector.row env k (A.scaled (A.gLoss c x))).getD j 0 = _
    rw [TracIn.row_dense env A.projector hk]
    simp only [List.getD_eq_getElem?_getD, List.getElem?_map, List.getElem?_range hj, Option.map_some, Option.getD_some]
    rw [mul_comm (Real.sqrt _), ← div_div]
    refine congrArg (· / Real.sqrt A.params.projDim) ?_
    rw [sum_div]
    refine sum_congr rfl fun a _ => ?_
    rw [PTrak.scaled, div_mul_eq_mul_div]
  · intro hk
    have hw : A.width = D := by unfold PTrak.width; rw [show A.projector.params.ptype = .identity from hk]
    refine ⟨hw, fun j i hij => ?_⟩
    show (A.projector.row env k (A.scaled (A.gLoss c x))).getD j 0 = _
    have : A.projector.row env k (A.scaled (A.gLoss c x)) = List.ofFn (A.scaled (A.gLoss c x)) := by
      unfold TracIn.PAttributor.row idealRow
      rw [show (cpuProj env D A.projector.params.projDim A.projector.params.seed A.projector.params.ptype).kind = .identity from hk]
    rw [this, ← hij]
    simp [PTrak.scaled]

/-! ### Helper lemmas -/

lemma plain_phi (env : Env) (A : PTrak X C D) (hk : A.params.ptype = .normal ∨ A.params.ptype = .rademacher) (c : C) (k : ℕ) :
    (A.plain env).phiLoss (c, k) = fun x (j : Fin A.width) => (∑ a, A.gLoss c x a * (env.cpu D).dense A.params.ptype
      (A.params.seed + 1000 * ((j : ℕ) / min A.params.projDim 100 : ℕ) + 100000 * k) a (j % min A.params.projDim 100)) *
        (Real.sqrt A.params.projDim * Real.sqrt A.numParams)⁻¹ := by
  funext x j
  rw [((C239_columns env A c k x).1 hk).2 j, div_eq_mul_inv]

section
variable (pyInt : List Char → Option ℤ) (A : PTrak X C D) (hdev : A.dev = .cpu) (hk : A.params.ptype = .normal ∨ A.params.ptype = .rademacher)
  (hp : 0 < A.params.projDim) (hreg : A.reg = 0) (st : State ℝ X A.width) (hst : st.full = none) (tr te : Loader X)
  (b1 : 0 < tr.bs) (b2 : 0 < te.bs) (s1 : tr.supported = true) (s2 : te.supported = true) (n1 : tr.data ≠ []) (n2 : te.data ≠ []) (hc : A.ckpts ≠ [])
include hdev hk hp hreg hst b1 b2 s1 s2 n1 n2 hc

lemma returns_iff (env : Env) :
    ((∃ M, attributeP pyInt env A st te (some tr) = .ok M) ↔ ∀ ck ∈ A.ckpts.zipIdx, Spans ((A.plain env).phiLoss ck) tr.data) ∧
    (¬ (∀ ck ∈ A.ckpts.zipIdx, Spans ((A.plain env).phiLoss ck) tr.data) → attributeP pyInt env A st te (some tr) = .error .runtimeError) := by
  have hk' : A.params.ptype ≠ .sjlt ∧ A.params.ptype ≠ .grass := by rcases hk with h | h <;> rw [h] <;> simp
  have he := (C239_features pyInt env A hdev hk' hp st).2.1 te (some tr) b2 (by simpa using b1)
  have hreg' : (A.plain env).reg = 0 := hreg
  have := C179_exists (A.plain env) hreg'.ge st hst tr te b1 b2 s1 s2 n1 n2 (by
    show A.ckpts.zipIdx ≠ []
    simpa using hc)
  rw [he]
  rw [hreg'] at this
  simpa [show (A.plain env).ckpts = A.ckpts.zipIdx from rfl] using this

omit hst b2 s2 n2 hc in
lemma others_iff (env : Env) :
    ((∃ s, cacheP pyInt env A tr = .ok s) ↔ ∀ ck ∈ A.ckpts.zipIdx, Spans ((A.plain env).phiLoss ck) tr.data) ∧
    (¬ (∀ ck ∈ A.ckpts.zipIdx, Spans ((A.plain env).phiLoss ck) tr.data) → cacheP pyInt env A tr = .error .runtimeError) ∧
    (st.full = none → A.ckpts ≠ [] →
      ((∃ M, selfAttributeP pyInt env A st (some tr) = .ok M) ↔ ∀ ck ∈ A.ckpts.zipIdx, Spans ((A.plain env).phiLoss ck) tr.data) ∧
      (¬ (∀ ck ∈ A.ckpts.zipIdx, Spans ((A.plain env).phiLoss ck) tr.data) → selfAttributeP pyInt env A st (some tr) = .error .runtimeError)) := by
  have hk' : A.params.ptype ≠ .sjlt ∧ A.params.ptype ≠ .grass := by rcases hk with h | h <;> rw [h] <;> simp
  have hf := C239_features pyInt env A hdev hk' hp st
  have hreg' : (A.plain env).reg = 0 := hreg
  have := C179_exists_others (A.plain env) hreg'.ge st tr b1 s1 n1
  rw [hf.1 tr b1, hf.2.2 (some tr) (by simpa using b1)]
  rw [hreg'] at this
  simpa [show (A.plain env).ckpts = A.ckpts.zipIdx from rfl] using this

end

/-! ### C239 -/

/-- **C239** (never). Without a regulariser, if at some checkpoint fewer than `proj_dim` of the training samples have linearly independent gradients, `attribute`, `cache`
and `self_attribute` raise `RuntimeError` whatever the random numbers are. -/
theorem C239_never (pyInt : List Char → Option ℤ) (env : Env) (A : PTrak X C D) (hdev : A.dev = .cpu) (hk : A.params.ptype = .normal ∨ A.params.ptype = .rademacher)
    (hp : 0 < A.params.projDim) (hreg : A.reg = 0) (st : State ℝ X A.width) (hst : st.full = none) (tr te : Loader X)
    (b1 : 0 < tr.bs) (b2 : 0 < te.bs) (s1 : tr.supported = true) (s2 : te.supported = true) (n1 : tr.data ≠ []) (n2 : te.data ≠ [])
    (c : C) (hc : c ∈ A.ckpts) (hr : ¬ Rich (A.gLoss c) tr.data A.params.projDim) :
    attributeP pyInt env A st te (some tr) = .error .runtimeError ∧ cacheP pyInt env A tr = .error .runtimeError ∧
      selfAttributeP pyInt env A st (some tr) = .error .runtimeError := by
  have hno : ¬ ∀ ck ∈ A.ckpts.zipIdx, Spans ((A.plain env).phiLoss ck) tr.data := ?_
  · have ho := others_iff pyInt A hdev hk hp hreg st tr b1 s1 n1 env
    exact ⟨(returns_iff pyInt A hdev hk hp hreg st hst tr te b1 b2 s1 s2 n1 n2 (List.ne_nil_of_mem hc) env).2 hno, ho.2.1 hno,
      (ho.2.2 hst (List.ne_nil_of_mem hc)).2 hno⟩
  refine fun h => hr ?_
  obtain ⟨k, hk1, hk2⟩ := List.mem_iff_getElem.1 hc
  have h1 := h (c, k) (by
    rw [List.mem_zipIdx_iff_getElem?, List.getElem?_eq_getElem hk1, hk2])
  rw [plain_phi env A hk] at h1
  rw [← width_dense A hk]
  exact rich_of_spans (A.gLoss c) tr.data _ _ h1

/-- **C239** (almost always). Without a regulariser and with a normal projection, `attribute`, `cache` and `self_attribute` succeed with probability one if at every checkpoint `proj_dim` of the
training samples have linearly independent gradients. -/
theorem C239_almost (pyInt : List Char → Option ℤ) (base : Env) (A : PTrak X C D) (hdev : A.dev = .cpu) (hk : A.params.ptype = .normal)
    (hp : 0 < A.params.projDim) (hN : 0 < A.numParams) (hreg : A.reg = 0) (st : State ℝ X A.width) (hst : st.full = none) (tr te : Loader X)
    (b1 : 0 < tr.bs) (b2 : 0 < te.bs) (s1 : tr.supported = true) (s2 : te.supported = true) (n1 : tr.data ≠ []) (n2 : te.data ≠ []) (hc : A.ckpts ≠ [])
    (hr : ∀ c ∈ A.ckpts, Rich (A.gLoss c) tr.data A.params.projDim) :
    ∀ᵐ G ∂(TracIn.noise .normal), (∃ M, attributeP pyInt (TracIn.envOf base G) A st te (some tr) = .ok M) ∧
      (∃ s, cacheP pyInt (TracIn.envOf base G) A tr = .ok s) ∧ ∃ M, selfAttributeP pyInt (TracIn.envOf base G) A st (some tr) = .ok M := by
  have hw := width_dense A (.inl hk)
  have hall : ∀ᵐ G ∂(TracIn.noise .normal), ∀ ck ∈ {ck | ck ∈ A.ckpts.zipIdx}, Spans ((A.plain (TracIn.envOf base G)).phiLoss ck) tr.data := by
    refine (ae_ball_iff (List.finite_toSet _).countable).2 ?_
    rintro ⟨c, k⟩ hck
    have hcm : c ∈ A.ckpts := by
      have := List.mem_zipIdx_iff_getElem?.1 hck
      exact List.mem_of_getElem? this
    have hr' : Rich (A.gLoss c) tr.data A.width := by rw [hw]; exact hr c hcm
    have hs : (Real.sqrt A.params.projDim * Real.sqrt A.numParams)⁻¹ ≠ 0 := by
      have h1 : 0 < Real.sqrt A.params.projDim := Real.sqrt_pos.2 (by exact_mod_cast hp)
      have h2 : 0 < Real.sqrt A.numParams := Real.sqrt_pos.2 (by exact_mod_cast hN)
      positivity
    have hinj : Function.Injective fun q : Fin D × Fin A.width => TracIn.place A.params.projDim A.params.seed k (q.1, Fin.cast hw q.2) := by
      intro q q' h
      have := TracIn.place_inj _ _ _ h
      obtain ⟨a, j⟩ := q
      obtain ⟨a', j'⟩ := q'
      simpa using this
    filter_upwards [spans_of_rich (A.gLoss c) tr.data _ hs _ hinj hr'] with G hG
    rw [plain_phi _ A (.inl hk)]
    exact hG
  filter_upwards [hall] with G hG
  have ho := others_iff pyInt A hdev (.inl hk) hp hreg st tr b1 s1 n1 (TracIn.envOf base G)
  exact ⟨(returns_iff pyInt A hdev (.inl hk) hp hreg st hst tr te b1 b2 s1 s2 n1 n2 hc _).1.2 hG, ho.1.2 hG, (ho.2.2 hst hc).1.2 hG⟩

/-- **C239** (default). With the default arguments (no regulariser, 512 normal columns) `attribute` raises `RuntimeError` on fewer than 512 training samples, and for
a model with fewer than 512 parameters, whatever the random numbers are. -/
theorem C239_default (pyInt : List Char → Option ℤ) (env : Env) (A : PTrak X C D) (hdev : A.dev = .cpu) (hd : A.projParams = none) (hreg : A.reg = 0)
    (st : State ℝ X A.width) (hst : st.full = none) (tr te : Loader X)
    (b1 : 0 < tr.bs) (b2 : 0 < te.bs) (s1 : tr.supported = true) (s2 : te.supported = true) (n1 : tr.data ≠ []) (n2 : te.data ≠ []) (hc : A.ckpts ≠ [])
    (hlt : tr.data.length < 512 ∨ D < 512) : attributeP pyInt env A st te (some tr) = .error .runtimeError ∧
      cacheP pyInt env A tr = .error .runtimeError ∧ selfAttributeP pyInt env A st (some tr) = .error .runtimeError := by
  have hP : A.params = {} := by
    show A.projParams.getD {} = _
    rw [hd]
    rfl
  obtain ⟨c, hcm⟩ := List.exists_mem_of_ne_nil _ hc
  refine C239_never pyInt env A hdev (.inl (by rw [hP])) (by rw [hP]; norm_num) hreg st hst tr te b1 b2 s1 s2 n1 n2 c hcm ?_
  rw [hP]
  intro h
  have h2 := rich_le h
  have h3 : 512 ≤ tr.data.length := h2.1
  have h4 : 512 ≤ D := h2.2
  omega

/-- **C239** (signs). With random signs and at least two columns, `attribute` without a regulariser raises `RuntimeError` with positive probability, whatever the gradients. -/
theorem C239_signs (pyInt : List Char → Option ℤ) (base : Env) (A : PTrak X C D) (hdev : A.dev = .cpu) (hk : A.params.ptype = .rademacher)
    (hp : 2 ≤ A.params.projDim) (hreg : A.reg = 0) (st : State ℝ X A.width) (hst : st.full = none) (tr te : Loader X)
    (b1 : 0 < tr.bs) (b2 : 0 < te.bs) (s1 : tr.supported = true) (s2 : te.supported = true) (n1 : tr.data ≠ []) (n2 : te.data ≠ []) (hc : A.ckpts ≠ []) :
    0 < TracIn.noise .rademacher {G | attributeP pyInt (TracIn.envOf base G) A st te (some tr) = .error .runtimeError} := by
  have hw := width_dense A (.inr hk)
  let S : Finset (ℤ × ℕ × ℕ) := (Finset.univ : Finset (Fin D × Fin 2)).image fun q => (A.params.seed, (q.1 : ℕ), (q.2 : ℕ))
  have hbox : TracIn.noise .rademacher (Set.pi S fun _ => {1}) = ∏ i ∈ S, TracIn.law .rademacher {1} :=
    Measure.infinitePi_pi _ fun _ _ => measurableSet_singleton _
  have h1 : TracIn.law .rademacher {(1 : ℝ)} = 2⁻¹ := by
    have : ((-1 : ℝ) ∈ ({1} : Set ℝ)) ↔ False := by norm_num
    simp [TracIn.law, Measure.dirac_apply' _ (measurableSet_singleton _), this]
  have hpos : 0 < TracIn.noise .rademacher (Set.pi S fun _ => {1}) := by
    rw [hbox, h1]
    simp [Finset.prod_const, pos_iff_ne_zero]
  refine hpos.trans_le (measure_mono fun G hG => ?_)
  refine (returns_iff pyInt A hdev (.inr hk) (by omega) hreg st hst tr te b1 b2 s1 s2 n1 n2 hc _).2 fun h => ?_
  obtain ⟨c, hcm⟩ : ∃ c, (c, 0) ∈ A.ckpts.zipIdx := by
    obtain ⟨c, l, hl⟩ := List.exists_cons_of_ne_nil hc
    exact ⟨c, by rw [hl]; simp⟩
  have h2 := h _ hcm
  rw [plain_phi _ A (.inr hk)] at h2
  have hG1 : ∀ (a : Fin D) (j : ℕ), j < 2 → G (A.params.seed, (a : ℕ), j) = 1 := by
    intro a j hj
    exact hG (A.params.seed, (a : ℕ), j) (Finset.mem_coe.2 (Finset.mem_image.2 ⟨(a, ⟨j, hj⟩), Finset.mem_univ _, rfl⟩))
  have i0 : 0 < A.width := by omega
  have i1 : 1 < A.width := by omega
  have hz := h2 (Pi.single ⟨0, i0⟩ 1 - Pi.single ⟨1, i1⟩ 1) fun x _ => by
    rw [dotProduct_sub, dotProduct_single, dotProduct_single, sub_eq_zero, mul_one, mul_one]
    refine congrArg (· * (Real.sqrt A.params.projDim * Real.sqrt A.numParams)⁻¹) (sum_congr rfl fun a _ => ?_)
    refine congrArg (A.gLoss c x a * ·) ?_
    show G (A.params.seed + 1000 * ((0 / min A.params.projDim 100 : ℕ) : ℤ) + 100000 * ((0 : ℕ) : ℤ), (a : ℕ), 0 % min A.params.projDim 100) =
      G (A.params.seed + 1000 * ((1 / min A.params.projDim 100 : ℕ) : ℤ) + 100000 * ((0 : ℕ) : ℤ), (a : ℕ), 1 % min A.params.projDim 100)
    rw [Nat.zero_div, Nat.div_eq_of_lt (by omega : 1 < min A.params.projDim 100), Nat.zero_mod, Nat.mod_eq_of_lt (by omega : 1 < min A.params.projDim 100)]
    simp only [Nat.cast_zero, mul_zero, add_zero]
    rw [hG1 a 0 (by norm_num), hG1 a 1 (by norm_num)]
  have := congrFun hz ⟨0, i0⟩
  simp at this

/-! ### The hypotheses are met -/

/-- Two samples with gradients `(1, 0)` and `(1, 1)`. -/
noncomputable def exTrak (p : ℕ) (k : Kind) : PTrak (Fin 2) Unit 2 where
  gLoss _ x a := if a ≤ x then 1 else 0
  gTarget _ x a := x + a
  prob _ _ := 1 / 2
  ckpts := [()]
  numParams := 2
  projParams := some { projDim := p, ptype := k }

lemma exTrak_rich : Rich ((exTrak 2 .normal).gLoss ()) [(0 : Fin 2), 1] 2 := by
  refine ⟨fun j => j, ?_⟩
  rw [Fintype.linearIndependent_iff]
  intro w hw
  have h0 := congrFun hw 0
  have h1 := congrFun hw 1
  simp [exTrak, Fin.sum_univ_two] at h0 h1
  intro i
  fin_cases i
  · simpa [h1] using h0
  · exact h1

example (pyInt : List Char → Option ℤ) (base : Env) :
    ∀ᵐ G ∂(TracIn.noise .normal), (∃ M, attributeP pyInt (TracIn.envOf base G) (exTrak 2 .normal) fresh ⟨[0, 1], 1, true⟩ (some ⟨[0, 1], 2, true⟩) = .ok M) ∧
      (∃ s, cacheP pyInt (TracIn.envOf base G) (exTrak 2 .normal) ⟨[0, 1], 2, true⟩ = .ok s) ∧
      ∃ M, selfAttributeP pyInt (TracIn.envOf base G) (exTrak 2 .normal) fresh (some ⟨[0, 1], 2, true⟩) = .ok M :=
  C239_almost pyInt base (exTrak 2 .normal) rfl rfl (by show 0 < 2; norm_num) (by show 0 < 2; norm_num) rfl fresh rfl _ _ (by simp) (by simp) rfl rfl (by simp) (by simp)
    (by simp [exTrak]) fun _ _ => exTrak_rich

example (pyInt : List Char → Option ℤ) (env : Env) :
    attributeP pyInt env (exTrak 3 .normal) fresh ⟨[0, 1], 1, true⟩ (some ⟨[0, 1], 2, true⟩) = .error .runtimeError :=
  And.left <| C239_never pyInt env (exTrak 3 .normal) rfl (.inl rfl) (by show 0 < 3; norm_num) rfl fresh rfl _ _ (by simp) (by simp) rfl rfl (by simp) (by simp)
    () (by simp [exTrak]) fun h => absurd (rich_le h).1 (by show ¬ 3 ≤ 2; norm_num)

example (pyInt : List Char → Option ℤ) (base : Env) : 0 < TracIn.noise .rademacher
    {G | attributeP pyInt (TracIn.envOf base G) (exTrak 2 .rademacher) fresh ⟨[0, 1], 1, true⟩ (some ⟨[0, 1], 2, true⟩) = .error .runtimeError} :=
  C239_signs pyInt base (exTrak 2 .rademacher) rfl rfl le_rfl rfl fresh rfl _ _ (by simp) (by simp) rfl rfl (by simp) (by simp) (by simp [exTrak])

/-- The same samples with the default arguments. -/
noncomputable def exTrakDefault : PTrak (Fin 2) Unit 2 := { exTrak 2 .normal with projParams := none }

example (pyInt : List Char → Option ℤ) (env : Env) :
    attributeP pyInt env exTrakDefault fresh ⟨[0, 1], 1, true⟩ (some ⟨[0, 1], 2, true⟩) = .error .runtimeError :=
  And.left <| C239_default pyInt env exTrakDefault rfl rfl rfl fresh rfl _ _ (by simp) (by simp) rfl rfl (by simp) (by simp) (by simp [exTrakDefault, exTrak]) (.inr (by norm_num))

example (pyInt : List Char → Option ℤ) (env : Env) :
    attributeP pyInt env (exTrak 2 .randomMask) fresh ⟨[0, 1], 1, true⟩ (some ⟨[0, 1], 2, true⟩) =
      attribute' ((exTrak 2 .randomMask).plain env) fresh ⟨[0, 1], 1, true⟩ (some ⟨[0, 1], 2, true⟩) :=
  (C239_features pyInt env (exTrak 2 .randomMask) rfl (by decide) (by show 0 < 2; norm_num) fresh).2.1 _ _ (by simp) (by simp)

example (env : Env) (x : Fin 2) (j : Fin (exTrak 2 .normal).width) : ((exTrak 2 .normal).plain env).phiLoss ((), 3) x j =
    (∑ a, (if a ≤ x then 1 else 0) * (env.cpu 2).dense .normal (0 + 1000 * ((j : ℕ) / min 2 100 : ℕ) + 100000 * (3 : ℕ)) a (j % min 2 100)) /
      (Real.sqrt (2 : ℕ) * Real.sqrt (2 : ℕ)) :=
  ((C239_columns env (exTrak 2 .normal) () 3 x).1 (.inl rfl)).2 j

end Verif.TRAK
