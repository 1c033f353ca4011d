import Verif.TRAK.ShapeModel
import Verif.TRAK.RidgeProps

/-! # C180, C181: TRAK with one-element correct probabilities, and after a failed `cache` -/

namespace Verif.TRAK

open Matrix

variable {R X C : Type} {d : ℕ}

/-! ## Lemmas -/

lemma bdim_some (a b k : ℕ) : bdim a b = some k ↔ (a = b ∧ k = a) ∨ (a ≠ b ∧ a = 1 ∧ k = b) ∨ (a ≠ b ∧ a ≠ 1 ∧ b = 1 ∧ k = a) := by
  unfold bdim
  split_ifs <;> simp <;> omega

lemma bdim_none (a b : ℕ) : bdim a b = none ↔ ¬ (a = b ∨ a = 1 ∨ b = 1) := by
  unfold bdim
  split_ifs <;> simp <;> omega

/-- Equal batches. -/
lemma equal_batches (l : Loader X) (hb : 0 < l.bs) (hne : l.data ≠ []) :
    (∀ b < l.nb, (l.batch b).length = (l.batch 0).length) ↔ (l.data.length ≤ l.bs ∨ l.bs ∣ l.data.length) := by
  have hpos : 0 < l.data.length := List.length_pos_iff.2 hne
  simp only [Loader.batch, length_batchAt, Loader.nb, Nat.zero_mul, Nat.sub_zero, lt_numBatches_iff hb]
  constructor
  · intro h
    by_contra hc
    push Not at hc
    obtain ⟨h1, h2⟩ := hc
    have h3 : l.data.length / l.bs * l.bs < l.data.length := by
      refine lt_of_le_of_ne (Nat.div_mul_le_self _ _) fun he => h2 ⟨l.data.length / l.bs, by rw [mul_comm]; exact he.symm⟩
    have h4 := h _ h3
    have h5 := Nat.div_add_mod l.data.length l.bs
    have h6 := Nat.mod_lt l.data.length hb
    rw [mul_comm] at h5
    omega
  · rintro (h | ⟨k, hk⟩) b hlt
    · rcases Nat.eq_zero_or_pos b with rfl | h0
      · simp
      · have := Nat.le_mul_of_pos_left l.bs h0
        omega
    · have h1 : b < k := by
        by_contra hc
        push Not at hc
        have := Nat.mul_le_mul_left l.bs hc
        rw [mul_comm l.bs b] at this
        omega
      have h2 := Nat.mul_le_mul_left l.bs (Nat.succ_le_of_lt h1)
      rw [Nat.mul_succ, mul_comm l.bs b] at h2
      omega

variable [Field R]

lemma wide_rows (p : X → R) (b : List X) :
    ((List.range (wideBatch p b).r).map fun r : ℕ => (wideBatch p b).f r) = b.map fun x => fun _ : ℕ => 1 - p x := by
  refine List.ext_getElem (by simp [wideBatch]) fun i h1 h2 => ?_
  simp only [wideBatch, List.length_map, List.length_range] at h1
  funext s
  rw [List.getElem_map, List.getElem_map, List.getElem_range]
  simp [wideBatch, h1]

lemma catWide_spec (p : X → R) (l : Loader X) (hb : 0 < l.bs) (hne : l.data ≠ []) :
    ((l.data.length ≤ l.bs ∨ l.bs ∣ l.data.length) → ∃ Q, catWide ((List.range l.nb).map fun b : ℕ => wideBatch p (l.batch b)) = .ok Q ∧
      Q.r = l.data.length ∧ Q.c = min l.bs l.data.length ∧ ∀ i (hi : i < l.data.length) s, Q.f i s = 1 - p l.data[i]) ∧
    (¬ (l.data.length ≤ l.bs ∨ l.bs ∣ l.data.length) → catWide ((List.range l.nb).map fun b : ℕ => wideBatch p (l.batch b)) = .error .runtimeError) := by
  have hpos : 0 < l.data.length := List.length_pos_iff.2 hne
  have hnb : 0 < l.nb := (lt_numBatches_iff hb).2 (by simpa using hpos)
  obtain ⟨k, hk⟩ : ∃ k, l.nb = k + 1 := ⟨l.nb - 1, by omega⟩
  set ms := (List.range l.nb).map fun b : ℕ => wideBatch p (l.batch b) with hms
  have hcons : ms = wideBatch p (l.batch 0) :: ((List.range k).map fun b : ℕ => wideBatch p (l.batch (b + 1))) := by
    rw [hms, hk, List.range_succ_eq_map]; simp [Function.comp_def]
  have hall : (ms.all fun m' => m'.c == (wideBatch p (l.batch 0)).c) = true ↔ (l.data.length ≤ l.bs ∨ l.bs ∣ l.data.length) := by
    rw [← equal_batches l hb hne, hms]
    simp [wideBatch]
  have hcat : catWide ms = if (ms.all fun m' => m'.c == (wideBatch p (l.batch 0)).c) = true then
      .ok ⟨(ms.map (·.r)).sum, (wideBatch p (l.batch 0)).c, fun i s => (((ms.flatMap fun m' => (List.range m'.r).map fun r : ℕ => m'.f r)[i]?).map (· s)).getD 0⟩
      else .error .runtimeError := by
    rw [hcons]; rfl
  have hflat : (ms.flatMap fun m' => (List.range m'.r).map fun r : ℕ => m'.f r) = l.data.map fun x => fun _ : ℕ => 1 - p x := by
    rw [hms, List.flatMap_map]
    simp only [wide_rows]
    have := flatten_batches l.bs hb l.data
    conv_rhs => rw [← this]
    rw [batches, List.map_flatten, List.map_map]
    rfl
  constructor
  · intro h
    rw [hcat, if_pos (hall.2 h), hflat]
    refine ⟨_, rfl, ?_, ?_, fun i hi s => by simp [hi]⟩
    · show (ms.map (·.r)).sum = _
      have h1 := congrArg List.length hflat
      rw [List.length_flatMap, List.length_map] at h1
      simpa using h1
    · show (wideBatch p (l.batch 0)).c = _
      simp [wideBatch, Loader.batch, length_batchAt]
  · intro h
    rw [hcat, if_neg fun hc => h (hall.1 hc)]

lemma catWide_prop (p : X → R) (l : Loader X) (hb : 0 < l.bs) (hne : l.data ≠ []) (hw : l.data.length ≤ l.bs ∨ l.bs ∣ l.data.length) :
    ∃ Q, catWide ((List.range l.nb).map fun b : ℕ => wideBatch p (l.batch b)) = .ok Q ∧
      Q.r = l.data.length ∧ Q.c = min l.bs l.data.length ∧ ∀ i (hi : i < l.data.length) s, Q.f i s = 1 - p l.data[i] :=
  (catWide_spec p l hb hne).1 hw

/-- The two loops side by side. -/
lemma wide_fold [CharZero R] (A : Attributor R X C d) (tr te : Loader X)
    (b1 : 0 < tr.bs) (b2 : 0 < te.bs) (s1 : tr.supported = true) (s2 : te.supported = true)
    (n1 : tr.data ≠ []) (n2 : te.data ≠ []) (hw : tr.data.length ≤ tr.bs ∨ tr.bs ∣ tr.data.length) (cs : List C)
    (hdet : ∀ c ∈ cs, (kernel A.reg (tr.data.map (A.phiLoss c))).det ≠ 0) :
    ∃ a q, cs.zipIdx.foldlM (attrStepW A tr te) (none, none) = .ok (a, q) ∧
      (∃ q0, cs.zipIdx.foldlM (attrStep A fresh (some tr) te) (none, none) = .ok (a, q0)) ∧
      (cs ≠ [] → ∃ M, q = some M ∧ M.r = tr.data.length ∧ M.c = min tr.bs tr.data.length) ∧
      ∀ i (hi : i < tr.data.length) s, valM q i s = (cs.map (fun c => 1 - A.prob c tr.data[i])).sum / (cs.length : R) := by
  induction cs using List.reverseRecOn with
  | nil => exact ⟨none, none, rfl, ⟨none, rfl⟩, by simp, by simp [valM]⟩
  | append_singleton cs c ih =>
    obtain ⟨a, q, e, ⟨q0, e0⟩, hs, hv⟩ := ih (fun c h => hdet c (by simp [h]))
    have hd := hdet c (by simp)
    obtain ⟨Q, e1, e2, e3, e4⟩ := catWide_prop (A.prob c) tr b1 n1 hw
    refine ⟨some (runMat a cs.length (prod (te.data.map (A.phiTarget c))
        ((tr.data.map (A.phiLoss c)).map ((kernel A.reg (tr.data.map (A.phiLoss c)))⁻¹ *ᵥ ·)))), some (runMat q cs.length Q), ?_,
        ⟨some (runQ q0 cs.length (tr.data.map (fun x => 1 - A.prob c x))), ?_⟩, ?_, ?_⟩
    · rw [List.zipIdx_append, List.foldlM_append, e]
      simp only [bind, Except.bind, List.zipIdx_singleton, Nat.zero_add, List.foldlM_cons, List.foldlM_nil, attrStepW, e1,
        catRows_ok tr _ b1 s1 n1, catRows_ok te _ b2 s2 n2, solveT, if_neg hd, pure, Except.pure]
    · rw [List.zipIdx_append, List.foldlM_append, e0]
      simp only [bind, Except.bind, List.zipIdx_singleton, Nat.zero_add, List.foldlM_cons, List.foldlM_nil, attrStep, trainPart,
        catRows_ok tr _ b1 s1 n1, catRows_ok te _ b2 s2 n2, solveT, if_neg hd, pure, Except.pure]
    · intro _
      exact ⟨_, rfl, e2, e3⟩
    · intro i hi s
      have : valM (some (runMat q cs.length Q)) i s = (valM q i s * (cs.length : R) + Q.f i s) / ((cs.length + 1 : ℕ) : R) := by
        cases q <;> simp [valM, runMat]
      rw [this, hv i hi s, avg_step, e4 i hi s]
      by_cases h0 : cs = []
      · subst h0; simp
      · rw [if_neg (fun h => h0 (List.length_eq_zero_iff.1 h))]
        simp

/-! ## C180 -/

/-- Specification: mean over the checkpoints of `ψ_jᵀ (ΦᵀΦ+λI)⁻¹ φ_i`, what the score is before the factor for the correct probability. -/
noncomputable def core (A : Attributor R X C d) (tr te : Loader X) (i : Fin tr.data.length) (j : Fin te.data.length) : R :=
  (A.ckpts.map (fun c => A.phiTarget c te.data[j] ⬝ᵥ ((gram A.reg tr.data.length (feat A c tr.data))⁻¹ *ᵥ A.phiLoss c tr.data[i]))).sum / (A.ckpts.length : R)

/-- Specification: mean over the checkpoints of `1 - p_i`. -/
def wrong (A : Attributor R X C d) (tr : Loader X) (i : Fin tr.data.length) : R :=
  (A.ckpts.map (fun c => 1 - A.prob c tr.data[i])).sum / (A.ckpts.length : R)

/-- **C180 (disagreement).** With a correct-probability function that returns one-element tensors and a training loader passed to `attribute`: the call succeeds only if
all training batches have the same size `w`, the number of test samples is the number `n` of training samples or one of the two numbers is 1, and `n = w` or one of
these is 1; else it raises `RuntimeError`.  The result is never the documented matrix but a tensor with three dimensions, and its entry `[a, b, 0]` takes the correct
probability of training sample `b`, where `b` counts test samples. -/
theorem C180_uncached [CharZero R] (A : Attributor R X C d) (tr te : Loader X) (b1 : 0 < tr.bs) (b2 : 0 < te.bs) (s1 : tr.supported = true)
    (s2 : te.supported = true) (n1 : tr.data ≠ []) (n2 : te.data ≠ []) (hc : A.ckpts ≠ [])
    (hdet : ∀ c ∈ A.ckpts, (gram A.reg tr.data.length (feat A c tr.data)).det ≠ 0) :
    let n := tr.data.length
    let t := te.data.length
    let w := min tr.bs n
    let fits := (n ≤ tr.bs ∨ tr.bs ∣ n) ∧ (t = n ∨ t = 1 ∨ n = 1) ∧ (n = w ∨ n = 1 ∨ w = 1)
    (¬ fits → attributeW A tr te = .error .runtimeError) ∧
    (fits → ∃ T, attributeW A tr te = .ok T ∧ T.d0 = n ∧ T.d1 = max t n ∧ T.d2 = 1 ∧
      ∀ a (ha : a < n) b (_ : b < max t n) (ht : (if t = 1 then 0 else b) < t) (hn : (if n = 1 then 0 else b) < n),
        T.f a b 0 = core A tr te ⟨a, ha⟩ ⟨if t = 1 then 0 else b, ht⟩ * wrong A tr ⟨if n = 1 then 0 else b, hn⟩) := by
  have hdet' := hdet
  simp only [← kernel_eq_gram] at hdet'
  have hn0 : 0 < tr.data.length := List.length_pos_iff.2 n1
  have ht0 : 0 < te.data.length := List.length_pos_iff.2 n2
  intro n t w fits
  have hwn : w ≤ n := min_le_right _ _
  by_cases hw : n ≤ tr.bs ∨ tr.bs ∣ n
  · obtain ⟨a, q, e, ⟨q0, e0⟩, hs, hv⟩ := wide_fold A tr te b1 b2 s1 s2 n1 n2 hw A.ckpts hdet'
    obtain ⟨Q, rfl, hQr, hQc⟩ := hs hc
    obtain ⟨a', q', e', hs', hv'⟩ := fold_spec A fresh tr te b1 b2 s1 s2 n1 n2 A.ckpts hdet'
    rw [e'] at e0
    simp only [Except.ok.injEq, Prod.mk.injEq] at e0
    obtain ⟨rfl, -⟩ := e0
    obtain ⟨M, l, rfl, -, hMr, hMc, -⟩ := hs' hc
    have hrun : attributeW A tr te = finishWide M Q := by unfold attributeW; rw [e]; rfl
    rw [hrun]
    unfold finishWide
    rw [hMr, hMc, hQr, hQc]
    constructor
    · intro hf
      have hf' : ¬ ((t = n ∨ t = 1 ∨ n = 1) ∧ (n = w ∨ n = 1 ∨ w = 1)) := fun h => hf ⟨hw, h⟩
      cases h1 : bdim te.data.length tr.data.length with
      | none => rfl
      | some m =>
        cases h2 : bdim tr.data.length (min tr.bs tr.data.length) with
        | none => rfl
        | some k =>
          exfalso
          refine hf' ⟨?_, ?_⟩
          · by_contra hcn
            rw [(bdim_none _ _).2 hcn] at h1; cases h1
          · by_contra hcn
            rw [(bdim_none _ _).2 hcn] at h2; cases h2
    · rintro ⟨-, h1, h2⟩
      have e1 : bdim te.data.length tr.data.length = some (max t n) := by
        rw [bdim_some]; show (t = n ∧ max t n = t) ∨ (t ≠ n ∧ t = 1 ∧ max t n = n) ∨ (t ≠ n ∧ t ≠ 1 ∧ n = 1 ∧ max t n = t); omega
      have e2 : bdim tr.data.length (min tr.bs tr.data.length) = some n := by
        rw [bdim_some]; show (n = w ∧ n = n) ∨ (n ≠ w ∧ n = 1 ∧ n = w) ∨ (n ≠ w ∧ n ≠ 1 ∧ w = 1 ∧ n = n); omega
      rw [e1, e2]
      refine ⟨_, rfl, rfl, rfl, rfl, fun a ha b hb ht hn => ?_⟩
      show M.f (if t = 1 then 0 else b) (if n = 1 then 0 else a) * Q.f (if n = 1 then 0 else b) _ = _
      have ha' : (if n = 1 then 0 else a) = a := by split_ifs <;> omega
      rw [ha']
      obtain ⟨h3, -⟩ := hv' a ha (if t = 1 then 0 else b) ht
      have h4 := hv (if n = 1 then 0 else b) hn (if min tr.bs tr.data.length = 1 then 0 else a)
      simp only [valM] at h3 h4
      rw [h3, h4]
      simp only [kernel_eq_gram]
      rfl
  · refine ⟨fun _ => ?_, fun hf => absurd hf.1 hw⟩
    obtain ⟨c, cs, hcs⟩ := List.exists_cons_of_ne_nil hc
    have he := (catWide_spec (A.prob c) tr b1 n1).2 hw
    unfold attributeW
    rw [hcs, List.zipIdx_cons, List.foldlM_cons]
    simp only [attrStepW, bind, Except.bind, catRows_ok tr _ b1 s1 n1, he]

/-- **C180.** As many test as training samples in one batch: entry `[i, j, 0]` is the score of sample `i` on test sample `j` with the wrong factor, the one of training
sample `j`. -/
theorem C180_swapped [CharZero R] (A : Attributor R X C d) (tr te : Loader X) (b1 : 0 < tr.bs) (b2 : 0 < te.bs) (s1 : tr.supported = true)
    (s2 : te.supported = true) (n1 : tr.data ≠ []) (hlen : te.data.length = tr.data.length) (hbs : tr.data.length ≤ tr.bs) (hc : A.ckpts ≠ [])
    (hdet : ∀ c ∈ A.ckpts, (gram A.reg tr.data.length (feat A c tr.data)).det ≠ 0) :
    ∃ T, attributeW A tr te = .ok T ∧ T.d0 = tr.data.length ∧ T.d1 = tr.data.length ∧ T.d2 = 1 ∧
      ∀ (i : Fin tr.data.length) (j : Fin te.data.length), T.f i j 0 = core A tr te i j * wrong A tr (Fin.cast hlen j) := by
  have hn0 : 0 < tr.data.length := List.length_pos_iff.2 n1
  obtain ⟨T, h1, h2, h3, h4, h5⟩ := (C180_uncached A tr te b1 b2 s1 s2 n1 (List.ne_nil_of_length_pos (by omega)) hc hdet).2
    ⟨.inl hbs, .inl hlen, .inl (by simp [hbs])⟩
  refine ⟨T, h1, h2, by rw [h3, hlen, max_self], h4, fun i j => ?_⟩
  have hj := j.2
  have ej : (if te.data.length = 1 then 0 else (j : ℕ)) = j := by split_ifs <;> omega
  have ej' : (if tr.data.length = 1 then 0 else (j : ℕ)) = j := by split_ifs <;> omega
  rw [h5 i i.2 j (by omega) (by rw [ej]; exact hj) (by rw [ej']; omega)]
  congr 2
  · exact Fin.ext ej
  · exact Fin.ext ej'

/-- **C180.** After `cache` such a function is no problem: the flattened values are those of a function that returns plain numbers, so caching and attribution are as in
C12 and C13. -/
theorem C180_cached (A : Attributor R X C d) (c : C) (tr : Loader X) (b1 : 0 < tr.bs) (s1 : tr.supported = true) (n1 : tr.data ≠ []) :
    trainPartFlat A c tr = .ok (tr.data.map (A.phiLoss c), tr.data.map fun x => 1 - A.prob c x) ∧ trainPartFlat A c tr = trainPart A c tr := by
  have h : ((List.range tr.nb).map fun b : ℕ => flatBatch (A.prob c) (tr.batch b)).flatten = tr.data.map fun x => 1 - A.prob c x := by
    have := flatten_batches tr.bs b1 tr.data
    conv_rhs => rw [← this]
    rw [batches, List.map_flatten, List.map_map]
    rfl
  constructor
  · simp only [trainPartFlat, catRows_ok tr _ b1 s1 n1, bind, Except.bind, h]; rfl
  · simp only [trainPartFlat, trainPart, catRows_ok tr _ b1 s1 n1, bind, Except.bind, h]

/-! ## C181 -/

/-- **C181.** After a `cache` that raised, `attribute` with a training loader raises `ValueError`, whatever was cached before. -/
theorem C181_loader_rejected (A : Attributor R X C d) (o : Obj R X d) (full : Loader X) (e : Err) (h : (o.cache A full).1 = .error e)
    (te tr : Loader X) : (o.cache A full).2.attribute' A te (some tr) = .error .valueError := by
  unfold Obj.cache at h ⊢
  cases hc : cache A fresh full with
  | ok st => rw [hc] at h; cases h
  | error e' =>
    cases hl : o.lists <;> simp [Obj.attribute', attribute']

/-- **C181.** After a `cache` that raised, on an attributor that never cached successfully, `attribute` without loader raises `AttributeError` (for a non-empty supported
test loader). -/
theorem C181_never_cached (A : Attributor R X C d) (o : Obj R X d) (ho : o.lists = none) (full : Loader X) (e : Err) (h : (o.cache A full).1 = .error e)
    (te : Loader X) (b2 : 0 < te.bs) (s2 : te.supported = true) (n2 : te.data ≠ []) :
    (o.cache A full).2.attribute' A te none = .error .attributeError := by
  unfold Obj.cache at h ⊢
  cases hc : cache A fresh full with
  | ok st => rw [hc] at h; cases h
  | error e' =>
    simp only [Obj.attribute', ho, Option.isSome_none, Option.isNone_some, Bool.or_self, Bool.false_eq_true, if_false]
    cases hk : A.ckpts with
    | nil => rfl
    | cons c cs =>
      simp only [List.forM_eq_forM, List.forM_cons, stepNoLists, catRows_ok te _ b2 s2 n2, bind, Except.bind]

/-- **C181 (disagreement).** After a successful `cache(train)` followed by a `cache(other)` that raised, `attribute(test)` does not fail: it returns the scores for `train`,
although the attributor records `other` as its training loader. -/
theorem C181_stale (A : Attributor R X C d) (o : Obj R X d) (train other : Loader X) (e : Err) (h1 : (o.cache A train).1 = .ok ())
    (h2 : ((o.cache A train).2.cache A other).1 = .error e) (te : Loader X) :
    ((o.cache A train).2.cache A other).2.full = some other ∧
    ((o.cache A train).2.cache A other).2.attribute' A te none = attribute' A fresh te (some train) := by
  unfold Obj.cache at h1
  cases hc : cache A fresh train with
  | error e' => rw [hc] at h1; cases h1
  | ok st =>
    have hf : st.full = some train := by
      obtain ⟨s, -, h⟩ := bind_ok hc
      cases h; rfl
    have e1 : o.cache A train = (.ok (), ⟨some train, some (st.inv, st.Q)⟩) := by unfold Obj.cache; rw [hc]
    rw [e1] at h2 ⊢
    cases ho : cache A fresh other with
    | ok st' => simp only [Obj.cache, ho] at h2; cases h2
    | error e' =>
      simp only [Obj.cache, ho]
      refine ⟨trivial, ?_⟩
      rw [← C12_cached_eq_uncached A fresh train te st hc]
      obtain ⟨f, inv, Q⟩ := st
      cases hf
      rfl

/-! ## Non-vacuity -/

/-- One feature, probability `x / 10`, regulariser 1. -/
noncomputable def demoW : Attributor ℝ ℝ Unit 1 := ⟨fun _ x _ => x, fun _ x _ => x, fun _ x => x / 10, [()], 1⟩

lemma demoW_det (data : List ℝ) : ∀ c ∈ demoW.ckpts, (gram demoW.reg data.length (feat demoW c data)).det ≠ 0 :=
  fun _ _ => C13_gram_nonsingular 1 one_pos _ _

/-- Two training samples in one batch and three test samples: fails.  Two test samples: entries are multiplied by the wrong factor. -/
example : attributeW demoW ⟨[1, 2], 2, true⟩ ⟨[3, 4, 5], 2, true⟩ = .error .runtimeError ∧
    ∃ T, attributeW demoW ⟨[1, 2], 2, true⟩ ⟨[3, 4], 2, true⟩ = .ok T ∧ T.d2 = 1 := by
  refine ⟨(C180_uncached demoW ⟨[1, 2], 2, true⟩ ⟨[3, 4, 5], 2, true⟩ (by norm_num) (by norm_num) rfl rfl (by simp) (by simp) (by simp [demoW])
    (demoW_det _)).1 (by simp), ?_⟩
  obtain ⟨T, h1, -, -, h2, -⟩ := C180_swapped demoW ⟨[1, 2], 2, true⟩ ⟨[3, 4], 2, true⟩ (by norm_num) (by norm_num) rfl rfl (by simp) rfl (by simp)
    (by simp [demoW]) (demoW_det _)
  exact ⟨T, h1, h2⟩

/-- A `cache` that succeeds followed by one that fails (an empty loader). -/
example : ((({} : Obj ℝ ℝ 1).cache demoW ⟨[1, 2], 2, true⟩).1 = .ok ()) ∧
    ((({} : Obj ℝ ℝ 1).cache demoW ⟨[1, 2], 2, true⟩).2.cache demoW ⟨[], 2, true⟩).1 = .error .runtimeError := by
  obtain ⟨st, e, -⟩ := C12_cache_succeeds demoW fresh ⟨[1, 2], 2, true⟩ (by norm_num) rfl (by simp)
    (fun c hc => by rw [kernel_eq_gram]; exact demoW_det [1, 2] c hc)
  have e2 : cache demoW fresh ⟨[], 2, true⟩ = .error .runtimeError := by
    simp [cache, demoW, trainPart, catRows, Loader.nb, numBatches, bind, Except.bind, pure, Except.pure]
  constructor
  · unfold Obj.cache; rw [e]
  · unfold Obj.cache; rw [e2]

end Verif.TRAK
