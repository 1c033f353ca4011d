import Verif.Attr.LoaderModel
import Verif.Attr.DropProps
import Verif.Attr.SelfLemmas
import Verif.TRAK.Lemmas

/-!
# C228: loaders with a batch sampler, without automatic batching, or over iterable data sets
-/

namespace Verif.LoaderKind

open Verif

variable {X S C R : Type}

/-! ## Specification -/

/-- All samples in the order in which the loader yields them. -/
def seen (view : Out X → List S) (l : DL X) : List S := (l.out.map view).flatten

/-- An ordinary loader: a batch size and a data set with a length. -/
def DL.Sized (l : DL X) : Prop := ∃ d n ix bs drop, l = .sized d n ix bs drop ∧ 0 < bs

/-- The data set has a length. -/
def DL.HasLength (l : DL X) : Prop := ∀ d n bs, l ≠ .iterable d n bs

/-! ## Lemmas -/

lemma samplerLen_error {l : DL X} (h : ¬ l.HasLength) : l.samplerLen = .error .typeError := by
  unfold DL.HasLength at h
  push Not at h
  obtain ⟨d, n, bs, rfl⟩ := h
  rfl

lemma samplerLen_ok {l : DL X} (h : l.HasLength) : ∃ n, l.samplerLen = .ok n := by
  cases l with
  | sized d n ix bs drop => exact ⟨_, rfl⟩
  | batchSampler d n idx => exact ⟨_, rfl⟩
  | unbatched d n ix => exact ⟨_, rfl⟩
  | iterable d n bs => exact absurd rfl (h d n bs)

lemma span_none {l : DL X} (h : l.batchSize = none) (k : ℕ) : span l k = .error .typeError := by
  simp [span, h]

lemma span_some {l : DL X} {b n : ℕ} (h : l.batchSize = some b) (hn : l.samplerLen = .ok n) (k : ℕ) :
    span l k = .ok (k * b, min ((k + 1) * b) n) := by
  simp [span, h, hn, bind, Except.bind, pure, Except.pure]

lemma foldlM_const {α β : Type} (l : List β) (a : α) : l.foldlM (fun (a : α) (_ : β) => (.ok a : Except Err α)) a = .ok a := by
  induction l with
  | nil => rfl
  | cons x l ih => rw [List.foldlM_cons]; exact ih

lemma pairs_empty [Add R] (view : Out X → List S) (tr te : DL X) (blk : List S → List S → Mat R) (M : Mat R) (h : tr.out = [] ∨ te.out = []) :
    pairs view tr te blk M = .ok M := by
  unfold pairs
  rcases h with h | h
  · rw [h]; rfl
  · rw [h]
    exact foldlM_const _ _

lemma pairs_none [Add R] (view : Out X → List S) (tr te : DL X) (blk : List S → List S → Mat R) (M : Mat R) (h1 : tr.out ≠ []) (h2 : te.out ≠ [])
    (ht : tr.HasLength) (h : tr.batchSize = none ∨ te.batchSize = none) : pairs view tr te blk M = .error .typeError := by
  obtain ⟨a, l, ha⟩ := List.exists_cons_of_ne_nil h1
  obtain ⟨b, m, hb⟩ := List.exists_cons_of_ne_nil h2
  obtain ⟨n, hn⟩ := samplerLen_ok ht
  unfold pairs
  rw [ha, hb]
  simp only [List.zipIdx_cons, List.foldlM_cons]
  rcases hs : tr.batchSize with _ | s
  · simp [span_none hs, bind, Except.bind]
  · have : te.batchSize = none := by simpa [hs] using h
    simp [span_some hs hn, span_none this, bind, Except.bind]

lemma zipIdx_range {α : Type} (f : ℕ → α) (k : ℕ) : ((List.range k).map f).zipIdx = (List.range k).map fun b : ℕ => (f b, b) := by
  apply List.ext_getElem
  · simp
  · intro i h1 h2
    simp

/-- The `DLoader` of an ordinary loader. -/
def plain (d : ℕ → X) (n : ℕ) (ix : Option (List ℕ)) (bs : ℕ) (drop : Bool) : DLoader X := ⟨(order n ix).map d, bs, drop⟩

lemma pairs_sized [Add R] (view : Out X → List X) (hv : ∀ xs, view (.collated xs) = xs) (d d' : ℕ → X) (n n' : ℕ) (ix ix' : Option (List ℕ)) (bs bs' : ℕ)
    (drop drop' : Bool) (blk : List X → List X → Mat R) (M : Mat R) :
    pairs view (.sized d n ix bs drop) (.sized d' n' ix' bs' drop') blk M = pairLoopD (plain d n ix bs drop) (plain d' n' ix' bs' drop') blk M := by
  unfold pairs pairLoopD
  simp only [DL.out, zipIdx_range, List.foldlM_map, hv, span, DL.batchSize, DL.samplerLen, plain, bind, Except.bind, pure, Except.pure, List.length_map]

/-! ## Attributors that place blocks by batch number -/

/-- **C228 (iterable data sets).** If either data set is iterable, `attribute` of the influence-function attributors raises `TypeError`, even without checkpoints or batches. -/
theorem C228_if_iterable [Field R] (view : Out X → List S) (blk : C → List S → List S → Mat R) (ckpts : List C) (tr te : DL X)
    (h : ¬ tr.HasLength ∨ ¬ te.HasLength) : ifAttribute view blk ckpts tr te = .error .typeError := by
  unfold ifAttribute
  by_cases ht : tr.HasLength
  · obtain ⟨n, hn⟩ := samplerLen_ok ht
    rw [hn, samplerLen_error (by tauto : ¬ te.HasLength)]
    rfl
  · rw [samplerLen_error ht]
    rfl

/-- **C228 (no batch size).** If a loader has no `batch_size` (batch sampler, or no automatic batching), `attribute` of the influence-function attributors raises `TypeError`
as soon as there are a checkpoint and a batch on both sides; otherwise it returns zeros. -/
theorem C228_if_no_batch_size [Field R] (view : Out X → List S) (blk : C → List S → List S → Mat R) (ckpts : List C) (tr te : DL X)
    (n m : ℕ) (hn : tr.samplerLen = .ok n) (hm : te.samplerLen = .ok m) (h : tr.batchSize = none ∨ te.batchSize = none) :
    (ckpts ≠ [] ∧ tr.out ≠ [] ∧ te.out ≠ [] → ifAttribute view blk ckpts tr te = .error .typeError) ∧
    (¬ (ckpts ≠ [] ∧ tr.out ≠ [] ∧ te.out ≠ []) → ∃ M, ifAttribute view blk ckpts tr te = .ok M ∧ M.r = n ∧ M.c = m ∧ ∀ i j, M.f i j = 0) := by
  have hl : tr.HasLength := by
    intro d k bs e
    subst e
    simp [DL.samplerLen] at hn
  have e1 : ifAttribute view blk ckpts tr te = ckpts.zipIdx.foldlM (fun M ci => do
    let M := Attr.Mat.scale M (ci.2 : R)
    let M ← pairs view tr te (blk ci.1) M
    pure (Attr.Mat.divBy M ((ci.2 + 1 : ℕ) : R))) (Mat.zeros n m) := by
    unfold ifAttribute
    rw [hn, hm]
    rfl
  rw [e1]
  constructor
  · rintro ⟨h0, h1, h2⟩
    obtain ⟨c, cs, rfl⟩ := List.exists_cons_of_ne_nil h0
    rw [List.zipIdx_cons, List.foldlM_cons]
    simp only [pairs_none view tr te _ _ h1 h2 hl h]
    rfl
  · intro h0
    rcases ckpts with _ | ⟨c, cs⟩
    · exact ⟨Mat.zeros n m, rfl, rfl, rfl, fun _ _ => rfl⟩
    · have h1 : tr.out = [] ∨ te.out = [] := by
        by_contra hc
        push Not at hc
        exact h0 ⟨by simp, hc.1, hc.2⟩
      have key : ∀ (l : List (C × ℕ)) (M : Mat R), M.r = n → M.c = m → (∀ i j, M.f i j = 0) → ∃ M', l.foldlM (fun M ci => do
          let M := Attr.Mat.scale M (ci.2 : R)
          let M ← pairs view tr te (blk ci.1) M
          pure (Attr.Mat.divBy M ((ci.2 + 1 : ℕ) : R))) M = (.ok M' : Except Err (Mat R)) ∧ M'.r = n ∧ M'.c = m ∧ ∀ i j, M'.f i j = 0 := by
        intro l
        induction l with
        | nil => intro M a b c; exact ⟨M, rfl, a, b, c⟩
        | cons x l ih =>
          intro M a b c
          rw [List.foldlM_cons]
          simp only [pairs_empty view tr te _ _ h1] at ih ⊢
          exact ih (Attr.Mat.divBy (Attr.Mat.scale M (x.2 : R)) ((x.2 + 1 : ℕ) : R)) a b (fun i j => by simp [Attr.Mat.divBy, Attr.Mat.scale, c i j])
      exact key _ _ rfl rfl (fun _ _ => rfl)

/-- **C228 (ordinary loaders).** For loaders with a batch size the call is the one described by the earlier properties (C05, C164). -/
theorem C228_if_sized [Field R] {p q : ℕ} (view : Out X → List X) (hv : ∀ xs, view (.collated xs) = xs) (A : Attr.Sub R X C p q) (ckpts : List C)
    (st : Option (DLoader X)) (d d' : ℕ → X) (n n' : ℕ) (ix ix' : Option (List ℕ)) (bs bs' : ℕ) (drop drop' : Bool) :
    ifAttribute view (fun c => Attr.block A (st.getD (plain d n ix bs drop)).seen c none) ckpts (.sized d n ix bs drop) (.sized d' n' ix' bs' drop') =
      Attr.attributeD A ckpts st none (plain d n ix bs drop) (plain d' n' ix' bs' drop') := by
  unfold ifAttribute Attr.attributeD
  simp only [DL.samplerLen, pairs_sized view hv, Attr.trainLoopD, Attr.badMethod, Bool.false_eq_true, false_and, if_false]
  simp only [bind, Except.bind, plain, List.length_map]

/-- **C228 (which loaders the influence functions accept).** With a checkpoint and non-empty loaders, `attribute` succeeds exactly when both loaders are ordinary ones. -/
theorem C228_if_accepts [Field R] [CharZero R] {p q : ℕ} (view : Out X → List X) (hv : ∀ xs, view (.collated xs) = xs) (A : Attr.Sub R X C p q) (ckpts : List C) (hc : ckpts ≠ [])
    (full : Loader X) (tr te : DL X) (h1 : tr.out ≠ []) (h2 : te.out ≠ []) (hb : ∀ b, tr.batchSize = some b → 0 < b) (hb' : ∀ b, te.batchSize = some b → 0 < b) :
    (∃ M, ifAttribute view (fun c => Attr.block A full c none) ckpts tr te = .ok M) ↔ tr.Sized ∧ te.Sized := by
  constructor
  · rintro ⟨M, hM⟩
    by_cases ht : tr.HasLength
    · by_cases he : te.HasLength
      · obtain ⟨n, hn⟩ := samplerLen_ok ht
        obtain ⟨m, hm⟩ := samplerLen_ok he
        have : ¬ (tr.batchSize = none ∨ te.batchSize = none) := by
          intro h
          rw [(C228_if_no_batch_size view _ ckpts tr te n m hn hm h).1 ⟨hc, h1, h2⟩] at hM
          cases hM
        push Not at this
        constructor
        · cases tr with
          | sized d n ix bs drop => exact ⟨d, n, ix, bs, drop, rfl, hb bs rfl⟩
          | batchSampler d n idx => exact absurd rfl this.1
          | unbatched d n ix => exact absurd rfl this.1
          | iterable d n bs => exact absurd rfl (ht d n bs)
        · cases te with
          | sized d n ix bs drop => exact ⟨d, n, ix, bs, drop, rfl, hb' bs rfl⟩
          | batchSampler d n idx => exact absurd rfl this.2
          | unbatched d n ix => exact absurd rfl this.2
          | iterable d n bs => exact absurd rfl (he d n bs)
      · rw [C228_if_iterable view _ ckpts tr te (Or.inr he)] at hM
        cases hM
    · rw [C228_if_iterable view _ ckpts tr te (Or.inl ht)] at hM
      cases hM
  · rintro ⟨⟨d, n, ix, bs, drop, rfl, hbs⟩, ⟨d', n', ix', bs', drop', rfl, hbs'⟩⟩
    have key : ∀ (l : List (C × ℕ)) (M : Mat R), M.r = (order n ix).length → M.c = (order n' ix').length → ∃ M', l.foldlM (fun M ci => do
        let M := Attr.Mat.scale M (ci.2 : R)
        let M ← pairs view (.sized d n ix bs drop) (.sized d' n' ix' bs' drop') (Attr.block A full ci.1 none) M
        pure (Attr.Mat.divBy M ((ci.2 + 1 : ℕ) : R))) M = (.ok M' : Except Err (Mat R)) := by
      intro l
      induction l with
      | nil => intro M _ _; exact ⟨M, rfl⟩
      | cons x l ih =>
        intro M a b
        obtain ⟨M', e, r, c, -⟩ := pairLoopD_spec (plain d n ix bs drop) (plain d' n' ix' bs' drop') (Attr.block A full x.1 none)
          (fun y z => Attr.dot (A.transTrain x.1 (A.genTrain x.1 y)) (A.transTest x.1 full (A.genTest x.1 z)))
          (fun _ _ => rfl) (fun _ _ => rfl) (fun u v i j y z hy hz => by simp [Attr.block, hy, hz]) hbs hbs' (Attr.Mat.scale M (x.2 : R))
          (by simpa [plain, Attr.Mat.scale] using a) (by simpa [plain, Attr.Mat.scale] using b)
        rw [List.foldlM_cons]
        simp only [pairs_sized view hv, e]
        simp only [pairs_sized view hv] at ih
        exact ih _ (by simpa [plain, Attr.Mat.divBy] using r) (by simpa [plain, Attr.Mat.divBy] using c)
    exact key _ _ rfl rfl

/-- **C228 (TracIn).** TracIn raises `TypeError` for iterable data sets and, as soon as there are a checkpoint and a batch on both sides, for loaders without a batch size;
`self_attribute` the same with the one loader. -/
theorem C228_tracin {d : ℕ} (view : Out X → List S) (A : TracIn.Attributor S C d) (hw : A.ckpts.length = A.weights.length) (tr te : DL X) :
    (¬ tr.HasLength ∨ ¬ te.HasLength → tracin view A tr te = .error .typeError) ∧
    (tr.HasLength → te.HasLength → tr.batchSize = none ∨ te.batchSize = none →
      (tracin view A tr te = .error .typeError ↔ A.ckpts ≠ [] ∧ tr.out ≠ [] ∧ te.out ≠ [])) ∧
    (¬ tr.HasLength → tracinSelf view A tr = .error .typeError) ∧
    (tr.HasLength → tr.batchSize = none → (tracinSelf view A tr = .error .typeError ↔ A.ckpts ≠ [] ∧ tr.out ≠ [])) := by
  have hz : A.ckpts.zip A.weights = [] ↔ A.ckpts = [] := by
    rw [← List.length_eq_zero_iff, ← List.length_eq_zero_iff, List.length_zip]
    omega
  refine ⟨?_, ?_, ?_, ?_⟩
  · intro h
    unfold tracin
    rw [if_neg (by simp [hw])]
    by_cases ht : tr.HasLength
    · obtain ⟨n, hn⟩ := samplerLen_ok ht
      rw [hn, samplerLen_error (by tauto : ¬ te.HasLength)]
      rfl
    · rw [samplerLen_error ht]
      rfl
  · intro ht he h
    obtain ⟨n, hn⟩ := samplerLen_ok ht
    obtain ⟨m, hm⟩ := samplerLen_ok he
    unfold tracin
    rw [if_neg (by simp [hw]), hn, hm]
    simp only [bind, Except.bind]
    by_cases hout : tr.out ≠ [] ∧ te.out ≠ []
    · by_cases hc : A.ckpts = []
      · rw [hz.2 hc]
        simp [hc, pure, Except.pure]
      · obtain ⟨c, cs, hcs⟩ := List.exists_cons_of_ne_nil (fun e => hc (hz.1 e))
        rw [hcs, List.foldlM_cons, pairs_none view tr te _ _ hout.1 hout.2 ht h]
        simp [bind, Except.bind, hc, hout]
    · have h1 : tr.out = [] ∨ te.out = [] := by
        by_contra hcon
        push Not at hcon
        exact hout hcon
      simp only [pairs_empty view tr te _ _ h1, foldlM_const]
      simp only [reduceCtorEq, false_iff]
      exact fun h => hout h.2
  · intro ht
    unfold tracinSelf
    rw [if_neg (by simp [hw]), samplerLen_error ht]
    rfl
  · intro ht h
    obtain ⟨n, hn⟩ := samplerLen_ok ht
    unfold tracinSelf
    rw [if_neg (by simp [hw]), hn]
    simp only [bind, Except.bind, span_none h]
    by_cases hout : tr.out = []
    · simp only [hout, List.zipIdx_nil, List.foldlM_nil, pure, Except.pure, foldlM_const]
      simp
    · obtain ⟨o, os, ho⟩ := List.exists_cons_of_ne_nil hout
      by_cases hc : A.ckpts = []
      · rw [hz.2 hc]
        simp [hc, pure, Except.pure]
      · obtain ⟨c, cs, hcs⟩ := List.exists_cons_of_ne_nil (fun e => hc (hz.1 e))
        rw [hcs, List.foldlM_cons, ho]
        simp [List.zipIdx_cons, bind, Except.bind, hc]

/-- **C228 (ordinary loaders, TracIn).** -/
theorem C228_tracin_sized {p : ℕ} (view : Out X → List X) (hv : ∀ xs, view (.collated xs) = xs) (A : TracIn.Attributor X C p)
    (d d' : ℕ → X) (n n' : ℕ) (ix ix' : Option (List ℕ)) (bs bs' : ℕ) (drop drop' : Bool) :
    tracin view A (.sized d n ix bs drop) (.sized d' n' ix' bs' drop') = TracIn.attributeD A (plain d n ix bs drop) (plain d' n' ix' bs' drop') := by
  unfold tracin TracIn.attributeD
  simp only [DL.samplerLen, pairs_sized view hv]
  simp only [bind, Except.bind, plain, List.length_map]

/-- **C228 (ordinary loaders, self scores of TracIn).** -/
theorem C228_tracin_self_sized {p : ℕ} (view : Out X → List X) (hv : ∀ xs, view (.collated xs) = xs) (A : TracIn.Attributor X C p)
    (d : ℕ → X) (n : ℕ) (ix : Option (List ℕ)) (bs : ℕ) :
    tracinSelf view A (.sized d n ix bs false) = TracIn.selfAttribute A ⟨(order n ix).map d, bs, true⟩ := by
  unfold tracinSelf TracIn.selfAttribute sliceLoop
  simp only [DL.out, zipIdx_range, List.foldlM_map, hv, span, DL.batchSize, DL.samplerLen, DLoader.nb, DLoader.batch, Loader.nb, Loader.batch,
    bind, Except.bind, pure, Except.pure, List.length_map, Bool.not_true, Bool.false_eq_true, if_false]

end Verif.LoaderKind
