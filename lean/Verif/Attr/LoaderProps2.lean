import Verif.Attr.LoaderProps

/-!
# C228, continued: self scores, KNN-Shapley, attributors that concatenate, block metadata and retraining
-/

namespace Verif.LoaderKind

open Verif

variable {X S C R : Type}

/-! ## Self scores -/

/-- Specification: what a yielded batch contributes to row `i` of `n` rows: its `i`-th sample when the batch has `n` samples, its only sample otherwise. -/
def contribution [Zero R] (n : ℕ) (f : S → R) (xs : List S) (i : ℕ) : R := ((xs[if xs.length = n then i else 0]?).map f).getD 0

lemma self_body [Field R] (view : Out X → List S) (f : S → R) (n : ℕ) (os : List (Out X)) (h : ∀ o ∈ os, (view o).length = n ∨ (view o).length = 1) (v : Vec R) (hv : v.n = n) :
    ∃ v', os.foldlM (fun (v : Vec R) o => liftO (v.addIn ⟨(view o).length, fun i => (((view o)[i]?).map f).getD 0⟩)) v = .ok v' ∧ v'.n = n ∧
      ∀ i, v'.f i = v.f i + (os.map fun o => contribution n f (view o) i).sum := by
  induction os generalizing v with
  | nil => exact ⟨v, rfl, hv, by simp⟩
  | cons o os ih =>
    obtain ⟨w, e, hn, hf⟩ : ∃ w, v.addIn ⟨(view o).length, fun i => (((view o)[i]?).map f).getD 0⟩ = some w ∧ w.n = n ∧
        ∀ i, w.f i = v.f i + contribution n f (view o) i := by
      unfold Vec.addIn contribution
      by_cases h1 : (view o).length = n
      · refine ⟨_, if_pos (by simpa [hv] using h1), hv, fun i => ?_⟩
        simp [h1]
      · have h2 := (h o (by simp)).resolve_left h1
        refine ⟨_, (if_neg (by simpa [hv] using h1)).trans (if_pos h2), hv, fun i => ?_⟩
        simp [h1]
    obtain ⟨v', e', hn', hf'⟩ := ih (fun o ho => h o (by simp [ho])) w hn
    refine ⟨v', ?_, hn', fun i => ?_⟩
    · rw [List.foldlM_cons, e]
      exact e'
    · rw [hf', hf]
      simp [add_assoc]

lemma self_body_error [Field R] (view : Out X → List S) (f : S → R) (n : ℕ) (os : List (Out X)) (h : ∃ o ∈ os, (view o).length ≠ n ∧ (view o).length ≠ 1) (v : Vec R) (hv : v.n = n) :
    os.foldlM (fun (v : Vec R) o => liftO (v.addIn ⟨(view o).length, fun i => (((view o)[i]?).map f).getD 0⟩)) v = .error .runtimeError := by
  induction os generalizing v with
  | nil => obtain ⟨o, ho, -⟩ := h; simp at ho
  | cons o os ih =>
    rw [List.foldlM_cons]
    cases e : v.addIn ⟨(view o).length, fun i => (((view o)[i]?).map f).getD 0⟩ with
    | none => rfl
    | some w =>
      have hw : w.n = n ∧ ((view o).length = n ∨ (view o).length = 1) := by
        unfold Vec.addIn at e
        split at e
        · rename_i h1
          injection e with e
          subst e
          exact ⟨hv, Or.inl (by rw [← hv]; exact h1)⟩
        · split at e
          · rename_i h2
            injection e with e
            subst e
            exact ⟨hv, Or.inr h2⟩
          · simp at e
      refine ih ?_ w hw.1
      obtain ⟨o', ho', h1, h2⟩ := h
      rcases List.mem_cons.1 ho' with rfl | hm
      · rcases hw.2 with hc | hc
        · exact absurd hc h1
        · exact absurd hc h2
      · exact ⟨o', hm, h1, h2⟩

/-- **C228 (self scores).** `self_attribute` of the influence-function attributors does not look at `batch_size`: over a data set with a length it succeeds exactly when every
yielded batch has one sample or as many samples as the sampler, and then row `i` is the mean over the checkpoints of the sum over the batches of the score of
the `i`-th sample of a full batch, or of the only sample of a batch; otherwise it raises `RuntimeError`. For iterable data sets it raises `TypeError`. -/
theorem C228_self [Field R] [CharZero R] (view : Out X → List S) (sc : C → S → R) (ckpts : List C) (tr : DL X) :
    (¬ tr.HasLength → ifSelf view sc ckpts tr = .error .typeError) ∧
    ∀ n, tr.samplerLen = .ok n → ckpts ≠ [] →
      ((∀ o ∈ tr.out, (view o).length = n ∨ (view o).length = 1) → ∃ v, ifSelf view sc ckpts tr = .ok v ∧ v.n = n ∧
        ∀ i < n, v.f i = (ckpts.map fun c => (tr.out.map fun o => contribution n (sc c) (view o) i).sum).sum / (ckpts.length : R)) ∧
      ((∃ o ∈ tr.out, (view o).length ≠ n ∧ (view o).length ≠ 1) → ifSelf view sc ckpts tr = .error .runtimeError) := by
  constructor
  · intro h
    unfold ifSelf
    rw [samplerLen_error h]
    rfl
  · intro n hn hc
    constructor
    · intro h
      unfold ifSelf
      rw [hn]
      exact Attr.runningMean_vec n (fun c v => tr.out.foldlM (fun (v : Vec R) o => liftO (v.addIn ⟨(view o).length, fun i => (((view o)[i]?).map (sc c)).getD 0⟩)) v)
        (fun c i => (tr.out.map fun o => contribution n (sc c) (view o) i).sum)
        (fun c v hv => by
          obtain ⟨v', e, a, b⟩ := self_body view (sc c) n tr.out h v hv
          exact ⟨v', e, a, fun i _ => b i⟩) ckpts
    · intro h
      obtain ⟨c, cs, rfl⟩ := List.exists_cons_of_ne_nil hc
      unfold ifSelf
      rw [hn]
      simp only [bind, Except.bind, List.zipIdx_cons, List.foldlM_cons]
      rw [self_body_error view (sc c) n tr.out h _ rfl]

/-- **C228 (self scores, batch sampler).** With a batch sampler yielding the whole data set as one batch in the order `σ`, row `i` is the score of item `σ i`, not of item `i`. -/
theorem C228_self_batch_sampler [Field R] [CharZero R] (view : Out X → List X) (hv : ∀ xs, view (.collated xs) = xs) (sc : C → X → R) (ckpts : List C) (hc : ckpts ≠ [])
    (d : ℕ → X) (σ : List ℕ) : ∃ v, ifSelf view sc ckpts (.batchSampler d σ.length [σ]) = .ok v ∧ v.n = σ.length ∧
      ∀ i (hi : i < σ.length), v.f i = (ckpts.map fun c => sc c (d σ[i])).sum / (ckpts.length : R) := by
  obtain ⟨v, e, hn, hf⟩ := ((C228_self view sc ckpts (.batchSampler d σ.length [σ])).2 σ.length rfl hc).1
    (by intro o ho; left; simp only [DL.out, List.map_cons, List.map_nil, List.mem_singleton] at ho; subst ho; simp [hv])
  refine ⟨v, e, hn, fun i hi => ?_⟩
  rw [hf i hi]
  simp [DL.out, contribution, hv, hi]

/-! ## KNN-Shapley -/

lemma knnFit_none {L : Type} (view : Out X → List S) (dist : S → S → ℚ) (lab : S → L) (tr te : DL X) (n m : ℕ) (st : KNN.Fit L) (ht : tr.HasLength)
    (h : tr.batchSize = none ∨ te.batchSize = none) (h1 : tr.out ≠ []) (h2 : te.out ≠ []) : knnFit view dist lab tr te n m st = .error .typeError := by
  obtain ⟨a, l, ha⟩ := List.exists_cons_of_ne_nil h1
  obtain ⟨b, l', hb⟩ := List.exists_cons_of_ne_nil h2
  obtain ⟨k, hk⟩ := samplerLen_ok ht
  unfold knnFit
  rw [ha, hb]
  simp only [List.zipIdx_cons, List.foldlM_cons]
  rcases hs : tr.batchSize with _ | s
  · simp [span_none hs, bind, Except.bind]
  · have : te.batchSize = none := by simpa [hs] using h
    simp [span_some hs hk, span_none this, bind, Except.bind]

lemma foldlM_ok {α β : Type} (f : α → β → Except Err α) (hf : ∀ a b, ∃ a', f a b = .ok a') (l : List β) (a : α) : ∃ a', l.foldlM f a = .ok a' := by
  induction l generalizing a with
  | nil => exact ⟨a, rfl⟩
  | cons b l ih =>
    obtain ⟨a', h⟩ := hf a b
    rw [List.foldlM_cons, h]
    exact ih a'

lemma knnFit_empty {L : Type} (view : Out X → List S) (dist : S → S → ℚ) (lab : S → L) (tr te : DL X) (n m : ℕ) (st : KNN.Fit L)
    (h : tr.out = [] ∨ te.out = []) : ∃ st', knnFit view dist lab tr te n m st = .ok st' := by
  unfold knnFit
  rcases h with h | h
  · rw [h]
    exact foldlM_ok _ (fun a b => ⟨_, rfl⟩) _ _
  · rw [h]
    exact ⟨st, rfl⟩

/-- The given labels have the right number. -/
def LabelsFit {L : Type} (o : Option (List L)) (n : ℕ) : Prop := ∀ ls, o = some ls → ls.length = n

lemma checkLabels_ok {L : Type} {o : Option (List L)} {l : DL X} {n : ℕ} (hn : l.samplerLen = .ok n) (h : LabelsFit o n) : checkLabels o l = .ok () := by
  cases o with
  | none => rfl
  | some ls => simp [checkLabels, hn, h ls rfl, bind, Except.bind]

/-- **C228 (KNN-Shapley).** With fitting label lists (or none) over data sets with a length, one of the loaders lacking a batch size, `attribute` raises `TypeError` exactly when both loaders yield
something. Without label lists iterable data sets raise `TypeError`. -/
theorem C228_knn {L : Type} [DecidableEq L] (view : Out X → List S) (K : ℕ) (dist : S → S → ℚ) (lab : S → L) (srt : (n : ℕ) → (Fin n → ℚ) → Equiv.Perm (Fin n)) (tr te : DL X) :
    (∀ trl tel n m, tr.samplerLen = .ok n → te.samplerLen = .ok m → LabelsFit trl n → LabelsFit tel m → tr.batchSize = none ∨ te.batchSize = none →
      (knn view K dist lab srt tr te trl tel = .error .typeError ↔ tr.out ≠ [] ∧ te.out ≠ [])) ∧
    (¬ tr.HasLength ∨ ¬ te.HasLength → knn view K dist lab srt tr te none none = .error .typeError) := by
  constructor
  · intro trl tel n m hn hm h1 h2 h
    have hl : tr.HasLength := by
      intro d k bs e
      subst e
      simp [DL.samplerLen] at hn
    unfold knn
    rw [checkLabels_ok hn h1, checkLabels_ok hm h2, hn, hm]
    simp only [bind, Except.bind]
    by_cases hout : tr.out ≠ [] ∧ te.out ≠ []
    · rw [knnFit_none view dist lab tr te n m _ hl h hout.1 hout.2]
      simp [hout]
    · obtain ⟨st, hst⟩ := knnFit_empty view dist lab tr te n m ⟨Mat.zeros m n, trl.getD [], tel.getD []⟩ (by
        by_contra hcon
        push Not at hcon
        exact hout hcon)
      rw [hst]
      simp only [hout, iff_false]
      split_ifs <;> simp
  · intro h
    unfold knn
    simp only [checkLabels, bind, Except.bind]
    by_cases ht : tr.HasLength
    · obtain ⟨n, hn⟩ := samplerLen_ok ht
      rw [hn, samplerLen_error (by tauto : ¬ te.HasLength)]
    · rw [samplerLen_error ht]

lemma knnFit_sized {L : Type} (view : Out X → List X) (hv : ∀ xs, view (.collated xs) = xs) (dist : X → X → ℚ) (lab : X → L)
    (d d' : ℕ → X) (n n' : ℕ) (ix ix' : Option (List ℕ)) (bs bs' : ℕ) (drop drop' : Bool) (st : KNN.Fit L) :
    knnFit view dist lab (.sized d n ix bs drop) (.sized d' n' ix' bs' drop') (order n ix).length (order n' ix').length st =
      liftO (KNN.fitD dist lab (plain d n ix bs drop) (plain d' n' ix' bs' drop') st) := by
  unfold knnFit KNN.fitD
  rw [← foldlM_liftO]
  simp only [DL.out, zipIdx_range, List.foldlM_map, hv]
  have inner : ∀ (st : KNN.Fit L) (t : ℕ), (List.range (plain d n ix bs drop).nb).foldlM (fun (st : KNN.Fit L) b => do
      let c ← span (.sized d n ix bs drop) b
      let r ← span (.sized d' n' ix' bs' drop') t
      let D ← liftO (st.dist.addBlock r.1 r.2 c.1 c.2 (KNN.distBlock dist ((plain d' n' ix' bs' drop').batch t) ((plain d n ix bs drop).batch b)))
      pure (⟨D, if st.trl.length ≠ (order n ix).length then st.trl ++ ((plain d n ix bs drop).batch b).map lab else st.trl, st.tel⟩ : KNN.Fit L)) st =
      liftO (KNN.fitTrainD dist lab (plain d n ix bs drop) (plain d' n' ix' bs' drop') t st) := by
    intro st t
    unfold KNN.fitTrainD
    rw [← foldlM_liftO]
    congr 1
    funext st b
    simp only [span, DL.batchSize, DL.samplerLen, bind, Except.bind, pure, Except.pure, plain, List.length_map]
    generalize st.dist.addBlock _ _ _ _ _ = o
    cases o <;> rfl
  simp only [plain] at inner
  simp only [plain]
  congr 1
  funext st t
  rw [inner]
  generalize KNN.fitTrainD _ _ _ _ _ _ = o
  cases o
  · rfl
  · simp [liftO, bind, Except.bind, pure, Except.pure]

/-- **C228 (ordinary loaders, KNN-Shapley).** -/
theorem C228_knn_sized {L : Type} [DecidableEq L] (view : Out X → List X) (hv : ∀ xs, view (.collated xs) = xs) (K : ℕ) (dist : X → X → ℚ) (lab : X → L)
    (srt : (n : ℕ) → (Fin n → ℚ) → Equiv.Perm (Fin n)) (trl tel : Option (List L))
    (d d' : ℕ → X) (n n' : ℕ) (ix ix' : Option (List ℕ)) (bs bs' : ℕ) (drop drop' : Bool) :
    knn view K dist lab srt (.sized d n ix bs drop) (.sized d' n' ix' bs' drop') trl tel =
      KNN.knnAttributeD K dist lab srt (plain d n ix bs drop) (plain d' n' ix' bs' drop') trl tel := by
  unfold knn KNN.knnAttributeD
  have c : ∀ (o : Option (List L)) (d : ℕ → X) (n : ℕ) (ix : Option (List ℕ)) (bs : ℕ) (drop : Bool),
      checkLabels o (.sized d n ix bs drop) = if KNN.labelMismatch o (plain d n ix bs drop).data.length then .error .valueError else .ok () := by
    intro o d n ix bs drop
    cases o with
    | none => rfl
    | some ls => simp [checkLabels, KNN.labelMismatch, DL.samplerLen, plain, bind, Except.bind]
  have l : ∀ (d : ℕ → X) (n : ℕ) (ix : Option (List ℕ)) (bs : ℕ) (drop : Bool), (order n ix).length = (plain d n ix bs drop).data.length := by
    intro d n ix bs drop
    simp [plain]
  rw [c, c]
  simp only [DL.samplerLen]
  by_cases h1 : KNN.labelMismatch trl (plain d n ix bs drop).data.length = true
  · rw [if_pos h1, if_pos h1]
    rfl
  · rw [if_neg h1, if_neg h1]
    by_cases h2 : KNN.labelMismatch tel (plain d' n' ix' bs' drop').data.length = true
    · rw [if_pos h2, if_pos h2]
      rfl
    · rw [if_neg h2, if_neg h2]
      simp only [bind, Except.bind]
      rw [knnFit_sized view hv, l d n ix bs drop, l d' n' ix' bs' drop']
      generalize KNN.fitD _ _ _ _ _ = o
      cases o <;> rfl

/-! ## Attributors that concatenate -/

lemma catOut_fold {α : Type} (view : Out X → List S) (f : S → α) (os : List (Out X)) (acc : List (List α)) :
    os.foldl (fun acc o => acc ++ [(view o).map f]) acc = acc ++ os.map fun o => (view o).map f := by
  induction os generalizing acc with
  | nil => simp
  | cons o os ih => rw [List.foldl_cons, ih]; simp

lemma catOut_ok {α : Type} (view : Out X → List S) (l : DL X) (f : S → α) (h : l.out ≠ []) : catOut view l f = .ok ((seen view l).map f) := by
  unfold catOut seen
  simp only [catOut_fold, List.nil_append, List.map_eq_nil_iff, h, if_false]
  congr 1
  rw [List.map_flatten, List.map_map]
  rfl

lemma catOut_empty {α : Type} (view : Out X → List S) (l : DL X) (f : S → α) (h : l.out = []) : catOut view l f = .error .runtimeError := by
  unfold catOut
  simp [h]

/-- **C228 (TRAK).** TRAK accepts every kind of loader: the result is the one for ordinary loaders (of any batch sizes) over the samples in the order in which the given loaders yield them. -/
theorem C228_trak [Field R] {d : ℕ} (view : Out X → List S) (A : TRAK.Attributor R S C d) (tr te : DL X) (h1 : seen view tr ≠ []) (h2 : seen view te ≠ []) (b b' : ℕ)
    (hb : 0 < b) (hb' : 0 < b') :
    trak view A tr te = TRAK.attribute' A TRAK.fresh ⟨seen view te, b', true⟩ (some ⟨seen view tr, b, true⟩) := by
  have ne : ∀ l : DL X, seen view l ≠ [] → l.out ≠ [] := by
    intro l h e
    exact h (by simp [seen, e])
  have hstep : trakStep view A tr te = TRAK.attrStep A TRAK.fresh (some ⟨seen view tr, b, true⟩) ⟨seen view te, b', true⟩ := by
    funext s ci
    unfold trakStep TRAK.attrStep TRAK.trainPart
    dsimp only
    rw [TRAK.catRows_ok (⟨seen view tr, b, true⟩ : Loader S) (A.phiLoss ci.1) hb rfl h1, TRAK.catRows_ok (⟨seen view tr, b, true⟩ : Loader S) (fun x => 1 - A.prob ci.1 x) hb rfl h1,
      TRAK.catRows_ok (⟨seen view te, b', true⟩ : Loader S) (A.phiTarget ci.1) hb' rfl h2, catOut_ok view tr _ (ne tr h1), catOut_ok view tr _ (ne tr h1), catOut_ok view te _ (ne te h2)]
    rfl
  unfold trak TRAK.attribute'
  rw [hstep]
  rfl

/-- **C228 (TRAK, empty loaders).** A loader that yields nothing makes TRAK raise `RuntimeError` as soon as there is a checkpoint. -/
theorem C228_trak_empty [Field R] {d : ℕ} (view : Out X → List S) (A : TRAK.Attributor R S C d) (hc : A.ckpts ≠ []) (tr te : DL X) (h : tr.out = [] ∨ te.out = []) :
    trak view A tr te = .error .runtimeError := by
  obtain ⟨c, cs, e⟩ := List.exists_cons_of_ne_nil hc
  have hs : trakStep view A tr te (none, none) (c, 0) = .error .runtimeError := by
    unfold trakStep
    by_cases ht : tr.out = []
    · rw [catOut_empty view tr _ ht]
      rfl
    · rw [catOut_ok view tr _ ht, catOut_ok view tr _ ht, catOut_empty view te _ (h.resolve_left ht)]
      rfl
  unfold trak
  rw [e, List.zipIdx_cons, List.foldlM_cons, hs]
  rfl

/-- **C228 (RPS).** RPS accepts every kind of loader: only the samples and their order matter; a loader that yields nothing raises `RuntimeError`, unless fine-tuning already failed. -/
theorem C228_rps {p c : ℕ} (view : Out X → List S) (A : RPS.Attributor S p c) (tr te : DL X) :
    (tr.out ≠ [] → te.out ≠ [] → rps view A tr te = A.attribute' RPS.St.init [seen view tr] [seen view te]) ∧
    (tr.out = [] → (rps view A tr te).2 = .error .runtimeError) ∧
    (tr.out ≠ [] → te.out = [] → ∃ e, (rps view A tr te).2 = .error e) := by
  refine ⟨?_, ?_, ?_⟩
  · intro h1 h2
    unfold rps RPS.Attributor.attribute' RPS.Attributor.finish
    simp [RPS.layerIO, h1, h2, seen]
  · intro h
    unfold rps RPS.Attributor.attribute'
    simp [RPS.layerIO, h]
  · intro h1 h2
    unfold rps RPS.Attributor.attribute' RPS.Attributor.finish
    simp only [RPS.layerIO, List.map_eq_nil_iff, h1, h2, if_false, if_true, List.map_nil, RPS.St.init, Bool.false_eq_true]
    cases A.tune (tr.out.map view).flatten with
    | error e => exact ⟨e, rfl⟩
    | ok θ => exact ⟨_, rfl⟩

/-! ## Block metadata -/

/-- **C228 (block-projected attributor).** A manager that does not know the batches of the loader raises `TypeError` for a loader without a batch size (unless it yields no batch) and for every
iterable data set; one that already knows as many batches keeps its sizes, whatever the batch sampler yields now. -/
theorem C228_meta (m : BlockIF.Meta) (d : ℕ → X) (n : ℕ) (idx : List (List ℕ)) (bs : Option ℕ) :
    (metaInit m (.batchSampler d n idx) = .error .typeError ↔ m.info.length ≠ idx.length ∧ idx ≠ []) ∧
    (m.info.length = idx.length → metaInit m (.batchSampler d n idx) = .ok m) ∧
    metaInit m (.iterable d n bs) = .error .typeError ∧
    ∀ ix b drop, metaInit m (.sized d n ix b drop) = .ok (m.initialize ⟨(⟨(order n ix).map d, b, drop⟩ : DLoader X).nb, b, (order n ix).length, drop, true⟩) := by
  refine ⟨?_, ?_, rfl, ?_⟩
  · unfold metaInit
    simp only [DL.len, DL.samplerLen, DL.batchSize, bind, Except.bind, pure, Except.pure, List.length_eq_zero_iff]
    split_ifs with h1 h2
    · simp [h1]
    · simp [h2]
    · simp [h1, h2]
  · intro h
    unfold metaInit
    simp [DL.len, h, bind, Except.bind, pure, Except.pure]
  · intro ix b drop
    unfold metaInit
    simp only [DL.len, DL.samplerLen, DL.batchSize, DL.dropLast, bind, Except.bind, pure, Except.pure]
    split_ifs with h1
    · simp [BlockIF.Meta.initialize, h1]
    · rfl

/-! ## Retraining -/

/-- The items in what a loader hands out. -/
def itemsOf : Out X → List X
  | .collated xs => xs
  | .raw x => [x]

/-- **C228 (leave-one-out loaders).** `retrain_loo` raises `TypeError` for iterable data sets. For the other loaders one loader per index is handed to `train_func`; it yields the items
`0, ..., n-1` without the index, in data set order: as collated batches exactly when the given loader has a batch size, and as single uncollated items otherwise - also when the given loader collates
(batch sampler). -/
theorem C228_loo (l : DL X) (indices : List ℤ) :
    (¬ l.HasLength → looLoaders l (some indices) = .error .typeError) ∧
    ∀ n, l.samplerLen = .ok n → ∃ r, looLoaders l (some indices) = .ok r ∧ r.map Prod.fst = indices ∧
      ∀ p ∈ r, (l.batchSize = none → p.2 = (((List.range n).filter fun k : ℕ => (k : ℤ) ≠ p.1).map fun k => Out.raw (l.data k))) ∧
        ∀ b, 0 < b → l.batchSize = some b → (∀ o ∈ p.2, ∃ xs, o = Out.collated xs ∧ xs.length ≤ b) ∧
          (p.2.map itemsOf).flatten = ((List.range n).filter fun k : ℕ => (k : ℤ) ≠ p.1).map l.data := by
  constructor
  · intro h
    unfold looLoaders
    rw [samplerLen_error h]
    rfl
  · intro n hn
    refine ⟨_, by unfold looLoaders; rw [hn]; rfl, ?_, ?_⟩
    · simp [List.map_map, Function.comp_def]
    · intro p hp
      simp only [Option.getD_some, List.mem_map] at hp
      obtain ⟨i, -, rfl⟩ := hp
      constructor
      · intro h
        simp only [h, group, List.map_map]
        rfl
      · intro b hb h
        simp only [h, group]
        constructor
        · intro o ho
          obtain ⟨xs, hxs, rfl⟩ := List.mem_map.1 ho
          refine ⟨xs, rfl, ?_⟩
          obtain ⟨k, -, rfl⟩ := List.mem_map.1 hxs
          simp [batchAt]
        · rw [List.map_map]
          have : (itemsOf ∘ Out.collated : List X → List X) = id := rfl
          rw [this, List.map_id, flatten_batches b hb]

/-- **C228 (leave-one-out, no batching).** For a loader without automatic batching and without sampler, leaving out item `i` hands out the loader's own pass without its `i`-th entry. -/
theorem C228_loo_unbatched (d : ℕ → X) (n i : ℕ) :
    looLoaders (.unbatched d n none) (some [(i : ℤ)]) = .ok [((i : ℤ), (DL.unbatched d n none).out.eraseIdx i)] := by
  have key : ((List.range n).filter fun k : ℕ => (k : ℤ) ≠ (i : ℤ)) = (List.range n).eraseIdx i := by
    have h1 : ((List.range n).filter fun k : ℕ => (k : ℤ) ≠ (i : ℤ)) = (List.range n).erase i := by
      rw [List.Nodup.erase_eq_filter List.nodup_range]
      apply List.filter_congr
      intro k _
      by_cases hk : k = i <;> simp [hk]
    rw [h1]
    by_cases hi : i < n
    · have : (List.range n).idxOf i = i := by
        have := List.Nodup.idxOf_getElem (List.nodup_range (n := n)) i (by simpa using hi)
        simpa using this
      rw [List.erase_eq_eraseIdx_of_idxOf]
      exact this
    · rw [List.erase_of_not_mem (by simpa using hi), List.eraseIdx_of_length_le (by simpa using hi)]
  unfold looLoaders
  simp only [DL.samplerLen, order, Option.getD_none, List.length_range, bind, Except.bind, pure, Except.pure, Option.getD_some, List.map_cons, List.map_nil, DL.batchSize, group, DL.data, DL.out]
  rw [key, List.map_map, List.map_map, List.eraseIdx_map]

/-- **C228 (subset loaders).** `retrain_lds` raises `TypeError` for iterable data sets; for the other loaders subset `i` hands out the drawn items, as single uncollated items when the given loader has no
batch size, and in collated batches otherwise. -/
theorem C228_lds (l : DL X) (choice : ℕ → ℕ → List ℕ) (shuffle : ℕ → List ℕ → List ℕ) (hs : ∀ i xs, (shuffle i xs).Perm xs) (start num : ℕ) :
    (¬ l.HasLength → ldsLoaders l choice shuffle start num = .error .typeError) ∧
    ∀ n, l.samplerLen = .ok n → ∃ r, ldsLoaders l choice shuffle start num = .ok r ∧ r.length = num ∧
      ∀ i (hi : i < r.length), ((r[i].map itemsOf).flatten.Perm ((choice n (start + i)).map l.data) ∨ l.batchSize = some 0) ∧
        (l.batchSize = none → ∀ o ∈ r[i], ∃ x, o = Out.raw x) ∧ (∀ b, l.batchSize = some b → ∀ o ∈ r[i], ∃ xs, o = Out.collated xs ∧ xs.length ≤ b) := by
  constructor
  · intro h
    unfold ldsLoaders
    rw [samplerLen_error h]
    rfl
  · intro n hn
    refine ⟨_, by unfold ldsLoaders; rw [hn]; rfl, by simp, ?_⟩
    intro i hi
    simp only [List.getElem_map, List.getElem_range]
    have hp := (hs (start + i) (choice n (start + i))).map l.data
    cases hb : l.batchSize with
    | none =>
      refine ⟨Or.inl ?_, ?_, by simp⟩
      · have e : ∀ ys : List X, ((ys.map Out.raw).map itemsOf).flatten = ys := by
          intro ys
          induction ys with
          | nil => rfl
          | cons y ys ih => rw [List.map_cons, List.map_cons, List.flatten_cons, ih]; rfl
        simp only [group]
        rw [e]
        exact hp
      · intro _ o ho
        simp only [group, List.mem_map] at ho
        obtain ⟨x, -, rfl⟩ := ho
        exact ⟨x, rfl⟩
    | some b =>
      refine ⟨?_, by simp, ?_⟩
      · rcases Nat.eq_zero_or_pos b with rfl | h0
        · exact Or.inr rfl
        · left
          simp only [group, List.map_map]
          have : (itemsOf ∘ Out.collated : List X → List X) = id := rfl
          rw [this, List.map_id, flatten_batches b h0]
          exact hp
      · intro b' hb' o ho
        injection hb' with hb'
        subst hb'
        simp only [group, List.mem_map] at ho
        obtain ⟨xs, hxs, rfl⟩ := ho
        obtain ⟨k, -, rfl⟩ := List.mem_map.1 hxs
        exact ⟨_, rfl, by simp [batchAt]⟩

/-- **C228 (brittleness).** The brittleness test reads `sampler.indices`: it raises `AttributeError` for every loader with a batch sampler or without a sampler of its own, whether or not it has a batch size;
with such a sampler and no automatic batching the retraining function gets single uncollated items. -/
theorem C228_flip (enum : Finset ℕ → List ℕ) (remove : List ℕ) (d : ℕ → X) (n : ℕ) :
    (∀ idx, flipLoader enum (.batchSampler d n idx) remove = .error .attributeError) ∧
    (∀ bs drop, flipLoader enum (.sized d n none bs drop) remove = .error .attributeError) ∧
    flipLoader enum (.unbatched d n none) remove = .error .attributeError ∧
    (∀ bs, flipLoader enum (.iterable d n bs) remove = .error .attributeError) ∧
    ∀ ix, ∃ r, flipLoader enum (.unbatched d n (some ix)) remove = .ok r ∧
      ((∀ s : Finset ℕ, (enum s).Nodup ∧ ∀ k, k ∈ enum s ↔ k ∈ s) → ∀ o, o ∈ r ↔ ∃ k ∈ ix, k ∉ remove ∧ o = Out.raw (d k)) := by
  refine ⟨fun _ => rfl, fun _ _ => rfl, rfl, fun _ => rfl, fun ix => ⟨_, rfl, ?_⟩⟩
  intro he o
  simp only [group, DL.batchSize, DL.data, List.mem_map, (he _).2, Finset.mem_sdiff, List.mem_toFinset]
  constructor
  · rintro ⟨x, ⟨k, ⟨h1, h2⟩, rfl⟩, rfl⟩
    exact ⟨k, h1, h2, rfl⟩
  · rintro ⟨k, h1, h2, rfl⟩
    exact ⟨d k, ⟨k, ⟨h1, h2⟩, rfl⟩, rfl⟩

/-! ## Examples -/

/-- The items of a yielded batch as samples of an ordinary data set. -/
private def idView : Out ℕ → List ℕ := itemsOf

/-- Three items, one batch sampler with the batches `[2, 0]` and `[1]`. -/
private def bsl : DL ℕ := .batchSampler (fun k : ℕ => k + 10) 3 [[2, 0], [1]]

example : bsl.out = [.collated [12, 10], .collated [11]] := rfl
example : seen idView bsl = [12, 10, 11] := rfl
example : ifAttribute (R := ℚ) idView (fun (_ : ℕ) a b => ⟨a.length, b.length, fun _ _ => 1⟩) [0] bsl bsl = .error .typeError :=
  (C228_if_no_batch_size idView _ [0] bsl bsl 3 3 rfl rfl (Or.inl rfl)).1 ⟨by simp, by simp [bsl, DL.out], by simp [bsl, DL.out]⟩
example : ifSelf (R := ℚ) idView (fun (_ : ℕ) x => (x : ℚ)) [0] bsl = .error .runtimeError :=
  ((C228_self (R := ℚ) idView (fun (_ : ℕ) x => (x : ℚ)) [0] bsl).2 3 rfl (by simp)).2 ⟨.collated [12, 10], by simp [bsl, DL.out], by decide, by decide⟩
/-- One full batch in the order 2, 0, 1: the scores come in that order. -/
example : ∃ v, ifSelf (R := ℚ) idView (fun (_ : ℕ) x => (x : ℚ)) [0] (.batchSampler (fun k : ℕ => k + 10) 3 [[2, 0, 1]]) = .ok v ∧ v.f 0 = 12 ∧ v.f 1 = 10 := by
  obtain ⟨v, e, -, hf⟩ := C228_self_batch_sampler (R := ℚ) idView (fun _ => rfl) (fun (_ : ℕ) x => (x : ℚ)) [0] (by simp) (fun k : ℕ => k + 10) [2, 0, 1]
  refine ⟨v, e, ?_, ?_⟩
  · rw [hf 0 (by decide)]; norm_num
  · rw [hf 1 (by decide)]; norm_num
example : looLoaders bsl (some [1]) = .ok [(1, [.raw 10, .raw 12])] := rfl
example : looLoaders (.sized (fun k : ℕ => k + 10) 3 none 2 false) (some [1]) = .ok [(1, [.collated [10, 12]])] := rfl
example : metaInit (BlockIF.Meta.new none) bsl = .error .typeError := rfl
example : ¬ (DL.iterable (fun k : ℕ => k) 3 (some 2)).HasLength := fun h => h _ _ _ rfl
example : (DL.sized (fun k : ℕ => k) 3 none 2 false).Sized := ⟨_, _, _, _, _, rfl, by decide⟩

end Verif.LoaderKind
