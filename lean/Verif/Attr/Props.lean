import Verif.Attr.SelfLemmas
import Mathlib.Data.Rat.Defs
import Mathlib.Algebra.Order.Field.Rat
import Mathlib.LinearAlgebra.Matrix.Determinant.Basic
import Mathlib.Tactic.NormNum
import Mathlib.Tactic.IntervalCases

/-!
# C04–C08: the inner-product attributor and the influence-function accumulation
-/

namespace Verif.Attr

variable {R X C : Type} {p d : Nat} [Field R]

/-! ## C04, C05 -/

/-- **C05.** Whatever the batch sizes, `attribute` returns an `(n_train, n_test)` matrix whose `(i, j)` entry is the mean over the
checkpoints of the score of training sample `i` and test sample `j`. -/
theorem C05_attribute_entry [CharZero R] (S : Sub R X C p d) (ckpts : List C) (st : Option (Loader X)) (m : Option String)
    (tr te : Loader X) (h1 : 0 < tr.bs) (h2 : 0 < te.bs) (s1 : tr.supported = true) (s2 : te.supported = true)
    (hm : ∀ s, m = some s → S.methodOk s = true) :
    ∃ M, (attribute' S ckpts st m tr te).2 = .ok M ∧ M.r = tr.data.length ∧ M.c = te.data.length ∧
      ∀ i (hi : i < tr.data.length) j (hj : j < te.data.length),
        M.f i j = (ckpts.map (fun c => score S (st.getD tr) m c tr.data[i] te.data[j])).sum / (ckpts.length : R) :=
  attributeLoop_spec S _ m tr te h1 h2 s1 s2 hm ckpts

/-- **C05.** Re-batching the train and the test loader does not change any entry (with the Hessian data fixed). -/
theorem C05_batch_independent [CharZero R] (S : Sub R X C p d) (ckpts : List C) (full : Loader X) (m : Option String)
    (xs ys : List X) (b1 b2 b1' b2' : Nat) (h1 : 0 < b1) (h2 : 0 < b2) (h1' : 0 < b1') (h2' : 0 < b2')
    (hm : ∀ s, m = some s → S.methodOk s = true) :
    ∃ M M', (attribute' S ckpts (some full) m ⟨xs, b1, true⟩ ⟨ys, b2, true⟩).2 = .ok M ∧
      (attribute' S ckpts (some full) m ⟨xs, b1', true⟩ ⟨ys, b2', true⟩).2 = .ok M' ∧
      M.r = M'.r ∧ M.c = M'.c ∧ ∀ i < xs.length, ∀ j < ys.length, M.f i j = M'.f i j := by
  obtain ⟨M, e, r, c, f⟩ := C05_attribute_entry S ckpts (some full) m ⟨xs, b1, true⟩ ⟨ys, b2, true⟩ h1 h2 rfl rfl hm
  obtain ⟨M', e', r', c', f'⟩ := C05_attribute_entry S ckpts (some full) m ⟨xs, b1', true⟩ ⟨ys, b2', true⟩ h1' h2' rfl rfl hm
  refine ⟨M, M', e, e', by rw [r, r'], by rw [c, c'], fun i hi j hj => ?_⟩
  rw [f i hi j hj, f' i hi j hj]; rfl

/-- **C05.** A loader whose batches are neither tuples, lists nor dicts is rejected with `TypeError`, and an unknown `relatif`
method with `ValueError`. -/
theorem C05_rejects (S : Sub R X C p d) (c : C) (ckpts : List C) (st : Option (Loader X)) (m : Option String)
    (tr te : Loader X) (h1 : 0 < tr.bs) (h2 : 0 < te.bs) (n1 : tr.data ≠ []) (n2 : te.data ≠ []) :
    (tr.supported = false → (attribute' S (c :: ckpts) st m tr te).2 = .error .typeError) ∧
    (tr.supported = true → (∃ s, m = some s ∧ S.methodOk s = false) →
      (attribute' S (c :: ckpts) st m tr te).2 = .error .valueError) ∧
    (tr.supported = true → (∀ s, m = some s → S.methodOk s = true) → te.supported = false →
      (attribute' S (c :: ckpts) st m tr te).2 = .error .typeError) := by
  obtain ⟨k, hk⟩ := Nat.exists_eq_succ_of_ne_zero (nb_pos h1 n1).ne'
  obtain ⟨l, hl⟩ := Nat.exists_eq_succ_of_ne_zero (nb_pos h2 n2).ne'
  have hb : (∀ s, m = some s → S.methodOk s = true) → badMethod S m = false := by
    intro hm
    cases m with
    | none => rfl
    | some s => simp [badMethod, hm s rfl]
  refine ⟨fun h => ?_, fun h hm => ?_, fun h hm ht => ?_⟩
  · simp only [attribute', attributeLoop, List.zipIdx_cons, List.foldlM_cons, trainLoop, hk, List.range_succ_eq_map, h,
      Bool.not_false, if_true]
    rfl
  · obtain ⟨s, rfl, hs⟩ := hm
    simp only [attribute', attributeLoop, List.zipIdx_cons, List.foldlM_cons, trainLoop, hk, List.range_succ_eq_map, h,
      Bool.not_true, Bool.false_eq_true, if_false, badMethod, hs, Bool.not_false, if_true]
    rfl
  · simp only [attribute', attributeLoop, List.zipIdx_cons, List.foldlM_cons, trainLoop, hk, List.range_succ_eq_map, h,
      Bool.not_true, Bool.false_eq_true, if_false, hb hm, testLoop, hl, ht, Bool.not_false, if_true]
    rfl

/-- **C04.** The multi-checkpoint result is the arithmetic mean of the results that each checkpoint gives on its own. -/
theorem C04_checkpoint_mean [CharZero R] (S : Sub R X C p d) (ckpts : List C) (st : Option (Loader X)) (m : Option String)
    (tr te : Loader X) (h1 : 0 < tr.bs) (h2 : 0 < te.bs) (s1 : tr.supported = true) (s2 : te.supported = true)
    (hm : ∀ s, m = some s → S.methodOk s = true) :
    ∃ (M : Mat R) (single : C → Mat R), (attribute' S ckpts st m tr te).2 = .ok M ∧
      (∀ c, (attribute' S [c] st m tr te).2 = .ok (single c)) ∧
      ∀ i < tr.data.length, ∀ j < te.data.length,
        M.f i j = (ckpts.map (fun c => (single c).f i j)).sum / (ckpts.length : R) := by
  obtain ⟨M, e, -, -, f⟩ := C05_attribute_entry S ckpts st m tr te h1 h2 s1 s2 hm
  have h := fun c => C05_attribute_entry S [c] st m tr te h1 h2 s1 s2 hm
  choose Ms es rs cs fs using h
  refine ⟨M, Ms, e, es, fun i hi j hj => ?_⟩
  rw [f i hi j hj]
  congr 2
  apply List.map_congr_left
  intro c _
  rw [fs c i hi j hj]
  simp

/-- A small concrete attributor over `ℚ`: samples and checkpoints are rationals, the representation is `c * x`, and the test
representation is multiplied by the number of samples of the full loader. -/
def demo : Sub ℚ ℚ ℚ 1 1 where
  genTrain := fun c x _ => c * x
  genTest := fun c x _ => c * x
  transTrain := fun _ v => v
  transTest := fun _ full v k => v k * full.data.length
  methodOk := fun s => s == "l"
  denom := fun _ _ _ v _ => v 0 ^ 2

example : ∃ M, (attribute' demo [1, 2] (some ⟨[5, 7], 1, true⟩) none ⟨[1, 2, 3], 2, true⟩ ⟨[4, 5], 1, true⟩).2 = .ok M ∧
    M.r = 3 ∧ M.c = 2 ∧ M.f 2 1 = 75 := by
  obtain ⟨M, e, r, c, f⟩ := C05_attribute_entry demo [1, 2] (some ⟨[5, 7], 1, true⟩) none ⟨[1, 2, 3], 2, true⟩ ⟨[4, 5], 1, true⟩
    (by norm_num) (by norm_num) rfl rfl (by simp)
  refine ⟨M, e, r, c, ?_⟩
  rw [f 2 (by norm_num) 1 (by norm_num)]
  simp [score, demo]; norm_num

/-! ## C06 -/

/-- **C06.** With a loader that yields a single batch, `self_attribute` returns for each training sample the mean over checkpoints
of its score with itself. -/
theorem C06_self_single_batch [CharZero R] (S : Sub R X C p d) (ckpts : List C) (st : Option (Loader X)) (tr : Loader X)
    (hs : tr.supported = true) (hb : tr.data.length ≤ tr.bs) :
    ∃ v, (selfAttribute S ckpts st none tr).2 = .ok v ∧ v.n = tr.data.length ∧
      ∀ i (hi : i < tr.data.length),
        v.f i = (ckpts.map (fun c => score S (st.getD tr) none c tr.data[i] tr.data[i])).sum / (ckpts.length : R) := by
  obtain ⟨v, e, hn, hf⟩ := runningMean_vec tr.data.length
    (fun c v => (List.range tr.nb).foldlM (fun v b => selfBatch S (st.getD tr) c none tr b v) v)
    (fun c i => if hi : i < tr.data.length then score S (st.getD tr) none c tr.data[i] tr.data[i] else 0) (by
      intro c v hv
      by_cases h0 : tr.data = []
      · refine ⟨v, ?_, hv, ?_⟩
        · have : tr.nb = 0 := by
            unfold Loader.nb numBatches
            rw [h0]
            rcases Nat.eq_zero_or_pos tr.bs with h | h
            · simp [h]
            · apply Nat.div_eq_of_lt; simp; omega
          rw [this]; rfl
        · intro i hi; simp [h0] at hi
      · refine ⟨⟨v.n, fun i => v.f i + if hi : i < tr.data.length then
            score S (st.getD tr) none c tr.data[i] tr.data[i] else 0⟩, ?_, hv, fun i _ => rfl⟩
        rw [nb_one h0 hb]
        simp only [List.range_one, List.foldlM_cons, List.foldlM_nil, selfBatch, hs, Bool.not_true, Bool.false_eq_true,
          if_false, batch_zero hb, Vec.addIn, hv, if_true, liftO]
        simp only [bind, Except.bind, pure, Except.pure, Except.ok.injEq, Vec.mk.injEq, true_and]
        funext i
        congr 1
        by_cases hi : i < tr.data.length
        · simp only [hi, List.getElem?_eq_getElem, dif_pos]; rfl
        · rw [List.getElem?_eq_none (by omega), dif_neg hi]) ckpts
  refine ⟨v, e, hn, fun i hi => ?_⟩
  rw [hf i hi]
  simp [hi]

/-- **C06.** In the single-batch case the result is the diagonal of `attribute(train, train)`. -/
theorem C06_self_is_diagonal [CharZero R] (S : Sub R X C p d) (ckpts : List C) (st : Option (Loader X)) (tr : Loader X)
    (hs : tr.supported = true) (hpos : 0 < tr.bs) (hb : tr.data.length ≤ tr.bs) :
    ∃ v M, (selfAttribute S ckpts st none tr).2 = .ok v ∧ (attribute' S ckpts st none tr tr).2 = .ok M ∧
      v.n = tr.data.length ∧ ∀ i < tr.data.length, v.f i = M.f i i := by
  obtain ⟨v, e, n, f⟩ := C06_self_single_batch S ckpts st tr hs hb
  obtain ⟨M, e', -, -, f'⟩ := C05_attribute_entry S ckpts st none tr tr hpos hpos hs hs (by simp)
  exact ⟨v, M, e, e', n, fun i hi => by rw [f i hi, f' i hi i hi]⟩

/-- **C06 (disagreement).** With more than one batch and a batch size of at least two the call always raises. -/
theorem C06_self_multi_batch_raises (S : Sub R X C p d) (c : C) (ckpts : List C) (st : Option (Loader X)) (tr : Loader X)
    (hs : tr.supported = true) (h2 : 2 ≤ tr.bs) (hb : tr.bs < tr.data.length) :
    (selfAttribute S (c :: ckpts) st none tr).2 = .error .runtimeError := by
  have hne : tr.data ≠ [] := by intro h; simp [h] at hb
  obtain ⟨k, hk⟩ := Nat.exists_eq_succ_of_ne_zero (nb_pos (l := tr) (by omega) hne).ne'
  have hl : (tr.batch 0).length = tr.bs := by
    unfold Loader.batch; rw [length_batchAt]; omega
  simp only [selfAttribute, selfLoop, List.zipIdx_cons, List.foldlM_cons, hk, List.range_succ_eq_map, selfBatch, hs,
    Bool.not_true, Bool.false_eq_true, if_false, Vec.addIn, hl]
  rw [if_neg (by omega), if_neg (by omega)]
  rfl

/-- **C06 (disagreement).** With batch size one and at least two samples the call succeeds, but every row holds the sum over all
training samples of their self scores instead of the row's own one. -/
theorem C06_self_batch_one_broadcasts [CharZero R] (S : Sub R X C p d) (ckpts : List C) (st : Option (Loader X)) (tr : Loader X)
    (hs : tr.supported = true) (h1 : tr.bs = 1) (hn : 2 ≤ tr.data.length) :
    ∃ v, (selfAttribute S ckpts st none tr).2 = .ok v ∧ v.n = tr.data.length ∧
      ∀ i < tr.data.length,
        v.f i = (ckpts.map (fun c => (tr.data.map (fun x => score S (st.getD tr) none c x x)).sum)).sum / (ckpts.length : R) := by
  obtain ⟨v, e, hn, hf⟩ := runningMean_vec tr.data.length
    (fun c v => (List.range tr.nb).foldlM (fun v b => selfBatch S (st.getD tr) c none tr b v) v)
    (fun c _ => (tr.data.map (fun x => score S (st.getD tr) none c x x)).sum) (by
      intro c v hv
      have key : ∀ k ≤ tr.data.length, (List.range k).foldlM (fun v b => selfBatch S (st.getD tr) c none tr b v) v
          = Except.ok (ε := Err) ⟨v.n, fun i => v.f i + ((tr.data.take k).map (fun x => score S (st.getD tr) none c x x)).sum⟩ := by
        intro k
        induction k with
        | zero => intro _; simp; rfl
        | succ k ih =>
          intro hk
          rw [List.range_succ, List.foldlM_append, ih (by omega)]
          simp only [bind, Except.bind, List.foldlM_cons, List.foldlM_nil, selfBatch, hs, Bool.not_true,
            Bool.false_eq_true, if_false, batch_one tr h1 k (by omega), Vec.addIn, List.length_singleton]
          rw [if_neg (by omega)]
          simp only [if_true, liftO, pure, Except.pure, Except.ok.injEq, Vec.mk.injEq, true_and]
          funext i
          rw [List.take_add_one, List.getElem?_eq_getElem (show k < tr.data.length by omega), Option.toList_some, List.map_append, List.sum_append]
          simp [add_assoc, score, dot]
      have := key _ le_rfl
      rw [List.take_length] at this
      rw [nb_bs_one tr h1]
      exact ⟨_, this, hv, fun i _ => rfl⟩) ckpts
  exact ⟨v, e, hn, hf⟩

/-- **C06 (disagreement).** With an accepted `relatif` method, `self_attribute` raises for every non-empty loader. -/
theorem C06_self_relatif_raises (S : Sub R X C p d) (c : C) (ckpts : List C) (st : Option (Loader X)) (tr : Loader X)
    (m : String) (hm : S.methodOk m = true) (hs : tr.supported = true) (hb : 0 < tr.bs) (hne : tr.data ≠ []) :
    (selfAttribute S (c :: ckpts) st (some m) tr).2 = .error .runtimeError := by
  obtain ⟨k, hk⟩ := Nat.exists_eq_succ_of_ne_zero (nb_pos (l := tr) hb hne).ne'
  simp only [selfAttribute, selfLoop, List.zipIdx_cons, List.foldlM_cons, hk, List.range_succ_eq_map, selfBatch, hs,
    Bool.not_true, Bool.false_eq_true, if_false, hm]
  rfl

/-- **C06** (refusals). For every non-empty loader, one whose batches are neither tuples nor dictionaries raises `TypeError`, and an unknown `relatif` method
`ValueError`. -/
theorem C06_self_refused (S : Sub R X C p d) (c : C) (ckpts : List C) (st : Option (Loader X)) (tr : Loader X) (m : Option String)
    (hb : 0 < tr.bs) (hne : tr.data ≠ []) :
    (tr.supported = false → (selfAttribute S (c :: ckpts) st m tr).2 = .error .typeError) ∧
    (∀ m', m = some m' → S.methodOk m' = false → tr.supported = true → (selfAttribute S (c :: ckpts) st m tr).2 = .error .valueError) := by
  obtain ⟨k, hk⟩ := Nat.exists_eq_succ_of_ne_zero (nb_pos (l := tr) hb hne).ne'
  constructor
  · intro hs
    simp only [selfAttribute, selfLoop, List.zipIdx_cons, List.foldlM_cons, hk, List.range_succ_eq_map, selfBatch, hs,
      Bool.not_false, if_true]
    rfl
  · rintro m' rfl hm hs
    simp only [selfAttribute, selfLoop, List.zipIdx_cons, List.foldlM_cons, hk, List.range_succ_eq_map, selfBatch, hs,
      Bool.not_true, Bool.false_eq_true, if_false, hm, Bool.not_false, if_true]
    rfl

/-- Two samples with self scores `1` and `4`: in one batch the result is `[1, 4]`, in batches of one it is `[5, 5]`. -/
example : (∃ v, (selfAttribute demo [1] (some ⟨[9], 1, true⟩) none ⟨[1, 2], 2, true⟩).2 = .ok v ∧ v.f 0 = 1 ∧ v.f 1 = 4) ∧
    (∃ v, (selfAttribute demo [1] (some ⟨[9], 1, true⟩) none ⟨[1, 2], 1, true⟩).2 = .ok v ∧ v.f 0 = 5 ∧ v.f 1 = 5) := by
  constructor
  · obtain ⟨v, e, -, f⟩ := C06_self_single_batch demo [1] (some ⟨[9], 1, true⟩) ⟨[1, 2], 2, true⟩ rfl (by simp)
    refine ⟨v, e, ?_, ?_⟩
    · rw [f 0 (by simp)]; simp [score, demo]
    · rw [f 1 (by simp)]; simp [score, demo]; norm_num
  · obtain ⟨v, e, -, f⟩ := C06_self_batch_one_broadcasts demo [1] (some ⟨[9], 1, true⟩) ⟨[1, 2], 1, true⟩ rfl rfl (by simp)
    refine ⟨v, e, ?_, ?_⟩
    · rw [f 0 (by simp)]; simp [score, demo]; norm_num
    · rw [f 1 (by simp)]; simp [score, demo]; norm_num

example : (selfAttribute demo [1] none none ⟨[1, 2, 3], 2, true⟩).2 = .error .runtimeError :=
  C06_self_multi_batch_raises demo 1 [] none ⟨[1, 2, 3], 2, true⟩ rfl (by simp) (by simp)

/-! ## C07 -/

/-- **C07.** After any history, the full loader is the last cached one, or, if `cache` was never called, the training loader of the
first attribution call. -/
theorem C07_full_loader_of_history (S : Sub R X C p d) (ckpts : List C) (ops : List (Op X)) :
    run S ckpts ops = (lastCache ops).or (firstTrain ops) := by
  have key : ∀ (ops : List (Op X)) (st : Option (Loader X)), ops.foldl (step S ckpts) st
      = (lastCache ops).or (st.or (firstTrain ops)) := by
    intro ops
    induction ops with
    | nil => intro st; cases st <;> rfl
    | cons o ops ih =>
      intro st
      rw [List.foldl_cons, ih]
      cases o <;> cases st <;> simp [step, cache, attribute', selfAttribute, lastCache, firstTrain]
  rw [run, key]; cases firstTrain ops <;> rfl

/-- **C07.** The result of an `attribute` call after any history is the one a fresh attributor gives after
`cache(full)`, where `full` is determined by the history as in `C07_full_loader_of_history`, or is the call's own training loader
if the history is empty. -/
theorem C07_attribute_after_history (S : Sub R X C p d) (ckpts : List C) (ops : List (Op X)) (m : Option String)
    (tr te : Loader X) :
    (attribute' S ckpts (run S ckpts ops) m tr te).2
      = (attribute' S ckpts (run S ckpts [.cache (((lastCache ops).or (firstTrain ops)).getD tr)]) m tr te).2 := by
  rw [C07_full_loader_of_history]
  rfl

/-- **C07.** A history of attribution calls only (no `cache`) freezes the first training loader: a later call gives the fresh
attributor's result as soon as the two loaders transform the test representations alike. -/
theorem C07_agrees_if_same_transform [CharZero R] (S : Sub R X C p d) (ckpts : List C) (ops : List (Op X)) (first tr te : Loader X)
    (hc : lastCache ops = none) (hf : firstTrain ops = some first)
    (h1 : 0 < tr.bs) (h2 : 0 < te.bs) (s1 : tr.supported = true) (s2 : te.supported = true)
    (hsame : ∀ c y, S.transTest c first (S.genTest c y) = S.transTest c tr (S.genTest c y)) :
    ∃ M M', (attribute' S ckpts (run S ckpts ops) none tr te).2 = .ok M ∧ (attribute' S ckpts none none tr te).2 = .ok M' ∧
      ∀ i < tr.data.length, ∀ j < te.data.length, M.f i j = M'.f i j := by
  obtain ⟨M, e, -, -, f⟩ := C05_attribute_entry S ckpts (run S ckpts ops) none tr te h1 h2 s1 s2 (by simp)
  obtain ⟨M', e', -, -, f'⟩ := C05_attribute_entry S ckpts none none tr te h1 h2 s1 s2 (by simp)
  refine ⟨M, M', e, e', fun i hi j hj => ?_⟩
  rw [f i hi j hj, f' i hi j hj, C07_full_loader_of_history, hc, hf]
  simp only [score, Option.none_or, Option.getD_some, Option.getD_none, hsame]

/-- **C07 (disagreement).** The same call gives different results depending on an earlier `attribute` call. -/
theorem C07_history_dependent : ∃ (S : Sub ℚ ℚ ℚ 1 1) (ops : List (Op ℚ)) (tr te : Loader ℚ) (M M' : Mat ℚ),
    lastCache ops = none ∧
    (attribute' S [1] (run S [1] ops) none tr te).2 = .ok M ∧ (attribute' S [1] (run S [1] []) none tr te).2 = .ok M' ∧
    M.f 0 0 = 2 ∧ M'.f 0 0 = 1 := by
  obtain ⟨M, e, -, -, f⟩ := C05_attribute_entry demo [1] (some ⟨[5, 7], 1, true⟩) none ⟨[1], 1, true⟩ ⟨[1], 1, true⟩
    (by norm_num) (by norm_num) rfl rfl (by simp)
  obtain ⟨M', e', -, -, f'⟩ := C05_attribute_entry demo [1] none none ⟨[1], 1, true⟩ ⟨[1], 1, true⟩
    (by norm_num) (by norm_num) rfl rfl (by simp)
  refine ⟨demo, [.attribute none ⟨[5, 7], 1, true⟩ ⟨[1], 1, true⟩], ⟨[1], 1, true⟩, ⟨[1], 1, true⟩, M, M', rfl, e, e', ?_, ?_⟩
  · rw [f 0 (by norm_num) 0 (by norm_num)]; simp [score, demo]
  · rw [f' 0 (by norm_num) 0 (by norm_num)]; simp [score, demo]

example : run demo [1] [.attribute none ⟨[5], 1, true⟩ ⟨[1], 1, true⟩, .cache ⟨[6], 1, true⟩, .selfAttribute none ⟨[7], 1, true⟩]
    = some ⟨[6], 1, true⟩ := by
  rw [C07_full_loader_of_history]; rfl

/-! ## C08 -/

open Matrix

/-- **C08.** Any per-batch solver: the transformed representation is the SUM of the per-batch solutions. -/
theorem C08_accumulates_sum (solve : List X → (Fin p → R) → Option (Fin p → R)) (full : Loader X) (v : Fin p → R)
    (hs : full.supported = true) (u : Nat → Fin p → R) (hu : ∀ b < full.nb, solve (full.batch b) v = some (u b)) :
    accumulate solve full v = .ok (∑ b ∈ Finset.range full.nb, u b) :=
  accumulate_ok solve full v hs u hu

/-- **C08.** Explicit influence functions: if every regularised batch Hessian is nonsingular, `transform_test_rep` returns the sum
over the batches of the unique solutions of `(H_b + λI) u = v`. -/
theorem C08_explicit_sum (hess : C → List X → Matrix (Fin p) (Fin p) R) (reg : R) (c : C) (full : Loader X) (v : Fin p → R)
    (hs : full.supported = true)
    (hdet : ∀ b < full.nb, (hess c (full.batch b) + reg • (1 : Matrix (Fin p) (Fin p) R)).det ≠ 0) :
    ∃ u : Nat → Fin p → R, explicitTransTest hess reg c full v = .ok (∑ b ∈ Finset.range full.nb, u b) ∧
      ∀ b < full.nb, ∀ w, (hess c (full.batch b) + reg • (1 : Matrix (Fin p) (Fin p) R)) *ᵥ w = v ↔ w = u b := by
  refine ⟨fun b => (hess c (full.batch b) + reg • (1 : Matrix (Fin p) (Fin p) R))⁻¹ *ᵥ v, ?_, ?_⟩
  · apply accumulate_ok _ _ _ hs
    intro b hb
    simp [ihvpExplicit, linSolve, hdet b hb]
  · intro b hb w
    have hu : IsUnit (hess c (full.batch b) + reg • (1 : Matrix (Fin p) (Fin p) R)).det := (hdet b hb).isUnit
    constructor
    · intro h
      show w = _ *ᵥ v
      rw [← h, mulVec_mulVec, nonsing_inv_mul _ hu, one_mulVec]
    · intro h
      rw [h, mulVec_mulVec, mul_nonsing_inv _ hu, one_mulVec]

/-- **C08.** With one batch covering the data this is the regularised inverse-Hessian-vector product of the whole data set. -/
theorem C08_explicit_single_batch (hess : C → List X → Matrix (Fin p) (Fin p) R) (reg : R) (c : C) (full : Loader X)
    (v : Fin p → R) (hs : full.supported = true) (hne : full.data ≠ []) (hb : full.data.length ≤ full.bs)
    (hdet : (hess c full.data + reg • (1 : Matrix (Fin p) (Fin p) R)).det ≠ 0) :
    ∃ u, explicitTransTest hess reg c full v = .ok u ∧
      (hess c full.data + reg • (1 : Matrix (Fin p) (Fin p) R)) *ᵥ u = v := by
  obtain ⟨u, e, h⟩ := C08_explicit_sum hess reg c full v hs (by
    intro b hb'
    rw [nb_one hne hb] at hb'
    obtain rfl : b = 0 := by omega
    rwa [batch_zero hb])
  rw [nb_one hne hb] at e h
  refine ⟨u 0, by simpa using e, ?_⟩
  have := (h 0 (by norm_num) (u 0)).2 rfl
  rwa [batch_zero hb] at this

/-- **C08 (disagreement).** When the loader is cut into `m` batches that all have the same Hessian `H`, the result is `m` times the
inverse-Hessian-vector product. -/
theorem C08_explicit_scales_with_batches (hess : C → List X → Matrix (Fin p) (Fin p) R) (reg : R) (c : C) (full : Loader X)
    (v : Fin p → R) (H : Matrix (Fin p) (Fin p) R) (hs : full.supported = true)
    (hH : ∀ b < full.nb, hess c (full.batch b) = H) (hdet : (H + reg • (1 : Matrix (Fin p) (Fin p) R)).det ≠ 0) :
    ∃ u, (H + reg • (1 : Matrix (Fin p) (Fin p) R)) *ᵥ u = v ∧ explicitTransTest hess reg c full v = .ok ((full.nb : R) • u) := by
  have hu : IsUnit (H + reg • (1 : Matrix (Fin p) (Fin p) R)).det := hdet.isUnit
  refine ⟨(H + reg • (1 : Matrix (Fin p) (Fin p) R))⁻¹ *ᵥ v, by rw [mulVec_mulVec, mul_nonsing_inv _ hu, one_mulVec], ?_⟩
  have := accumulate_ok (fun batch v => ihvpExplicit (hess c batch) reg v) full v hs
    (fun _ => (H + reg • (1 : Matrix (Fin p) (Fin p) R))⁻¹ *ᵥ v) (by
      intro b hb
      simp [ihvpExplicit, linSolve, hH b hb, hdet])
  rw [explicitTransTest, this]
  simp [Nat.cast_smul_eq_nsmul]

/-- **C08.** A singular regularised batch Hessian makes the call raise. -/
theorem C08_explicit_singular_raises (hess : C → List X → Matrix (Fin p) (Fin p) R) (reg : R) (c : C) (full : Loader X)
    (v : Fin p → R) (hs : full.supported = true) (b : Nat) (hb : b < full.nb)
    (hdet : (hess c (full.batch b) + reg • (1 : Matrix (Fin p) (Fin p) R)).det = 0) :
    explicitTransTest hess reg c full v = .error .runtimeError := by
  apply accumulate_error _ _ _ hs b hb
  simp [ihvpExplicit, linSolve, hdet]

/-- **C08.** At the level of `IFAttributorExplicit.attribute`: the score is the checkpoint mean of
`g_train · Σ_b (H_b + λI)⁻¹ g_test`. -/
theorem C08_explicit_attribute [CharZero R] (gTrain gTest : C → X → Fin p → R) (hess : C → List X → Matrix (Fin p) (Fin p) R)
    (reg : R) (ckpts : List C) (full tr te : Loader X) (h1 : 0 < tr.bs) (h2 : 0 < te.bs) (s1 : tr.supported = true)
    (s2 : te.supported = true) (s3 : full.supported = true)
    (hdet : ∀ c ∈ ckpts, ∀ b < full.nb, (hess c (full.batch b) + reg • (1 : Matrix (Fin p) (Fin p) R)).det ≠ 0) :
    ∃ M, (attribute' (explicitSub gTrain gTest hess reg) ckpts (some full) none tr te).2 = .ok M ∧
      ∀ i (hi : i < tr.data.length) j (hj : j < te.data.length),
        M.f i j = (ckpts.map (fun c => gTrain c tr.data[i] ⬝ᵥ ∑ b ∈ Finset.range full.nb,
          (hess c (full.batch b) + reg • (1 : Matrix (Fin p) (Fin p) R))⁻¹ *ᵥ gTest c te.data[j])).sum / (ckpts.length : R) := by
  obtain ⟨M, e, -, -, f⟩ := C05_attribute_entry (explicitSub gTrain gTest hess reg) ckpts (some full) none tr te h1 h2 s1 s2 (by simp)
  refine ⟨M, e, fun i hi j hj => ?_⟩
  rw [f i hi j hj]
  congr 2
  apply List.map_congr_left
  intro c hc
  have := accumulate_ok (fun batch v => ihvpExplicit (hess c batch) reg v) full (gTest c te.data[j]) s3
    (fun b => (hess c (full.batch b) + reg • (1 : Matrix (Fin p) (Fin p) R))⁻¹ *ᵥ gTest c te.data[j]) (by
      intro b hb
      simp [ihvpExplicit, linSolve, hdet c hc b hb])
  simp only [score, explicitSub, Option.getD_some, explicitTransTest, this]
  rfl

/-- One-parameter Hessian of a batch: the mean of the samples' curvatures. -/
def meanHess : Unit → List ℚ → Matrix (Fin 1) (Fin 1) ℚ := fun _ l => fun _ _ => l.sum / l.length

/-- **C08 (disagreement).** Two samples of curvature 1 and 3: one batch gives `1/2`, two batches give `4/3`. -/
theorem C08_rebatching_changes_result : ∃ u w : Fin 1 → ℚ,
    explicitTransTest meanHess 0 () ⟨[1, 3], 2, true⟩ (fun _ => 1) = .ok u ∧
    explicitTransTest meanHess 0 () ⟨[1, 3], 1, true⟩ (fun _ => 1) = .ok w ∧ u 0 = 1 / 2 ∧ w 0 = 4 / 3 := by
  obtain ⟨u, e, h⟩ := C08_explicit_sum meanHess 0 () ⟨[1, 3], 2, true⟩ (fun _ => 1) rfl (by
    intro b hb
    have : b < 1 := hb
    interval_cases b
    simp [meanHess, Loader.batch, batchAt]; norm_num)
  obtain ⟨w, e', h'⟩ := C08_explicit_sum meanHess 0 () ⟨[1, 3], 1, true⟩ (fun _ => 1) rfl (by
    intro b hb
    have : b < 2 := hb
    interval_cases b <;> simp [meanHess, Loader.batch, batchAt])
  have n1 : (⟨[1, 3], 2, true⟩ : Loader ℚ).nb = 1 := rfl
  have n2 : (⟨[1, 3], 1, true⟩ : Loader ℚ).nb = 2 := rfl
  rw [n1] at e h
  rw [n2] at e' h'
  refine ⟨_, _, e, e', ?_, ?_⟩
  · have := (h 0 (by norm_num) (fun _ => 1 / 2)).1 (by
      funext i; simp [meanHess, Loader.batch, batchAt, mulVec, dotProduct]; norm_num)
    simp [← this]
  · have a := (h' 0 (by norm_num) (fun _ => 1)).1 (by
      funext i; simp [meanHess, Loader.batch, batchAt, mulVec, dotProduct])
    have b := (h' 1 (by norm_num) (fun _ => 1 / 3)).1 (by
      funext i; simp [meanHess, Loader.batch, batchAt, mulVec, dotProduct])
    simp [Finset.sum_range_succ, ← a, ← b]; norm_num

end Verif.Attr
