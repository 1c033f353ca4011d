import Verif.Attr.BatchLemmas

/-!
# C227: which batches the attributors accept, and what the loss, target and probability functions receive
-/

namespace Verif.BatchKind

variable {α : Type} [Inhabited α]

omit [Inhabited α] in
theorem str_batches (l : List (SB α)) : (l.map SB.batch).map Batch.str = l.map fun b => Batch.str b.batch := by
  rw [List.map_map]; rfl

/-- Influence functions with an explicit inverse or conjugate gradients accept tuples, lists and dicts, in any mixture.  The loss and the target are differentiated once per
sample and see that sample alone, every item with a leading axis of length one; the Hessian is that of the loss on each whole cached batch, whose items have no
further axis.  A tuple arrives as a tuple, a list also as a tuple, a dict as a dict with the same keys. -/
theorem C227_if_calls (float : α → α) (draws : ℕ → List (List ℕ)) (m : ℕ) (full train test : List (SB α)) (htr : ∀ b ∈ train, 0 < b.width)
    (hte : ∀ b ∈ test, 0 < b.width) (meth : IFMethod) (hm : meth = .explicit ∨ meth = .cg) :
    ifRun float draws m (full.map SB.batch) (train.map SB.batch) (test.map SB.batch) meth =
      .ok (train.flatMap fun b => b.dummyGrads .loss ++ test.flatMap fun t => t.dummyGrads .target ++ full.map fun c => c.whole .hess .loss) := by
  rcases hm with rfl | rfl
  all_goals
    simp only [ifRun, str_batches]
    rw [hessBatches_ok, ifAttribute_ok _ _ _ htr hte]

/-- DataInf accepts the same batches: the loss for each sample of the first `m` cached batches alone, then the gradients of `attribute`. -/
theorem C227_datainf_calls (float : α → α) (draws : ℕ → List (List ℕ)) (m : ℕ) (hm : 0 < m) (full train test : List (SB α)) (hn : full ≠ [])
    (hf : ∀ b ∈ full, 0 < b.width) (htr : ∀ b ∈ train, 0 < b.width) (hte : ∀ b ∈ test, 0 < b.width) :
    ifRun float draws m (full.map SB.batch) (train.map SB.batch) (test.map SB.batch) .datainf =
      .ok (((full.take m).flatMap fun c => c.dummyGrads .loss) ++ train.flatMap fun b => b.dummyGrads .loss ++ test.flatMap fun t => t.dummyGrads .target) := by
  simp only [ifRun, str_batches]
  rw [dataInfCache_ok m hm full hn hf]
  have := ifAttribute_ok [] train test htr hte
  simp only [List.append_nil] at this
  simp only [pure, Except.pure, bind, Except.bind, this]

/-- LiSSA accepts tuples and lists in the cached loader: the loss gets the drawn samples, converted to floating point, in a tuple.  A dict anywhere in it raises
`AttributeError` in `attribute`, although the code has a branch for dicts and the message of its own exception names them. -/
theorem C227_lissa (float : α → α) (draws : ℕ → List (List ℕ)) (hdraws : ∀ n, ∀ idx ∈ draws n, ∀ i ∈ idx, i < n) (m : ℕ) (full train test : List (SB α))
    (hf : ∀ b ∈ full, 0 < b.width) (htr : ∀ b ∈ train, 0 < b.width) (hte : ∀ b ∈ test, 0 < b.width) :
    ((∀ b ∈ full, b.kind.isDict = false) →
      ifRun float draws m (full.map SB.batch) (train.map SB.batch) (test.map SB.batch) .lissa =
        .ok (train.flatMap fun b => b.dummyGrads .loss ++ test.flatMap fun t => t.dummyGrads .target ++
          full.flatMap fun c => (draws c.samples.length).map fun idx => c.drawn float idx)) ∧
    ((∃ b ∈ full, b.kind.isDict = true) → train ≠ [] → test ≠ [] →
      ifRun float draws m (full.map SB.batch) (train.map SB.batch) (test.map SB.batch) .lissa = .error .attributeError) := by
  constructor
  · intro hd
    simp only [ifRun, str_batches]
    rw [lissaBatches_ok float draws hdraws full hf hd, ifAttribute_ok _ _ _ htr hte]
  · intro hd hn hm
    simp only [ifRun, str_batches]
    rw [lissaBatches_error float draws full hf hd, ifAttribute_transform_error _ _ _ htr hte hn hm]

/-- The Arnoldi attributor: its `cache` accepts loaders whose first batch is a list, and hands the loss one *list* with all samples of the first `m` batches.  If the first batch is a
tuple it raises `TypeError`, if it is a dict with names as keys `KeyError`. -/
theorem C227_arnoldi (float : α → α) (draws : ℕ → List (List ℕ)) (m : ℕ) (hm : 0 < m) (k : ℕ) (hk : 0 < k) (ss : List (ℕ → α)) (rest train test : List (SB α))
    (hw : ∀ b ∈ rest, b.width = k) (hd : ∀ b ∈ rest, b.kind.isDict = false) (htr : ∀ b ∈ train, 0 < b.width) (hte : ∀ b ∈ test, 0 < b.width) :
    ifRun float draws m ((⟨.lst, k, ss⟩ :: rest).map SB.batch) (train.map SB.batch) (test.map SB.batch) .arnoldi =
      .ok (⟨.hess, .loss, .inl (.lst ((List.range k).map fun j : ℕ => .axis ((ss ++ (rest.take (m - 1)).flatMap fun b => b.samples).map fun s => s j)))⟩ ::
        train.flatMap fun b => b.dummyGrads .loss ++ test.flatMap fun t => t.dummyGrads .target) ∧
    ifRun float draws m ((⟨.tup, k, ss⟩ :: rest).map SB.batch) (train.map SB.batch) (test.map SB.batch) .arnoldi = .error .typeError ∧
    ∀ names : ℕ → String, ifRun float draws m ((⟨.dct names, k, ss⟩ :: rest).map SB.batch) (train.map SB.batch) (test.map SB.batch) .arnoldi = .error .keyError := by
  have ha := ifAttribute_ok [] train test htr hte
  simp only [List.append_nil] at ha
  refine ⟨?_, ?_, fun names => ?_⟩
  · simp only [ifRun, str_batches]
    rw [arnoldiCache_list m hm k ss rest hw hd]
    simp only [pure, Except.pure, bind, Except.bind, ha, List.singleton_append]
  · simp only [ifRun, str_batches]
    rw [arnoldiCache_tuple m hm k hk ss rest hw hd]
    rfl
  · simp only [ifRun, str_batches]
    rw [arnoldiCache_dict m hm names k hk ss rest]
    rfl

/-- EK-FAC: `cache` evaluates the *target* function twice on each whole cached batch of the first `m`, for tuples and lists; a dict with names as keys among them raises `KeyError`. -/
theorem C227_ekfac (float : α → α) (draws : ℕ → List (List ℕ)) (m : ℕ) (full train test : List (SB α)) (hf : ∀ b ∈ full, 0 < b.width)
    (htr : ∀ b ∈ train, 0 < b.width) (hte : ∀ b ∈ test, 0 < b.width) :
    ((∀ b ∈ full, b.kind.isDict = false) →
      ifRun float draws m (full.map SB.batch) (train.map SB.batch) (test.map SB.batch) .ekfac =
        .ok ((full.take m).map (fun b => b.whole .value .target) ++ (full.take m).map (fun b => b.whole .value .target) ++
          train.flatMap fun b => b.dummyGrads .loss ++ test.flatMap fun t => t.dummyGrads .target)) ∧
    ((∃ b ∈ full.take m, b.kind.isDict = true) →
      ifRun float draws m (full.map SB.batch) (train.map SB.batch) (test.map SB.batch) .ekfac = .error .keyError) := by
  have ha := ifAttribute_ok [] train test htr hte
  simp only [List.append_nil] at ha
  constructor
  · intro hd
    simp only [ifRun, str_batches]
    rw [ekfacCache_ok m full hf hd]
    simp only [pure, Except.pure, bind, Except.bind, ha]
  · intro hd
    simp only [ifRun]
    rw [ekfacCache_dict m full hf hd]
    rfl

/-- TracIn, Grad-Dot and Grad-Cos accept tuples, lists and dicts: the loss and the target see one sample at a time, its items without any added axis. -/
theorem C227_tracin_calls (train test : List (SB α)) (htr : ∀ b ∈ train, 0 < b.width) (hte : ∀ b ∈ test, 0 < b.width) :
    tracinRun (train.map fun b => .str b.batch) (test.map fun b => .str b.batch) =
      .ok (train.flatMap fun b => b.plainGrads .loss ++ test.flatMap fun t => t.plainGrads .target) := by
  have inner : loop (fun tb => do
      let dt ← checked tb
      vmapAt0 .target dt) (test.map fun b => .str b.batch) = .ok (test.flatMap fun t => t.plainGrads .target) := by
    clear htr
    induction test with
    | nil => rfl
    | cons t test ih =>
      rw [List.map_cons, loop, ih fun b hb => hte b (by simp [hb])]
      simp only [checked_batch, vmapAt0_handed _ _ _ (hte t (by simp)), bind, Except.bind, pure, Except.pure, List.flatMap_cons]
  unfold tracinRun
  simp only [inner]
  clear inner
  induction train with
  | nil => rfl
  | cons b train ih =>
    rw [List.map_cons, loop, ih fun b hb => htr b (by simp [hb])]
    simp only [checked_batch, vmapAt0_handed _ _ _ (htr b (by simp)), bind, Except.bind, pure, Except.pure, List.flatMap_cons]

/-- TRAK accepts tuples, lists and dicts: the loss and the target see one sample at a time without an added axis, the probability function sees the whole batch. -/
theorem C227_trak_calls (train test : List (SB α)) (htr : ∀ b ∈ train, 0 < b.width) (hte : ∀ b ∈ test, 0 < b.width) :
    trakRun (train.map fun b => .str b.batch) (test.map fun b => .str b.batch) =
      .ok ((train.flatMap fun b => b.plainGrads .loss ++ [b.whole .value .prob]) ++ test.flatMap fun t => t.plainGrads .target) := by
  have inner : loop (fun tb => do
      let dt ← checked tb
      vmapAt0 .target dt) (test.map fun b => .str b.batch) = .ok (test.flatMap fun t => t.plainGrads .target) := by
    clear htr
    induction test with
    | nil => rfl
    | cons t test ih =>
      rw [List.map_cons, loop, ih fun b hb => hte b (by simp [hb])]
      simp only [checked_batch, vmapAt0_handed _ _ _ (hte t (by simp)), bind, Except.bind, pure, Except.pure, List.flatMap_cons]
  have outer : trakTrain (train.map fun b => .str b.batch) = .ok (train.flatMap fun b => b.plainGrads .loss ++ [b.whole .value .prob]) := by
    clear inner hte
    unfold trakTrain
    induction train with
    | nil => rfl
    | cons b train ih =>
      rw [List.map_cons, loop, ih fun b hb => htr b (by simp [hb])]
      simp only [checked_batch, vmapAt0_handed _ _ _ (htr b (by simp)), bind, Except.bind, pure, Except.pure, List.flatMap_cons, SB.whole, handed_map]
  unfold trakRun
  rw [outer, inner]
  rfl

/-- A loader that yields bare tensors raises `TypeError` in the influence functions, TracIn and TRAK, as the message promises; so does a test loader once a training batch has been
processed. -/
theorem C227_bare (transform : Except Err (List (Call α))) (rows : List α) (train test : List (Batch α)) :
    ifAttribute transform (.bare rows :: train) test = .error .typeError ∧ tracinRun (.bare rows :: train) test = .error .typeError ∧
      trakRun (.bare rows :: train) test = .error .typeError ∧
      ∀ b : SB α, 0 < b.width → ifAttribute transform (.str b.batch :: train) (.bare rows :: test) = .error .typeError ∧
        tracinRun (.str b.batch :: train) (.bare rows :: test) = .error .typeError ∧
        trakRun [.str b.batch] (.bare rows :: test) = .error .typeError := by
  have hbare : checked (.bare rows) = (.error .typeError : Except Err (Struct (List α))) := rfl
  refine ⟨rfl, rfl, rfl, fun b hb => ⟨?_, ?_, ?_⟩⟩
  · simp only [ifAttribute, loop, checked_batch, vmapAt1_handed _ _ _ hb, bind, Except.bind, hbare]
  · simp only [tracinRun, loop, checked_batch, vmapAt0_handed _ _ _ hb, bind, Except.bind, hbare]
  · simp only [trakRun, trakTrain, loop, checked_batch, vmapAt0_handed _ _ _ hb, bind, Except.bind, hbare, pure, Except.pure]

omit [Inhabited α] in
/-- The Arnoldi cache is the exception: one bare tensor is accepted and handed to the loss as it is; more of them raise `RuntimeError`. -/
theorem C227_bare_arnoldi (m : ℕ) (hm : 0 < m) (rows : List α) (hrows : rows ≠ []) (rest : List (Batch α)) :
    arnoldiCache m (.bare rows :: rest) = if rest.take (m - 1) = [] then .ok [⟨.hess, .loss, .inr rows⟩] else .error .runtimeError := by
  obtain ⟨m, rfl⟩ : ∃ m', m = m' + 1 := ⟨m - 1, by omega⟩
  unfold arnoldiCache
  rw [List.take_succ_cons, Nat.add_sub_cancel]
  by_cases h : rest.take m = []
  · simp [h]
  · have h' : (rest.take m).isEmpty = false := by simpa using h
    have hr : rows.isEmpty = false := by simpa using hrows
    simp only [h', hr, Bool.or_false, if_neg h]
    rfl

omit [Inhabited α] in
theorem mapM_toDev_non (l : List (Item α)) (h : .non ∈ l) : l.mapM toDev = (.error .attributeError : Except Err _) := by
  induction l with
  | nil => simp at h
  | cons a l ih =>
    rw [List.mapM_cons]
    cases a with
    | non => rfl
    | ten r =>
      rw [ih (by simpa using h)]
      rfl

omit [Inhabited α] in
theorem toDevD_non (l : List (Key × Item α)) (h : ∃ k, (k, .non) ∈ l) : toDevD l = .error .attributeError := by
  induction l with
  | nil => simp at h
  | cons a l ih =>
    obtain ⟨k, a⟩ := a
    rw [toDevD]
    cases a with
    | non => rfl
    | ten r =>
      rw [ih (by obtain ⟨k', hk'⟩ := h; exact ⟨k', by simpa using hk'⟩)]
      rfl

/-- A value that is not a tensor, such as a list of strings, raises `AttributeError` in these attributors, whatever the structure. -/
theorem C227_nontensor (transform : Except Err (List (Call α))) (s : Struct (Item α)) (h : .non ∈ s.vals) (train test : List (Batch α)) :
    ifAttribute transform (.str s :: train) test = .error .attributeError ∧ tracinRun (.str s :: train) test = .error .attributeError ∧
      trakRun (.str s :: train) test = .error .attributeError := by
  have hc : checked (.str s) = .error .attributeError := by
    cases s with
    | tup l => simp only [checked, mapM_toDev_non l h]; rfl
    | lst l => simp only [checked, mapM_toDev_non l h]; rfl
    | dct l =>
      have : ∃ k, (k, Item.non) ∈ l := by
        obtain ⟨e, he, hn⟩ := List.mem_map.mp h
        exact ⟨e.1, by rw [← hn]; exact he⟩
      simp only [checked, toDevD_non l this]
      rfl
  refine ⟨?_, ?_, ?_⟩
  · simp only [ifAttribute, loop, hc, bind, Except.bind]
  · simp only [tracinRun, loop, hc, bind, Except.bind]
  · simp only [trakRun, trakTrain, loop, hc, bind, Except.bind]

omit [Inhabited α] in
theorem vmapSize_ne (l : List ℕ) (a b : ℕ) (ha : a ∈ l) (hb : b ∈ l) (hab : a ≠ b) : vmapSize l = .error .valueError := by
  cases l with
  | nil => simp at ha
  | cons n rest =>
    have : rest.all (· == n) = false := by
      by_contra h
      have h' : ∀ x ∈ rest, x = n := by simpa using h
      have e : ∀ x ∈ n :: rest, x = n := by
        intro x hx
        rcases List.mem_cons.mp hx with rfl | hx
        · rfl
        · exact h' x hx
      exact hab ((e a ha).trans (e b hb).symm)
    simp [vmapSize, this]

/-- Items with different numbers of samples raise `ValueError`, in a tuple as well as in a dict. -/
theorem C227_sizes (transform : Except Err (List (Call α))) (items : List (Key × List α)) (r r' : List α) (hr : r ∈ items.map (·.2)) (hr' : r' ∈ items.map (·.2))
    (hne : r.length ≠ r'.length) (train test : List (Batch α)) (s : Struct (Item α))
    (hs : s = .tup (items.map fun e => .ten e.2) ∨ s = .lst (items.map fun e => .ten e.2) ∨ s = .dct (items.map fun e => (e.1, .ten e.2))) :
    ifAttribute transform (.str s :: train) test = .error .valueError ∧ tracinRun (.str s :: train) test = .error .valueError ∧
      trakRun (.str s :: train) test = .error .valueError := by
  have hc : checked (.str s) = .ok (.tup (items.map (·.2))) ∨ checked (.str s) = .ok (.dct items) := by
    rcases hs with rfl | rfl | rfl
    · left; simp only [checked, mapM_toDev' items (·.2)]; rfl
    · left; simp only [checked, mapM_toDev' items (·.2)]; rfl
    · right; simp only [checked, toDevD_map items (·.1) (·.2)]; simp [bind, Except.bind, pure, Except.pure]
  have h0 : ∀ f, ∀ d : Struct (List α), d.vals = items.map (·.2) → vmapAt0 f d = .error .valueError := by
    intro f d hd
    have := vmapSize_ne (d.vals.map List.length) r.length r'.length (by rw [hd]; exact List.mem_map_of_mem hr) (by rw [hd]; exact List.mem_map_of_mem hr') hne
    simp only [vmapAt0, this, bind, Except.bind]
  have h1 : ∀ f, ∀ d : Struct (List α), d.vals = items.map (·.2) → vmapAt1 f d = .error .valueError := by
    intro f d hd
    have hv : ((d.map fun x => [x]).vals.map fun x => (x.headD []).length) = d.vals.map List.length := by
      cases d <;> simp [Struct.map, Struct.vals, Function.comp_def]
    have := vmapSize_ne (d.vals.map List.length) r.length r'.length (by rw [hd]; exact List.mem_map_of_mem hr) (by rw [hd]; exact List.mem_map_of_mem hr') hne
    simp only [vmapAt1, hv, this, bind, Except.bind]
  rcases hc with hc | hc
  · exact ⟨by simp only [ifAttribute, loop, hc, bind, Except.bind, h1 _ (.tup (items.map (·.2))) rfl],
      by simp only [tracinRun, loop, hc, bind, Except.bind, h0 _ (.tup (items.map (·.2))) rfl],
      by simp only [trakRun, trakTrain, loop, hc, bind, Except.bind, h0 _ (.tup (items.map (·.2))) rfl]⟩
  · exact ⟨by simp only [ifAttribute, loop, hc, bind, Except.bind, h1 _ (.dct items) rfl],
      by simp only [tracinRun, loop, hc, bind, Except.bind, h0 _ (.dct items) rfl],
      by simp only [trakRun, trakTrain, loop, hc, bind, Except.bind, h0 _ (.dct items) rfl]⟩

/-! ## The table of the guide -/

/-- The rows of the table that this model covers (docs/guide/data_compatibility.md:6-22); `block` stands for LoGra and GraSS, for a model whose outputs have or have not a `loss`. -/
inductive Method
  | inf (m : IFMethod)
  | tracin
  | trak
  | rps
  | knn
  | dvemb
  | block (hasLoss : Bool)
  deriving DecidableEq

/-- The call succeeds on loaders with the batches `full`, `train` and `test`. -/
def accepts (float : α → α) (draws : ℕ → List (List ℕ)) (m : ℕ) (full train test : List (Struct (Item α))) : Method → Prop
  | .inf meth => ∃ c, ifRun float draws m full train test meth = .ok c
  | .tracin => ∃ c, tracinRun (train.map .str) (test.map .str) = .ok c
  | .trak => ∃ c, trakRun (train.map .str) (test.map .str) = .ok c
  | .rps => (∃ c, rpsInputs train = .ok c) ∧ ∃ c, rpsInputs test = .ok c
  | .knn => ∀ s ∈ train ++ test, ∃ c, knnBatch s = .ok c
  | .dvemb => ∀ s ∈ train ++ test, ∃ c, dvembFull s = .ok c
  | .block hasLoss => ∀ s ∈ test, ∃ c, blockTest hasLoss s = .ok c

/-- The tuple, list and dict columns as they turn out. -/
def supports : Method → Kind → Bool
  | .inf .explicit, _ => true
  | .inf .cg, _ => true
  | .inf .datainf, _ => true
  | .inf .arnoldi, .lst => true
  | .inf .arnoldi, _ => false
  | .tracin, _ => true
  | .trak, _ => true
  | .block hasLoss, .dct _ => hasLoss
  | _, .dct _ => false
  | _, _ => true

/-- The tuple, list and dict columns of the guide (docs/guide/data_compatibility.md:8-22); it has no row for DVEmb, which is entered as tuple and list only. -/
def documented : Method → Kind → Bool
  | .inf .cg, .dct _ => true
  | .tracin, .dct _ => true
  | .trak, .dct _ => true
  | _, .dct _ => false
  | _, _ => true

omit [Inhabited α] in
theorem two_items (b : SB α) (hw : b.width = 2) :
    b.batch = match b.kind with
      | .tup => .tup [.ten (b.samples.map fun s => s 0), .ten (b.samples.map fun s => s 1)]
      | .lst => .lst [.ten (b.samples.map fun s => s 0), .ten (b.samples.map fun s => s 1)]
      | .dct names => .dct [(.str (names 0), .ten (b.samples.map fun s => s 0)), (.str (names 1), .ten (b.samples.map fun s => s 1))] := by
  obtain ⟨kind, k, ss⟩ := b
  subst hw
  cases kind <;> rfl

omit [Inhabited α] in
theorem mapM_ok_of_forall {β γ : Type} (f : β → Except Err γ) (l : List β) (h : ∀ b ∈ l, ∃ c, f b = .ok c) : ∃ c, l.mapM f = .ok c := by
  induction l with
  | nil => exact ⟨[], rfl⟩
  | cons b l ih =>
    obtain ⟨c, hc⟩ := h b (by simp)
    obtain ⟨cs, hcs⟩ := ih fun b' hb' => h b' (by simp [hb'])
    exact ⟨c :: cs, by rw [List.mapM_cons, hc, hcs]; rfl⟩

/-- The attributors that take batches apart by position: with pairs, RPS runs the model on the first items, KNN-Shapley compares the first items and takes the last ones as labels,
DVEmb differentiates the loss sample by sample without an added axis, and LoGra and GraSS use the loss the model returns or else the cross entropy of the pair. -/
theorem C227_pairs (b : SB α) (hw : b.width = 2) (hd : b.kind.isDict = false) (hasLoss : Bool) :
    unpack2 b.batch = .ok (b.samples.map fun s => s 0, .ten (b.samples.map fun s => s 1)) ∧
      knnBatch b.batch = .ok (b.samples.map fun s => s 0, .ten (b.samples.map fun s => s 1)) ∧
      dvembFull b.batch = .ok (b.plainGrads .loss) ∧
      blockTest hasLoss b.batch = .ok (if hasLoss then .ofModel (.tup [b.samples.map fun s => s 0])
        else .crossEntropy (b.samples.map fun s => s 0) (b.samples.map fun s => s 1)) := by
  obtain ⟨kind, k, ss⟩ := b
  have hw' : k = 2 := hw
  subst hw'
  cases kind with
  | tup => exact ⟨rfl, rfl, vmapAt0_handed Fn.loss .tup 2 Nat.zero_lt_two ss, rfl⟩
  | lst => exact ⟨rfl, rfl, vmapAt0_handed Fn.loss .lst 2 Nat.zero_lt_two ss, rfl⟩
  | dct names => simp [Kind.isDict] at hd

/-- Other batches: tuples and lists with other than two items raise `ValueError` in RPS and in LoGra and GraSS.  A dict raises `AttributeError` in RPS if it has two entries, else
`ValueError`; `KeyError` in KNN-Shapley with its default distance; `AttributeError` in DVEmb; LoGra and GraSS hand its entries to the model, which has to return a loss. -/
theorem C227_not_pairs (k : ℕ) (ss : List (ℕ → α)) (hasLoss : Bool) :
    (k ≠ 2 → ∀ kind : Kind, kind.isDict = false → unpack2 (SB.batch (⟨kind, k, ss⟩ : SB α)) = .error .valueError ∧
      blockTest hasLoss (SB.batch (⟨kind, k, ss⟩ : SB α)) = .error .valueError) ∧
    (0 < k → ∀ names : ℕ → String, unpack2 (SB.batch (⟨.dct names, k, ss⟩ : SB α)) = .error (if k = 2 then .attributeError else .valueError) ∧
      knnBatch (SB.batch (⟨.dct names, k, ss⟩ : SB α)) = .error .keyError ∧
      dvembFull (SB.batch (⟨.dct names, k, ss⟩ : SB α)) = .error .attributeError ∧
      blockTest hasLoss (SB.batch (⟨.dct names, k, ss⟩ : SB α)) =
        if hasLoss then .ok (.ofModel (handed (.dct names) k fun j => ss.map fun s => s j)) else .error .valueError) := by
  constructor
  · intro hk kind hd
    rcases k with _ | _ | _ | k
    · cases kind with
      | tup => exact ⟨rfl, rfl⟩
      | lst => exact ⟨rfl, rfl⟩
      | dct names => simp [Kind.isDict] at hd
    · cases kind with
      | tup => exact ⟨rfl, rfl⟩
      | lst => exact ⟨rfl, rfl⟩
      | dct names => simp [Kind.isDict] at hd
    · exact absurd rfl hk
    · cases kind with
      | tup => constructor <;> simp [SB.batch, present, List.range_succ_eq_map, unpack2, blockTest]
      | lst => constructor <;> simp [SB.batch, present, List.range_succ_eq_map, unpack2, blockTest]
      | dct names => simp [Kind.isDict] at hd
  · intro hk names
    have h0 : getItem 0 (.str (SB.batch (⟨.dct names, k, ss⟩ : SB α))) = .error .keyError := getItem_dict names k 0 _
    refine ⟨?_, ?_, ?_, ?_⟩
    · rcases k with _ | _ | _ | k
      · omega
      · rfl
      · rfl
      · simp [SB.batch, present, List.range_succ_eq_map, unpack2]
    · simp only [knnBatch, h0, bind, Except.bind]
    · obtain ⟨k, rfl⟩ : ∃ k', k = k' + 1 := ⟨k - 1, by omega⟩
      simp [SB.batch, present, List.range_succ_eq_map, dvembFull, keyTo, List.mapM_cons, bind, Except.bind]
    · have hne : ((List.range k).map fun j : ℕ => (Key.str (names j), ss.map fun s => s j)).isEmpty = false := by
        obtain ⟨k, rfl⟩ : ∃ k', k = k' + 1 := ⟨k - 1, by omega⟩
        simp [List.range_succ_eq_map]
      have hint : ((List.range k).map fun j : ℕ => (Key.str (names j), ss.map fun s => s j)).any (fun e => e.1.isInt) = false := by
        simp [Key.isInt]
      simp only [SB.batch, present, blockTest, toDevD_map (List.range k) (fun j : ℕ => Key.str (names j)) fun j : ℕ => ss.map fun s => s j, bind, Except.bind, hne, hint,
        pure, Except.pure, handed]
      cases hasLoss <;> rfl

/-- For non-empty loaders of input-target pairs that are all presented in the same way, the calls succeed exactly for the table `supports`. -/
theorem C227_table (float : α → α) (draws : ℕ → List (List ℕ)) (hdraws : ∀ n, ∀ idx ∈ draws n, ∀ i ∈ idx, i < n) (m : ℕ) (hm : 0 < m) (kind : Kind)
    (full train test : List (List (ℕ → α))) (hf : full ≠ []) (htr : train ≠ []) (hte : test ≠ []) (meth : Method) :
    accepts float draws m (full.map fun ss => (⟨kind, 2, ss⟩ : SB α).batch) (train.map fun ss => (⟨kind, 2, ss⟩ : SB α).batch)
      (test.map fun ss => (⟨kind, 2, ss⟩ : SB α).batch) meth ↔ supports meth kind = true := by
  have conv : ∀ l : List (List (ℕ → α)), (l.map fun ss => (⟨kind, 2, ss⟩ : SB α).batch) = (l.map fun ss => (⟨kind, 2, ss⟩ : SB α)).map SB.batch := by
    intro l; rw [List.map_map]; rfl
  have wid : ∀ l : List (List (ℕ → α)), ∀ b ∈ l.map fun ss => (⟨kind, 2, ss⟩ : SB α), 0 < b.width := by
    intro l b hb
    obtain ⟨ss, _, rfl⟩ := List.mem_map.mp hb
    exact Nat.zero_lt_two
  have knd : ∀ l : List (List (ℕ → α)), ∀ b ∈ l.map fun ss => (⟨kind, 2, ss⟩ : SB α), b.kind = kind := by
    intro l b hb
    obtain ⟨ss, _, rfl⟩ := List.mem_map.mp hb
    rfl
  have ne : ∀ l : List (List (ℕ → α)), l ≠ [] → (l.map fun ss => (⟨kind, 2, ss⟩ : SB α)) ≠ [] := by
    intro l hl h; exact hl (List.map_eq_nil_iff.mp h)
  rw [conv full, conv train, conv test]
  cases meth with
  | inf meth =>
    cases meth with
    | explicit =>
      simp only [accepts, supports, iff_true]
      exact ⟨_, C227_if_calls float draws m _ _ _ (wid train) (wid test) .explicit (.inl rfl)⟩
    | cg =>
      simp only [accepts, supports, iff_true]
      exact ⟨_, C227_if_calls float draws m _ _ _ (wid train) (wid test) .cg (.inr rfl)⟩
    | datainf =>
      simp only [accepts, supports, iff_true]
      exact ⟨_, C227_datainf_calls float draws m hm _ _ _ (ne full hf) (wid full) (wid train) (wid test)⟩
    | lissa =>
      have h := C227_lissa float draws hdraws m _ _ _ (wid full) (wid train) (wid test)
      simp only [accepts]
      cases kind with
      | tup => simp only [supports, iff_true]; exact ⟨_, h.1 fun b hb => by rw [knd full b hb]; rfl⟩
      | lst => simp only [supports, iff_true]; exact ⟨_, h.1 fun b hb => by rw [knd full b hb]; rfl⟩
      | dct names =>
        simp only [supports, Bool.false_eq_true, iff_false, not_exists]
        intro c hc
        obtain ⟨b, hb⟩ := List.exists_mem_of_ne_nil _ (ne full hf)
        rw [h.2 ⟨b, hb, by rw [knd full b hb]; rfl⟩ (ne train htr) (ne test hte)] at hc
        simp at hc
    | arnoldi =>
      obtain ⟨ss, full, rfl⟩ := List.exists_cons_of_ne_nil hf
      simp only [accepts]
      cases kind with
      | tup =>
        have h := C227_arnoldi float draws m hm 2 Nat.zero_lt_two ss (full.map fun ss => (⟨.tup, 2, ss⟩ : SB α)) _ _
          (by intro b hb; obtain ⟨ss, _, rfl⟩ := List.mem_map.mp hb; rfl) (fun b hb => by rw [knd full b hb]; rfl) (wid train) (wid test)
        simp only [supports, Bool.false_eq_true, iff_false, not_exists, List.map_cons]
        intro c hc
        have h2 := h.2.1
        rw [List.map_cons] at h2
        rw [h2] at hc
        simp at hc
      | lst =>
        have h := C227_arnoldi float draws m hm 2 Nat.zero_lt_two ss (full.map fun ss => (⟨.lst, 2, ss⟩ : SB α)) _ _
          (by intro b hb; obtain ⟨ss, _, rfl⟩ := List.mem_map.mp hb; rfl) (fun b hb => by rw [knd full b hb]; rfl) (wid train) (wid test)
        simp only [supports, iff_true]
        exact ⟨_, h.1⟩
      | dct names =>
        simp only [supports, Bool.false_eq_true, iff_false, not_exists, List.map_cons, ifRun, str_batches]
        intro c hc
        have := arnoldiCache_dict m hm names 2 Nat.zero_lt_two ss (full.map fun ss => (⟨.dct names, 2, ss⟩ : SB α))
        rw [List.map_cons] at this
        rw [this] at hc
        simp [bind, Except.bind] at hc
    | ekfac =>
      have h := C227_ekfac float draws m _ _ _ (wid full) (wid train) (wid test)
      simp only [accepts]
      cases kind with
      | tup => simp only [supports, iff_true]; exact ⟨_, h.1 fun b hb => by rw [knd full b hb]; rfl⟩
      | lst => simp only [supports, iff_true]; exact ⟨_, h.1 fun b hb => by rw [knd full b hb]; rfl⟩
      | dct names =>
        simp only [supports, Bool.false_eq_true, iff_false, not_exists]
        intro c hc
        have hn : (full.map fun ss => (⟨.dct names, 2, ss⟩ : SB α)).take m ≠ [] := by
          obtain ⟨ss, full, rfl⟩ := List.exists_cons_of_ne_nil hf
          obtain ⟨m, rfl⟩ : ∃ m', m = m' + 1 := ⟨m - 1, by omega⟩
          simp
        obtain ⟨b, hb⟩ := List.exists_mem_of_ne_nil _ hn
        rw [h.2 ⟨b, hb, by rw [knd full b (List.mem_of_mem_take hb)]; rfl⟩] at hc
        simp at hc
  | tracin =>
    simp only [accepts, supports, iff_true, str_batches]
    exact ⟨_, C227_tracin_calls _ _ (wid train) (wid test)⟩
  | trak =>
    simp only [accepts, supports, iff_true, str_batches]
    exact ⟨_, C227_trak_calls _ _ (wid train) (wid test)⟩
  | rps =>
    have ok : ∀ l : List (List (ℕ → α)), kind.isDict = false → ∃ c, rpsInputs ((l.map fun ss => (⟨kind, 2, ss⟩ : SB α)).map SB.batch) = .ok c := by
      intro l hk
      apply mapM_ok_of_forall
      intro s hs
      obtain ⟨b, hb, rfl⟩ := List.mem_map.mp hs
      obtain ⟨ss, _, rfl⟩ := List.mem_map.mp hb
      rw [two_items _ rfl]
      cases kind with
      | tup => exact ⟨_, rfl⟩
      | lst => exact ⟨_, rfl⟩
      | dct names => simp [Kind.isDict] at hk
    simp only [accepts]
    cases kind with
    | tup => simp only [supports, iff_true]; exact ⟨ok train rfl, ok test rfl⟩
    | lst => simp only [supports, iff_true]; exact ⟨ok train rfl, ok test rfl⟩
    | dct names =>
      simp only [supports, Bool.false_eq_true, iff_false]
      rintro ⟨⟨c, hc⟩, -⟩
      obtain ⟨ss, train, rfl⟩ := List.exists_cons_of_ne_nil htr
      have : unpack2 (SB.batch (⟨.dct names, 2, ss⟩ : SB α)) = .error .attributeError := rfl
      simp [rpsInputs, List.mapM_cons, this, bind, Except.bind] at hc
  | knn =>
    simp only [accepts]
    cases kind with
    | tup =>
      simp only [supports, iff_true]
      intro s hs
      rw [← List.map_append, ← List.map_append] at hs
      obtain ⟨b, hb, rfl⟩ := List.mem_map.mp hs
      obtain ⟨ss, _, rfl⟩ := List.mem_map.mp hb
      exact ⟨_, rfl⟩
    | lst =>
      simp only [supports, iff_true]
      intro s hs
      rw [← List.map_append, ← List.map_append] at hs
      obtain ⟨b, hb, rfl⟩ := List.mem_map.mp hs
      obtain ⟨ss, _, rfl⟩ := List.mem_map.mp hb
      exact ⟨_, rfl⟩
    | dct names =>
      simp only [supports, Bool.false_eq_true, iff_false]
      intro h
      obtain ⟨ss, train, rfl⟩ := List.exists_cons_of_ne_nil htr
      obtain ⟨c, hc⟩ := h (SB.batch ⟨.dct names, 2, ss⟩) (by simp)
      have h0 : getItem 0 (.str (SB.batch (⟨.dct names, 2, ss⟩ : SB α))) = .error .keyError := getItem_dict names 2 0 _
      simp [knnBatch, h0, bind, Except.bind] at hc
  | dvemb =>
    simp only [accepts]
    have ok : ∀ ss : List (ℕ → α), ∃ c, (do
        let r ← [Item.ten (ss.map fun s => s 0), Item.ten (ss.map fun s => s 1)].mapM toDev
        vmapAt0 .loss (.tup r) : Except Err (List (Call α))) = .ok c := by
      intro ss
      exact ⟨SB.plainGrads .loss ⟨.tup, 2, ss⟩, vmapAt0_handed Fn.loss .tup 2 Nat.zero_lt_two ss⟩
    cases kind with
    | tup =>
      simp only [supports, iff_true]
      intro s hs
      rw [← List.map_append, ← List.map_append] at hs
      obtain ⟨b, hb, rfl⟩ := List.mem_map.mp hs
      obtain ⟨ss, _, rfl⟩ := List.mem_map.mp hb
      exact ok ss
    | lst =>
      simp only [supports, iff_true]
      intro s hs
      rw [← List.map_append, ← List.map_append] at hs
      obtain ⟨b, hb, rfl⟩ := List.mem_map.mp hs
      obtain ⟨ss, _, rfl⟩ := List.mem_map.mp hb
      exact ok ss
    | dct names =>
      simp only [supports, Bool.false_eq_true, iff_false]
      intro h
      obtain ⟨ss, train, rfl⟩ := List.exists_cons_of_ne_nil htr
      obtain ⟨c, hc⟩ := h (SB.batch ⟨.dct names, 2, ss⟩) (by simp)
      rw [two_items _ rfl] at hc
      simp [dvembFull, keyTo, List.mapM_cons, bind, Except.bind] at hc
  | block hasLoss =>
    simp only [accepts]
    cases kind with
    | tup =>
      simp only [supports, iff_true]
      intro s hs
      obtain ⟨b, hb, rfl⟩ := List.mem_map.mp hs
      obtain ⟨ss, _, rfl⟩ := List.mem_map.mp hb
      exact ⟨_, rfl⟩
    | lst =>
      simp only [supports, iff_true]
      intro s hs
      obtain ⟨b, hb, rfl⟩ := List.mem_map.mp hs
      obtain ⟨ss, _, rfl⟩ := List.mem_map.mp hb
      exact ⟨_, rfl⟩
    | dct names =>
      simp only [supports]
      cases hasLoss with
      | true =>
        simp only [iff_true]
        intro s hs
        obtain ⟨b, hb, rfl⟩ := List.mem_map.mp hs
        obtain ⟨ss, _, rfl⟩ := List.mem_map.mp hb
        exact ⟨_, rfl⟩
      | false =>
        simp only [Bool.false_eq_true, iff_false]
        intro h
        obtain ⟨ss, test, rfl⟩ := List.exists_cons_of_ne_nil hte
        obtain ⟨c, hc⟩ := h (SB.batch ⟨.dct names, 2, ss⟩) (by simp)
        rw [two_items _ rfl] at hc
        simp [blockTest, toDevD, toDev, Key.isInt, bind, Except.bind, pure, Except.pure] at hc

/-- The guide's table agrees with this except in four entries: dicts do work with the explicit inverse, with DataInf, and with LoGra and GraSS if the model returns a loss; tuples do
not work with Arnoldi. -/
theorem C227_documented (meth : Method) (kind : Kind) :
    supports meth kind ≠ documented meth kind ↔
      (meth = .inf .explicit ∧ kind.isDict = true) ∨ (meth = .inf .datainf ∧ kind.isDict = true) ∨ (meth = .block true ∧ kind.isDict = true) ∨
        (meth = .inf .arnoldi ∧ kind = .tup) := by
  cases meth with
  | inf m => cases m <;> cases kind <;> simp [supports, documented, Kind.isDict]
  | block b => cases b <;> cases kind <;> simp [supports, documented, Kind.isDict]
  | _ => cases kind <;> simp [supports, documented, Kind.isDict]

/-! ## Concrete cases -/

section Examples

/-- Two samples (input, target). -/
private def ex1 : List (ℕ → ℕ) := [fun j => if j = 0 then 10 else 1, fun j => if j = 0 then 20 else 0]

private def exNames : ℕ → String := fun j => if j = 0 then "x" else "y"

private def exFull : SB ℕ := ⟨.dct exNames, 2, ex1⟩

/-- A dict with the explicit inverse: the gradient of the loss sees `{"x": [10], "y": [1]}`, the Hessian `{"x": [10, 20], "y": [1, 0]}`. -/
example : ifRun (fun a : ℕ => a) (fun _ => []) 1 [exFull.batch] [SB.batch ⟨.lst, 2, ex1.take 1⟩] [SB.batch ⟨.tup, 2, ex1.drop 1⟩] .explicit =
    .ok [⟨.grad, .loss, .inl (.tup [.axis [10], .axis [1]])⟩, ⟨.grad, .target, .inl (.tup [.axis [20], .axis [0]])⟩,
      ⟨.hess, .loss, .inl (.dct [(.str "x", .axis [10, 20]), (.str "y", .axis [1, 0])])⟩] := by rfl

example : tracinRun [.str exFull.batch] [] =
    .ok [⟨.grad, .loss, .inl (.dct [(.str "x", .one 10), (.str "y", .one 1)])⟩, ⟨.grad, .loss, .inl (.dct [(.str "x", .one 20), (.str "y", .one 0)])⟩] := by rfl

example : trakRun [.str (SB.batch ⟨.lst, 2, ex1⟩)] [] =
    .ok [⟨.grad, .loss, .inl (.tup [.one 10, .one 1])⟩, ⟨.grad, .loss, .inl (.tup [.one 20, .one 0])⟩,
      ⟨.value, .prob, .inl (.tup [.axis [10, 20], .axis [1, 0]])⟩] := by rfl

example : arnoldiCache 2 [.str (SB.batch ⟨.lst, 2, ex1⟩), .str (SB.batch ⟨.tup, 2, ex1⟩)] =
    .ok [⟨.hess, .loss, .inl (.lst [.axis [10, 20, 10, 20], .axis [1, 0, 1, 0]])⟩] := by rfl

example : arnoldiCache 1 [.str (SB.batch ⟨.tup, 2, ex1⟩)] = .error .typeError := by rfl

/-- LiSSA with the draws `[1]` and `[0]` from two rows. -/
example : lissaBatches (fun a : ℕ => a + 100) (fun _ => [[1], [0]]) [.str (SB.batch ⟨.lst, 2, ex1⟩)] =
    .ok [⟨.hess, .loss, .inl (.tup [.axis [120], .axis [100]])⟩, ⟨.hess, .loss, .inl (.tup [.axis [110], .axis [101]])⟩] := by rfl

example : ∃ b ∈ [exFull], b.kind.isDict = true := ⟨exFull, by simp, rfl⟩

example : ¬ supports (.inf .arnoldi) .tup = documented (.inf .arnoldi) .tup := by decide

/-- A batch of strings next to a tensor. -/
example : tracinRun [.str (.tup [.ten [1, 2], .non])] [] = (.error .attributeError : Except Err (List (Call ℕ))) := by rfl

example : trakRun [.str (.dct [(.str "x", .ten [1, 2]), (.str "y", .ten [1])])] [] = (.error .valueError : Except Err (List (Call ℕ))) := by rfl

end Examples

end Verif.BatchKind
