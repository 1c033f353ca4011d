import Verif.Attr.BatchSpec

/-!
# Helper lemmas for C227
-/

namespace Verif.BatchKind

variable {α : Type}

theorem mapM_toDev (l : List (List α)) : (l.map Item.ten).mapM toDev = .ok l := by
  induction l with
  | nil => rfl
  | cons a l ih => rw [List.map_cons, List.mapM_cons, ih]; rfl

theorem mapM_toDev' {ι : Type} (l : List ι) (g : ι → List α) : (l.map fun i => Item.ten (g i)).mapM toDev = .ok (l.map g) := by
  have := mapM_toDev (l.map g)
  rwa [List.map_map] at this

theorem toDevD_map {ι : Type} (l : List ι) (key : ι → Key) (g : ι → List α) :
    toDevD (l.map fun i => (key i, Item.ten (g i))) = .ok (l.map fun i => (key i, g i)) := by
  induction l with
  | nil => rfl
  | cons a l ih => rw [List.map_cons, toDevD, ih]; rfl

theorem checked_batch (b : SB α) : checked (.str b.batch) = .ok (handed b.kind b.width fun j => b.samples.map fun s => s j) := by
  obtain ⟨kind, k, ss⟩ := b
  cases kind with
  | tup => simp only [SB.batch, present, checked, handed, mapM_toDev' (List.range k) fun j : ℕ => ss.map fun s => s j]; rfl
  | lst => simp only [SB.batch, present, checked, handed, mapM_toDev' (List.range k) fun j : ℕ => ss.map fun s => s j]; rfl
  | dct names =>
    simp only [SB.batch, present, checked, handed, toDevD_map (List.range k) (fun j : ℕ => Key.str (names j)) fun j : ℕ => ss.map fun s => s j]; rfl

theorem handed_vals {β : Type} (kind : Kind) (k : ℕ) (v : ℕ → β) : (handed kind k v).vals = (List.range k).map v := by
  cases kind <;> simp [handed, Struct.vals, Function.comp_def]

theorem handed_map {β γ : Type} (kind : Kind) (k : ℕ) (v : ℕ → β) (g : β → γ) : (handed kind k v).map g = handed kind k fun j => g (v j) := by
  cases kind <;> simp [handed, Struct.map, Function.comp_def]

theorem vmapSize_const (k n : ℕ) (hk : 0 < k) : vmapSize ((List.range k).map fun _ => n) = .ok n := by
  obtain ⟨k, rfl⟩ : ∃ k', k = k' + 1 := ⟨k - 1, by omega⟩
  rw [List.range_succ_eq_map, List.map_cons, vmapSize]
  simp

theorem range_map_getD [Inhabited α] {γ : Type} (ss : List (ℕ → α)) (F : (ℕ → α) → γ) (G : ℕ → γ)
    (h : ∀ i, (hi : i < ss.length) → G i = F ss[i]) : (List.range ss.length).map G = ss.map F := by
  apply List.ext_getElem
  · simp
  · intro i h1 h2
    have hi : i < ss.length := by simpa using h2
    simpa using h i hi

theorem vmapAt0_handed [Inhabited α] (f : Fn) (kind : Kind) (k : ℕ) (hk : 0 < k) (ss : List (ℕ → α)) :
    vmapAt0 f (handed kind k fun j => ss.map fun s => s j) = .ok (SB.plainGrads f ⟨kind, k, ss⟩) := by
  have hsz : vmapSize ((handed kind k fun j => ss.map fun s => s j).vals.map List.length) = .ok ss.length := by
    rw [handed_vals, List.map_map]
    have : (List.length ∘ fun j : ℕ => ss.map fun s => s j) = fun _ => ss.length := by funext j; simp
    rw [this, vmapSize_const _ _ hk]
  simp only [vmapAt0, hsz, bind, Except.bind, pure, Except.pure, SB.plainGrads]
  congr 1
  apply range_map_getD
  intro i hi
  rw [handed_map]
  congr 3
  funext j
  simp [hi]

theorem vmapAt1_handed [Inhabited α] (f : Fn) (kind : Kind) (k : ℕ) (hk : 0 < k) (ss : List (ℕ → α)) :
    vmapAt1 f (handed kind k fun j => ss.map fun s => s j) = .ok (SB.dummyGrads f ⟨kind, k, ss⟩) := by
  have hsz : vmapSize (((handed kind k fun j => ss.map fun s => s j).map fun x => [x]).vals.map fun x => (x.headD []).length) = .ok ss.length := by
    rw [handed_map, handed_vals, List.map_map]
    have : ((fun x : List (List α) => (x.headD []).length) ∘ fun j : ℕ => [ss.map fun s => s j]) = fun _ => ss.length := by funext j; simp
    rw [this, vmapSize_const _ _ hk]
  simp only [vmapAt1, hsz, bind, Except.bind, pure, Except.pure, SB.dummyGrads]
  congr 1
  apply range_map_getD
  intro i hi
  rw [handed_map, handed_map]
  congr 3
  funext j
  simp [hi]

theorem loop_ok {β : Type} (f : β → Except Err (List (Call α))) (g : β → List (Call α)) (l : List β) (h : ∀ b ∈ l, f b = .ok (g b)) :
    loop f l = .ok (l.flatMap g) := by
  induction l with
  | nil => rfl
  | cons b l ih =>
    rw [loop, h b (by simp), ih fun b' hb' => h b' (by simp [hb'])]
    rfl

theorem loop_error {β : Type} (f : β → Except Err (List (Call α))) (e : Err) (l : List β) (h : ∀ b ∈ l, f b = .error e ∨ ∃ c, f b = .ok c)
    (hex : ∃ b ∈ l, f b = .error e) : loop f l = .error e := by
  induction l with
  | nil => simp at hex
  | cons b l ih =>
    rw [loop]
    rcases h b (by simp) with hb | ⟨c, hb⟩
    · rw [hb]; rfl
    · rw [hb]
      have : loop f l = .error e := by
        apply ih fun b' hb' => h b' (by simp [hb'])
        obtain ⟨b', hb', he⟩ := hex
        rcases List.mem_cons.mp hb' with rfl | hm
        · rw [hb] at he; simp at he
        · exact ⟨b', hm, he⟩
      simp only [bind, Except.bind, this]

/-- The training loop of the influence functions when the transformation makes the calls `h`. -/
theorem ifAttribute_ok [Inhabited α] (h : List (Call α)) (train test : List (SB α)) (htr : ∀ b ∈ train, 0 < b.width) (hte : ∀ b ∈ test, 0 < b.width) :
    ifAttribute (.ok h) (train.map fun b => .str b.batch) (test.map fun b => .str b.batch) =
      .ok (train.flatMap fun b => b.dummyGrads .loss ++ test.flatMap fun t => t.dummyGrads .target ++ h) := by
  have inner : loop (fun tb => do
      let dt ← checked tb
      let gt ← vmapAt1 Fn.target dt
      let h' ← (Except.ok h : Except Err (List (Call α)))
      pure (gt ++ h')) (test.map fun b => .str b.batch) = .ok (test.flatMap fun t => t.dummyGrads .target ++ h) := by
    clear htr
    induction test with
    | nil => rfl
    | cons t test ih =>
      rw [List.map_cons, loop, ih fun b hb => hte b (by simp [hb])]
      simp only [checked_batch, vmapAt1_handed _ _ _ (hte t (by simp)), bind, Except.bind, pure, Except.pure, List.flatMap_cons]
  unfold ifAttribute
  simp only [inner]
  clear inner
  induction train with
  | nil => rfl
  | cons b train ih =>
    rw [List.map_cons, loop, ih fun b hb => htr b (by simp [hb])]
    simp only [checked_batch, vmapAt1_handed _ _ _ (htr b (by simp)), bind, Except.bind, pure, Except.pure, List.flatMap_cons]

theorem hessBatches_ok [Inhabited α] (full : List (SB α)) : hessBatches (full.map fun b => .str b.batch) = .ok (full.map fun b => b.whole .hess .loss) := by
  unfold hessBatches
  induction full with
  | nil => rfl
  | cons b full ih =>
    rw [List.map_cons, loop, ih]
    simp only [checked_batch, bind, Except.bind, pure, Except.pure, List.map_cons, SB.whole, handed_map, List.singleton_append]

theorem lissaSize_handed (kind : Kind) (k : ℕ) (hk : 0 < k) (ss : List (ℕ → α)) (hd : kind.isDict = false) :
    lissaSize (handed kind k fun j => ss.map fun s => s j) = .ok ss.length := by
  obtain ⟨k, rfl⟩ : ∃ k', k = k' + 1 := ⟨k - 1, by omega⟩
  cases kind with
  | tup => simp [handed, lissaSize, List.range_succ_eq_map]
  | lst => simp [handed, lissaSize, List.range_succ_eq_map]
  | dct names => simp [Kind.isDict] at hd

theorem lissaSize_dict (names : ℕ → String) (k : ℕ) (hk : 0 < k) (v : ℕ → List α) : lissaSize (handed (.dct names) k v) = .error .attributeError := by
  obtain ⟨k, rfl⟩ : ∃ k', k = k' + 1 := ⟨k - 1, by omega⟩
  simp [handed, lissaSize, List.range_succ_eq_map]

theorem lissaArg_handed [Inhabited α] (float : α → α) (idx : List ℕ) (kind : Kind) (k : ℕ) (ss : List (ℕ → α)) (hidx : ∀ i ∈ idx, i < ss.length) :
    lissaArg float idx (handed kind k fun j => ss.map fun s => s j) =
      .tup ((List.range k).map fun j : ℕ => .axis (idx.map fun i : ℕ => float (ss.getD i default j))) := by
  unfold lissaArg
  rw [handed_vals, List.map_map]
  congr 1
  apply List.map_congr_left
  intro j _
  simp only [Function.comp]
  congr 1
  apply List.map_congr_left
  intro i hi
  have := hidx i hi
  simp [this]

theorem lissaBatches_ok [Inhabited α] (float : α → α) (draws : ℕ → List (List ℕ)) (hdraws : ∀ n, ∀ idx ∈ draws n, ∀ i ∈ idx, i < n) (full : List (SB α))
    (hw : ∀ b ∈ full, 0 < b.width) (hd : ∀ b ∈ full, b.kind.isDict = false) :
    lissaBatches float draws (full.map fun b => .str b.batch) = .ok (full.flatMap fun b => (draws b.samples.length).map fun idx => b.drawn float idx) := by
  unfold lissaBatches
  induction full with
  | nil => rfl
  | cons b full ih =>
    rw [List.map_cons, loop, ih (fun b hb => hw b (by simp [hb])) fun b hb => hd b (by simp [hb])]
    simp only [checked_batch, lissaSize_handed _ _ (hw b (by simp)) _ (hd b (by simp)), bind, Except.bind, pure, Except.pure, List.flatMap_cons]
    congr 2
    apply List.map_congr_left
    intro idx hidx
    simp only [SB.drawn, lissaArg_handed float idx b.kind b.width b.samples (hdraws _ idx hidx)]

theorem lissaBatches_error [Inhabited α] (float : α → α) (draws : ℕ → List (List ℕ)) (full : List (SB α)) (hw : ∀ b ∈ full, 0 < b.width)
    (hd : ∃ b ∈ full, b.kind.isDict = true) : lissaBatches float draws (full.map fun b => .str b.batch) = .error .attributeError := by
  have key : ∀ b ∈ full, b.kind.isDict = true → ((do
      let d ← checked (.str b.batch)
      let n ← lissaSize d
      pure ((draws n).map fun idx => ⟨.hess, .loss, .inl (lissaArg float idx d)⟩)) : Except Err (List (Call α))) = .error .attributeError := by
    intro b hb hdb
    obtain ⟨kind, k, ss⟩ := b
    cases kind with
    | tup => simp [Kind.isDict] at hdb
    | lst => simp [Kind.isDict] at hdb
    | dct names => simp only [checked_batch, lissaSize_dict names k (hw _ hb), bind, Except.bind]
  unfold lissaBatches
  apply loop_error
  · intro x hx
    obtain ⟨b, hb, rfl⟩ := List.mem_map.mp hx
    by_cases hdb : b.kind.isDict = true
    · exact .inl (key b hb hdb)
    · right
      simp only [checked_batch, lissaSize_handed _ _ (hw b hb) _ (by simpa using hdb), bind, Except.bind, pure, Except.pure]
      exact ⟨_, rfl⟩
  · obtain ⟨b, hb, hdb⟩ := hd
    exact ⟨_, List.mem_map.mpr ⟨b, hb, rfl⟩, key b hb hdb⟩

/-- An exception of the transformation reaches the user as soon as there is a training and a test batch. -/
theorem ifAttribute_transform_error [Inhabited α] (e : Err) (train test : List (SB α)) (htr : ∀ b ∈ train, 0 < b.width) (hte : ∀ b ∈ test, 0 < b.width)
    (hn : train ≠ []) (hm : test ≠ []) :
    ifAttribute (.error e) (train.map fun b => .str b.batch) (test.map fun b => .str b.batch) = .error e := by
  obtain ⟨b, train, rfl⟩ := List.exists_cons_of_ne_nil hn
  obtain ⟨t, test, rfl⟩ := List.exists_cons_of_ne_nil hm
  simp only [ifAttribute, List.map_cons, loop, checked_batch, vmapAt1_handed _ _ _ (htr b (by simp)), vmapAt1_handed _ _ _ (hte t (by simp)), bind, Except.bind]

theorem set_range_map {β : Type} (k p : ℕ) (f : ℕ → β) (x : β) : ((List.range k).map f).set p x = (List.range k).map fun j : ℕ => if j = p then x else f j := by
  apply List.ext_getElem
  · simp
  · intro i h1 h2
    simp only [List.getElem_set, List.getElem_map, List.getElem_range]
    by_cases h : p = i
    · simp [h]
    · rw [if_neg h, if_neg (Ne.symm h)]

theorem foldlM_range_list (k : ℕ) (A C : ℕ → List α) (step : Struct (Item α) → ℕ → Except Err (Struct (Item α)))
    (hstep : ∀ p, p < k → step (.lst ((List.range k).map fun j : ℕ => .ten (if j < p then C j else A j))) p =
      .ok (.lst ((List.range k).map fun j : ℕ => .ten (if j < p + 1 then C j else A j)))) :
    (List.range k).foldlM step (.lst ((List.range k).map fun j : ℕ => .ten (A j))) = .ok (.lst ((List.range k).map fun j : ℕ => .ten (C j))) := by
  have main : ∀ p, p ≤ k → (List.range p).foldlM step (.lst ((List.range k).map fun j : ℕ => .ten (A j))) =
      .ok (.lst ((List.range k).map fun j : ℕ => .ten (if j < p then C j else A j))) := by
    intro p
    induction p with
    | zero => intro _; simp; rfl
    | succ p ih =>
      intro hp
      rw [List.range_succ, List.foldlM_append, ih (by omega)]
      simp only [bind, Except.bind, List.foldlM_cons, List.foldlM_nil, hstep p (by omega), pure, Except.pure]
  rw [main k (Nat.le_refl k)]
  congr 2
  apply List.map_congr_left
  intro j hj
  rw [if_pos (by simpa using hj)]

theorem getItem_range (k p : ℕ) (hp : p < k) (f : ℕ → Item α) : getItem p (.str (.lst ((List.range k).map f))) = .ok (f p) := by
  simp [getItem, hp]

theorem getItem_range_tup (k p : ℕ) (hp : p < k) (f : ℕ → Item α) : getItem p (.str (.tup ((List.range k).map f))) = .ok (f p) := by
  simp [getItem, hp]

theorem getItem_batch (b : SB α) (p : ℕ) (hp : p < b.width) (hd : b.kind.isDict = false) : getItem p (.str b.batch) = .ok (.ten (b.samples.map fun s => s p)) := by
  obtain ⟨kind, k, ss⟩ := b
  cases kind with
  | tup => exact getItem_range_tup k p hp _
  | lst => exact getItem_range k p hp _
  | dct names => simp [Kind.isDict] at hd

theorem getItem_dict (names : ℕ → String) (k p : ℕ) (v : ℕ → Item α) : getItem p (.str (present (.dct names) k v)) = .error .keyError := by
  have : ((List.range k).map fun j : ℕ => (Key.str (names j), v j)).find? (fun e => e.1 = .int p) = none := by
    rw [List.find?_eq_none]
    intro e he
    obtain ⟨j, _, rfl⟩ := List.mem_map.mp he
    simp
  simp only [getItem, present, this]

theorem lt_succ_ite {β : Type} (k p : ℕ) (A C : ℕ → β) :
    ((List.range k).map fun j : ℕ => if j = p then C p else if j < p then C j else A j) = (List.range k).map fun j : ℕ => if j < p + 1 then C j else A j := by
  apply List.map_congr_left
  intro j _
  by_cases h : j = p
  · subst h; simp
  · rw [if_neg h]
    by_cases h' : j < p
    · rw [if_pos h', if_pos (by omega)]
    · rw [if_neg h', if_neg (by omega)]

theorem setItem_range (k p : ℕ) (A C : ℕ → List α) :
    setItem p (C p) (.lst ((List.range k).map fun j : ℕ => .ten (if j < p then C j else A j))) =
      .ok (.lst ((List.range k).map fun j : ℕ => .ten (if j < p + 1 then C j else A j))) := by
  rw [setItem, set_range_map]
  congr 2
  have := congrArg (List.map Item.ten) (lt_succ_ite k p A C)
  rw [List.map_map, List.map_map] at this
  refine Eq.trans ?_ this
  apply List.map_congr_left
  intro j _
  simp only [Function.comp]
  by_cases h : j = p <;> simp [h]

theorem arnoldiCat_list (k : ℕ) (ss : List (ℕ → α)) (b : SB α) (hw : b.width = k) (hd : b.kind.isDict = false) :
    arnoldiCat (.str b.batch) k (SB.batch ⟨.lst, k, ss⟩) = .ok (SB.batch ⟨.lst, k, ss ++ b.samples⟩) := by
  unfold arnoldiCat SB.batch
  simp only [present]
  have := foldlM_range_list k (fun j => ss.map fun s => s j) (fun j => (ss ++ b.samples).map fun s => s j)
    (fun s j => do
      let x ← getItem j (.str s)
      let y ← getItem j (.str b.batch)
      let v ← catItem x y
      setItem j v s) (by
    intro p hp
    have h1 := getItem_range k p hp fun j : ℕ => Item.ten (if j < p then (ss ++ b.samples).map fun s => s j else ss.map fun s => s j)
    rw [if_neg (Nat.lt_irrefl p)] at h1
    have h2 := getItem_batch b p (by omega) hd
    simp only [h1, h2, bind, Except.bind, catItem]
    rw [← List.map_append]
    exact setItem_range k p (fun j => ss.map fun s => s j) fun j => (ss ++ b.samples).map fun s => s j)
  exact this

theorem arnoldiFold_list (k : ℕ) (rest : List (SB α)) (hw : ∀ b ∈ rest, b.width = k) (hd : ∀ b ∈ rest, b.kind.isDict = false) (ss : List (ℕ → α)) :
    (rest.map fun b => Batch.str b.batch).foldlM (fun s' b => arnoldiCat b k s') (SB.batch ⟨.lst, k, ss⟩) =
      .ok (SB.batch ⟨.lst, k, ss ++ rest.flatMap fun b => b.samples⟩) := by
  induction rest generalizing ss with
  | nil => simp; rfl
  | cons b rest ih =>
    rw [List.map_cons, List.foldlM_cons, arnoldiCat_list k ss b (hw b (by simp)) (hd b (by simp))]
    simp only [bind, Except.bind]
    rw [ih (fun b hb => hw b (by simp [hb])) fun b hb => hd b (by simp [hb])]
    simp

theorem batch_len (b : SB α) : b.batch.len = b.width := by
  obtain ⟨kind, k, ss⟩ := b
  cases kind <;> simp [SB.batch, present, Struct.len, Struct.vals]

theorem toDevLoop_list (k : ℕ) (ss : List (ℕ → α)) :
    (List.range k).foldlM (fun s' j => do
      let x ← getItem j (.str s')
      let r ← toDev x
      setItem j r s') (SB.batch ⟨.lst, k, ss⟩) = .ok (SB.batch ⟨.lst, k, ss⟩) := by
  unfold SB.batch
  simp only [present]
  apply foldlM_range_list k (fun j => ss.map fun s => s j) (fun j => ss.map fun s => s j)
  intro p hp
  have h1 := getItem_range k p hp fun j : ℕ => Item.ten (if j < p then ss.map fun s => s j else ss.map fun s => s j)
  rw [if_neg (Nat.lt_irrefl p)] at h1
  simp only [h1, bind, Except.bind, toDev]
  exact setItem_range k p (fun j => ss.map fun s => s j) fun j => ss.map fun s => s j

/-- The cache of the Arnoldi attributor for lists. -/
theorem arnoldiCache_list [Inhabited α] (m : ℕ) (hm : 0 < m) (k : ℕ) (ss : List (ℕ → α)) (rest : List (SB α)) (hw : ∀ b ∈ rest, b.width = k)
    (hd : ∀ b ∈ rest, b.kind.isDict = false) :
    arnoldiCache m ((⟨.lst, k, ss⟩ :: rest : List (SB α)).map fun b => .str b.batch) =
      .ok [⟨.hess, .loss, .inl (.lst ((List.range k).map fun j : ℕ => .axis (((ss ++ (rest.take (m - 1)).flatMap fun b => b.samples)).map fun s => s j)))⟩] := by
  obtain ⟨m, rfl⟩ : ∃ m', m = m' + 1 := ⟨m - 1, by omega⟩
  unfold arnoldiCache
  rw [List.map_cons, List.take_succ_cons, ← List.map_take, Nat.add_sub_cancel]
  simp only [batch_len]
  rw [arnoldiFold_list k (rest.take m) (fun b hb => hw b (List.mem_of_mem_take hb)) fun b hb => hd b (List.mem_of_mem_take hb)]
  simp only [bind, Except.bind, batch_len]
  have := toDevLoop_list k (ss ++ (rest.take m).flatMap fun b => b.samples)
  simp only [bind, Except.bind] at this
  rw [this]
  simp only [SB.batch, present, mapM_toDev', pure, Except.pure, List.map_map, Function.comp_def]

theorem arnoldiCache_tuple [Inhabited α] (m : ℕ) (hm : 0 < m) (k : ℕ) (hk : 0 < k) (ss : List (ℕ → α)) (rest : List (SB α)) (hw : ∀ b ∈ rest, b.width = k)
    (hd : ∀ b ∈ rest, b.kind.isDict = false) : arnoldiCache m ((⟨.tup, k, ss⟩ :: rest : List (SB α)).map fun b => .str b.batch) = .error .typeError := by
  obtain ⟨m, rfl⟩ : ∃ m', m = m' + 1 := ⟨m - 1, by omega⟩
  unfold arnoldiCache
  rw [List.map_cons, List.take_succ_cons, ← List.map_take]
  simp only [batch_len]
  have hr : List.range k = 0 :: (List.range (k - 1)).map Nat.succ := by
    obtain ⟨k, rfl⟩ : ∃ k', k = k' + 1 := ⟨k - 1, by omega⟩
    rw [List.range_succ_eq_map, Nat.add_sub_cancel]
  have h0 := getItem_batch (⟨.tup, k, ss⟩ : SB α) 0 hk rfl
  rcases htk : rest.take m with _ | ⟨b, bs⟩
  · simp only [List.map_nil, List.foldlM_nil, bind, Except.bind, pure, Except.pure, batch_len, hr, List.foldlM_cons, h0, toDev]
    simp only [SB.batch, present, setItem]
  · have hb : b ∈ rest := List.mem_of_mem_take (by rw [htk]; simp)
    have h1 := getItem_batch b 0 (by rw [hw b hb]; exact hk) (hd b hb)
    have hcat : arnoldiCat (.str b.batch) k (SB.batch ⟨.tup, k, ss⟩) = .error .typeError := by
      simp only [arnoldiCat, hr, List.foldlM_cons, h0, h1, bind, Except.bind, catItem]
      simp only [SB.batch, present, setItem]
    simp only [List.map_cons, List.foldlM_cons, hcat, bind, Except.bind]

theorem arnoldiCache_dict [Inhabited α] (m : ℕ) (hm : 0 < m) (names : ℕ → String) (k : ℕ) (hk : 0 < k) (ss : List (ℕ → α)) (rest : List (SB α)) :
    arnoldiCache m ((⟨.dct names, k, ss⟩ :: rest : List (SB α)).map fun b => .str b.batch) = .error .keyError := by
  obtain ⟨m, rfl⟩ : ∃ m', m = m' + 1 := ⟨m - 1, by omega⟩
  unfold arnoldiCache
  rw [List.map_cons, List.take_succ_cons, ← List.map_take]
  simp only [batch_len]
  have hr : List.range k = 0 :: (List.range (k - 1)).map Nat.succ := by
    obtain ⟨k, rfl⟩ : ∃ k', k = k' + 1 := ⟨k - 1, by omega⟩
    rw [List.range_succ_eq_map, Nat.add_sub_cancel]
  have h0 : getItem 0 (.str (SB.batch (⟨.dct names, k, ss⟩ : SB α))) = .error .keyError := getItem_dict names k 0 _
  rcases rest.take m with _ | ⟨b, bs⟩
  · simp only [List.map_nil, List.foldlM_nil, bind, Except.bind, pure, Except.pure, batch_len, hr, List.foldlM_cons, h0]
  · have hcat : arnoldiCat (.str b.batch) k (SB.batch ⟨.dct names, k, ss⟩) = .error .keyError := by
      simp only [arnoldiCat, hr, List.foldlM_cons, h0, bind, Except.bind]
    simp only [List.map_cons, List.foldlM_cons, hcat, bind, Except.bind]

theorem dataInfCache_ok [Inhabited α] (m : ℕ) (hm : 0 < m) (full : List (SB α)) (hn : full ≠ []) (hw : ∀ b ∈ full, 0 < b.width) :
    dataInfCache m (full.map fun b => .str b.batch) = .ok ((full.take m).flatMap fun b => b.dummyGrads .loss) := by
  have hl : ∀ l : List (SB α), (∀ b ∈ l, 0 < b.width) → loop (fun b => do
      let d ← checked b
      vmapAt1 .loss d) (l.map fun b => .str b.batch) = .ok (l.flatMap fun b => b.dummyGrads .loss) := by
    intro l hl
    induction l with
    | nil => rfl
    | cons b l ih =>
      rw [List.map_cons, loop, ih fun b hb => hl b (by simp [hb])]
      simp only [checked_batch, vmapAt1_handed _ _ _ (hl b (by simp)), bind, Except.bind, pure, Except.pure, List.flatMap_cons]
  unfold dataInfCache
  rw [← List.map_take, hl _ fun b hb => hw b (List.mem_of_mem_take hb)]
  obtain ⟨m, rfl⟩ : ∃ m', m = m' + 1 := ⟨m - 1, by omega⟩
  obtain ⟨b, full, rfl⟩ := List.exists_cons_of_ne_nil hn
  simp [bind, Except.bind, pure, Except.pure]

theorem ekfacData_ok [Inhabited α] (b : SB α) (hw : 0 < b.width) (hd : b.kind.isDict = false) :
    ekfacData b.batch = .ok (handed b.kind b.width fun j => .axis (b.samples.map fun s => s j)) := by
  have h0 := getItem_batch b 0 hw hd
  obtain ⟨kind, k, ss⟩ := b
  cases kind with
  | tup =>
    unfold ekfacData
    rw [h0]
    simp only [SB.batch, present, bind, Except.bind, toDev, mapM_toDev', pure, Except.pure, handed, List.map_map, Function.comp_def]
  | lst =>
    unfold ekfacData
    rw [h0]
    simp only [SB.batch, present, bind, Except.bind, toDev, mapM_toDev', pure, Except.pure, handed, List.map_map, Function.comp_def]
  | dct names => simp [Kind.isDict] at hd

theorem ekfacData_dict [Inhabited α] (names : ℕ → String) (k : ℕ) (ss : List (ℕ → α)) : ekfacData (SB.batch (⟨.dct names, k, ss⟩ : SB α)) = .error .keyError := by
  unfold ekfacData
  have h0 : getItem 0 (.str (SB.batch (⟨.dct names, k, ss⟩ : SB α))) = .error .keyError := getItem_dict names k 0 _
  rw [h0]
  rfl

theorem ekfacCache_ok [Inhabited α] (m : ℕ) (full : List (SB α)) (hw : ∀ b ∈ full, 0 < b.width) (hd : ∀ b ∈ full, b.kind.isDict = false) :
    ekfacCache m (full.map SB.batch) = .ok (((full.take m).map fun b => b.whole .value .target) ++ ((full.take m).map fun b => b.whole .value .target)) := by
  have hl : ∀ l : List (SB α), (∀ b ∈ l, b ∈ full) → loop (fun s => do
      let d ← ekfacData s
      pure [(⟨.value, .target, .inl d⟩ : Call α)]) (l.map SB.batch) = .ok (l.map fun b => b.whole .value .target) := by
    intro l hl
    induction l with
    | nil => rfl
    | cons b l ih =>
      rw [List.map_cons, loop, ih fun b hb => hl b (by simp [hb])]
      simp only [ekfacData_ok b (hw b (hl b (by simp))) (hd b (hl b (by simp))), bind, Except.bind, pure, Except.pure, List.map_cons, SB.whole, List.singleton_append]
  unfold ekfacCache
  rw [← List.map_take, hl _ fun b hb => List.mem_of_mem_take hb]
  rfl

theorem ekfacCache_dict [Inhabited α] (m : ℕ) (full : List (SB α)) (hw : ∀ b ∈ full, 0 < b.width) (hd : ∃ b ∈ full.take m, b.kind.isDict = true) :
    ekfacCache m (full.map SB.batch) = .error .keyError := by
  have key : ∀ b : SB α, b.kind.isDict = true → ekfacData b.batch = .error .keyError := by
    intro b hb
    obtain ⟨kind, k, ss⟩ := b
    cases kind with
    | tup => simp [Kind.isDict] at hb
    | lst => simp [Kind.isDict] at hb
    | dct names => exact ekfacData_dict names k ss
  have : loop (fun s => do
      let d ← ekfacData s
      pure [(⟨.value, .target, .inl d⟩ : Call α)]) ((full.take m).map SB.batch) = .error .keyError := by
    apply loop_error
    · intro x hx
      obtain ⟨b, hb, rfl⟩ := List.mem_map.mp hx
      by_cases hdb : b.kind.isDict = true
      · left; rw [key b hdb]; rfl
      · right; rw [ekfacData_ok b (hw b (List.mem_of_mem_take hb)) (by simpa using hdb)]; exact ⟨_, rfl⟩
    · obtain ⟨b, hb, hdb⟩ := hd
      exact ⟨_, List.mem_map.mpr ⟨b, hb, rfl⟩, by rw [key b hdb]; rfl⟩
  unfold ekfacCache
  rw [← List.map_take, this]
  rfl

end Verif.BatchKind
