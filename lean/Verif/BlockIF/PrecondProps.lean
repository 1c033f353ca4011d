import Verif.BlockIF.PrecondModel
import Verif.BlockIF.IFLemmas

/-!
# C132: storing and retrieving preconditioners

The specification is the history of calls: which preconditioner was stored last for a layer.
-/

namespace Verif.Precond

variable {ι : Type} [DecidableEq ι] {M : ι → Type}

/-! ### Specification -/

/-- Specification: what was last stored for each layer, `None` not counting; `f` is what was there
before. -/
def latest (f : Slots M) (acts : List (Act M)) : Slots M :=
  acts.foldl (fun s a => match a with
    | .store i (some p) => Function.update s i (some p)
    | _ => s) f

/-- Specification: the preconditioners stored, in order. -/
def storedBy : List (Act M) → List ((i : ι) × M i)
  | [] => []
  | .store i (some p) :: r => ⟨i, p⟩ :: storedBy r
  | _ :: r => storedBy r

/-- Specification: between two stores for the same layer `wait_for_async_operations` returns; `b` are the
layers stored since the last return. -/
def Separated : List ι → List (Act M) → Prop
  | _, [] => True
  | b, .store i (some _) :: r => i ∉ b ∧ Separated (i :: b) r
  | _, .wait :: r => Separated [] r
  | b, _ :: r => Separated b r

/-- Specification: the layer of the save that raises in this step, if there is one. -/
def lostNow (d : Disk M) : Act M → List ι
  | .fail k => (d.queue[k]?.map Sigma.fst).toList
  | _ => []

/-- Specification: the layers of the saves that raised. -/
def lost (threads : ℕ) : Disk M → List (Act M) → List ι
  | _, [] => []
  | d, a :: r => lostNow d a ++
    match step threads d a with
    | none => []
    | some d' => lost threads d' r

/-! ### Helper lemmas -/

/-- What the files will be once the unfinished saves are done in order. -/
def settle (f : Slots M) (q : List ((i : ι) × M i)) : Slots M :=
  q.foldl (fun s x => Function.update s x.1 (some x.2)) f

theorem settle_erase (q : List ((i : ι) × M i)) (f : Slots M) {k : ℕ} {x : (i : ι) × M i}
    (hx : q[k]? = some x) (h : k = 0 ∨ (q.map Sigma.fst).Nodup) :
    settle (Function.update f x.1 (some x.2)) (q.eraseIdx k) = settle f q := by
  induction q generalizing f k with
  | nil => simp at hx
  | cons y t ih =>
    cases k with
    | zero =>
      simp only [List.getElem?_cons_zero, Option.some.injEq] at hx
      subst hx
      rfl
    | succ k =>
      rw [List.getElem?_cons_succ] at hx
      have hn : ((y :: t).map Sigma.fst).Nodup := by
        rcases h with h | h
        · omega
        · exact h
      rw [List.map_cons, List.nodup_cons] at hn
      have hne : x.1 ≠ y.1 := by
        intro he
        exact hn.1 (he ▸ List.mem_map.2 ⟨x, List.mem_of_getElem? hx, rfl⟩)
      have := ih (Function.update f y.1 (some y.2)) hx (Or.inr hn.2)
      unfold settle at this ⊢
      rw [List.eraseIdx_cons_succ, List.foldl_cons, List.foldl_cons, ← this,
        Function.update_comm hne]

theorem settle_append (q : List ((i : ι) × M i)) (f : Slots M) (x : (i : ι) × M i) :
    settle f (q ++ [x]) = Function.update (settle f q) x.1 (some x.2) := by
  unfold settle
  rw [List.foldl_append]
  rfl

theorem settle_other (q : List ((i : ι) × M i)) (f : Slots M) (i : ι) (h : i ∉ q.map Sigma.fst) :
    settle f q i = f i := by
  induction q generalizing f with
  | nil => rfl
  | cons y t ih =>
    rw [List.map_cons, List.mem_cons, not_or] at h
    have := ih (Function.update f y.1 (some y.2)) h.2
    unfold settle at this ⊢
    rw [List.foldl_cons, this, Function.update_of_ne h.1]

theorem settle_congr (q : List ((i : ι) × M i)) {f g : Slots M} {i : ι} (h : f i = g i) :
    settle f q i = settle g q i := by
  induction q generalizing f g with
  | nil => exact h
  | cons y t ih =>
    refine ih ?_
    by_cases hi : i = y.1
    · subst hi; simp
    · simp only [Function.update_of_ne hi, h]

theorem settle_erase_other (q : List ((i : ι) × M i)) (f : Slots M) {k : ℕ} {x : (i : ι) × M i}
    (hx : q[k]? = some x) {i : ι} (hi : i ≠ x.1) : settle f (q.eraseIdx k) i = settle f q i := by
  induction q generalizing f k with
  | nil => simp at hx
  | cons y t ih =>
    cases k with
    | zero =>
      simp only [List.getElem?_cons_zero, Option.some.injEq] at hx
      subst hx
      exact settle_congr t (by simp only [Function.update_of_ne hi])
    | succ k =>
      rw [List.getElem?_cons_succ] at hx
      exact ih _ hx

theorem latest_congr (acts : List (Act M)) {f g : Slots M} {i : ι} (h : f i = g i) :
    latest f acts i = latest g acts i := by
  induction acts generalizing f g with
  | nil => exact h
  | cons a r ih =>
    refine ih ?_
    rcases a with ⟨j, _ | p⟩ | k | k | _
    · exact h
    · by_cases hj : i = j
      · subst hj; simp
      · simp only [Function.update_of_ne hj, h]
    · exact h
    · exact h
    · exact h

theorem latest_other (acts : List (Act M)) (f : Slots M) {i : ι}
    (h : i ∉ (storedBy acts).map Sigma.fst) : latest f acts i = f i := by
  induction acts generalizing f with
  | nil => rfl
  | cons a r ih =>
    rcases a with ⟨j, _ | p⟩ | k | k | _
    · exact ih f h
    · unfold storedBy at h
      rw [List.map_cons, List.mem_cons, not_or] at h
      have := ih (Function.update f j (some p)) h.2
      unfold latest at this ⊢
      rw [List.foldl_cons, this, Function.update_of_ne h.1]
    · exact ih f h
    · exact ih f h
    · exact ih f h

theorem latest_settle (acts : List (Act M)) (f : Slots M) :
    latest f acts = settle f (storedBy acts) := by
  induction acts generalizing f with
  | nil => rfl
  | cons a r ih =>
    rcases a with ⟨j, _ | p⟩ | k | k | _
    · exact ih f
    · exact ih (Function.update f j (some p))
    · exact ih f
    · exact ih f
    · exact ih f

theorem exec_cons {threads : ℕ} {d : Disk M} {a : Act M} {r : List (Act M)} :
    exec threads d (a :: r) = (step threads d a).bind fun d' => exec threads d' r := rfl

theorem step_save {threads k : ℕ} {d d' : Disk M} (h : step threads d (.save k) = some d') :
    ∃ x, d.queue[k]? = some x ∧ k < threads ∧
      d' = ⟨Function.update d.file x.1 (some x.2), d.queue.eraseIdx k⟩ := by
  simp only [step] at h
  split_ifs at h with hk
  cases hx : d.queue[k]? with
  | none => rw [hx] at h; cases h
  | some x => rw [hx] at h; cases h; exact ⟨x, rfl, hk, rfl⟩

theorem step_fail {threads k : ℕ} {d d' : Disk M} (h : step threads d (.fail k) = some d') :
    ∃ x, d.queue[k]? = some x ∧ k < threads ∧ d' = ⟨d.file, d.queue.eraseIdx k⟩ := by
  simp only [step] at h
  split_ifs at h with hk
  cases hx : d.queue[k]? with
  | none => rw [hx] at h; cases h
  | some x => rw [hx] at h; cases h; exact ⟨x, rfl, hk, rfl⟩

theorem step_wait {threads : ℕ} {d d' : Disk M} (h : step threads d .wait = some d') :
    d.queue = [] ∧ d' = d := by
  simp only [step] at h
  split_ifs at h with hk
  cases h
  exact ⟨List.isEmpty_iff.1 hk, rfl⟩

theorem settled (threads : ℕ) (acts : List (Act M)) (d d' : Disk M) (b : List ι)
    (hex : exec threads d acts = some d') (hf : ∀ k, Act.fail k ∉ acts)
    (h : threads ≤ 1 ∨ (Separated b acts ∧ (d.queue.map Sigma.fst).Nodup ∧
      ∀ x ∈ d.queue, x.1 ∈ b)) :
    settle d'.file d'.queue = latest (settle d.file d.queue) acts := by
  induction acts generalizing d b with
  | nil => cases hex; rfl
  | cons a r ih =>
    rw [exec_cons] at hex
    obtain ⟨d1, h1, h2⟩ := Option.bind_eq_some_iff.1 hex
    have hf' : ∀ k, Act.fail k ∉ r := fun k hk => hf k (List.mem_cons_of_mem _ hk)
    rcases a with ⟨j, _ | p⟩ | k | k | _
    · cases h1
      exact ih d b h2 hf' h
    · cases h1
      have := ih _ (j :: b) h2 hf' (by
        rcases h with h | ⟨h, hn, hb⟩
        · exact Or.inl h
        · refine Or.inr ⟨h.2, ?_, ?_⟩
          · rw [List.map_append, List.nodup_append]
            refine ⟨hn, by simp, ?_⟩
            intro x hx y hy he
            rw [List.map_singleton, List.mem_singleton] at hy
            obtain ⟨z, hz, rfl⟩ := List.mem_map.1 hx
            simp only at hy
            exact h.1 (hy ▸ he ▸ hb z hz)
          · intro x hx
            rcases List.mem_append.1 hx with hx | hx
            · exact List.mem_cons_of_mem _ (hb x hx)
            · rw [List.mem_singleton] at hx; subst hx; exact List.mem_cons_self)
      rw [this, settle_append]
      rfl
    · obtain ⟨x, hx, hk, rfl⟩ := step_save h1
      have hk0 : k = 0 ∨ (d.queue.map Sigma.fst).Nodup := by
        rcases h with h | ⟨h, hn, hb⟩
        · exact Or.inl (by omega)
        · exact Or.inr hn
      have := ih _ b h2 hf' (by
        rcases h with h | ⟨h, hn, hb⟩
        · exact Or.inl h
        · refine Or.inr ⟨h, ?_, ?_⟩
          · exact ((List.eraseIdx_sublist d.queue k).map Sigma.fst).nodup hn
          · exact fun x hx => hb x ((List.eraseIdx_sublist d.queue k).subset hx))
      rw [this]
      simp only [settle_erase d.queue d.file hx hk0]
      rfl
    · exact absurd List.mem_cons_self (hf k)
    · obtain ⟨hk, rfl⟩ := step_wait h1
      refine ih d1 [] h2 hf' ?_
      rcases h with h | ⟨h, -, -⟩
      · exact Or.inl h
      · exact Or.inr ⟨h, by rw [hk]; simp, by rw [hk]; simp⟩

theorem lost_subset (threads : ℕ) (acts : List (Act M)) (d : Disk M) :
    ∀ i ∈ lost threads d acts, i ∈ d.queue.map Sigma.fst ∨ i ∈ (storedBy acts).map Sigma.fst := by
  induction acts generalizing d with
  | nil => intro i h; cases h
  | cons a r ih =>
    intro i hm
    unfold lost at hm
    rcases List.mem_append.1 hm with h | h
    · rcases a with ⟨j, p⟩ | k | k | _
      · cases h
      · cases h
      · simp only [lostNow, Option.mem_toList, Option.map_eq_some_iff] at h
        obtain ⟨x, hx, rfl⟩ := h
        exact Or.inl (List.mem_map.2 ⟨x, List.mem_of_getElem? hx, rfl⟩)
      · cases h
    · rcases a with ⟨j, _ | p⟩ | k | k | _
      · exact ih d i h
      · rcases ih _ i h with h | h
        · rw [List.map_append, List.mem_append] at h
          rcases h with h | h
          · exact Or.inl h
          · right
            unfold storedBy
            rw [List.map_cons, List.mem_cons]
            left; simpa using h
        · right
          unfold storedBy
          rw [List.map_cons]
          exact List.mem_cons_of_mem _ h
      · cases hs : step threads d (.save k) with
        | none => rw [hs] at h; cases h
        | some d1 =>
          rw [hs] at h
          obtain ⟨x, -, -, rfl⟩ := step_save hs
          rcases ih _ i h with h | h
          · exact Or.inl (((List.eraseIdx_sublist d.queue k).map Sigma.fst).subset h)
          · exact Or.inr h
      · cases hs : step threads d (.fail k) with
        | none => rw [hs] at h; cases h
        | some d1 =>
          rw [hs] at h
          obtain ⟨x, -, -, rfl⟩ := step_fail hs
          rcases ih _ i h with h | h
          · exact Or.inl (((List.eraseIdx_sublist d.queue k).map Sigma.fst).subset h)
          · exact Or.inr h
      · cases hs : step threads d .wait with
        | none => rw [hs] at h; cases h
        | some d1 =>
          rw [hs] at h
          obtain ⟨-, rfl⟩ := step_wait hs
          exact ih d1 i h

omit [DecidableEq ι] in
theorem eraseIdx_not_mem {q : List ((i : ι) × M i)} {k : ℕ} {x : (i : ι) × M i}
    (hx : q[k]? = some x) (hn : (q.map Sigma.fst).Nodup) :
    x.1 ∉ (q.eraseIdx k).map Sigma.fst := by
  induction q generalizing k with
  | nil => simp at hx
  | cons y t ih =>
    rw [List.map_cons, List.nodup_cons] at hn
    cases k with
    | zero =>
      simp only [List.getElem?_cons_zero, Option.some.injEq] at hx
      subst hx
      exact hn.1
    | succ k =>
      rw [List.getElem?_cons_succ] at hx
      rw [List.eraseIdx_cons_succ, List.map_cons, List.mem_cons, not_or]
      refine ⟨?_, ih hx hn.2⟩
      intro he
      exact hn.1 (he ▸ List.mem_map.2 ⟨x, List.mem_of_getElem? hx, rfl⟩)

theorem lost_files (threads : ℕ) (acts : List (Act M)) (d d' : Disk M)
    (hex : exec threads d acts = some d') (hq : d'.queue = [])
    (hn : (d.queue.map Sigma.fst ++ (storedBy acts).map Sigma.fst).Nodup) (i : ι) :
    (i ∈ lost threads d acts → d'.file i = d.file i) ∧
    (i ∉ lost threads d acts → d'.file i = latest (settle d.file d.queue) acts i) := by
  induction acts generalizing d with
  | nil => cases hex; rw [hq]; exact ⟨fun h => (by cases h), fun _ => rfl⟩
  | cons a r ih =>
    rw [exec_cons] at hex
    obtain ⟨d1, h1, h2⟩ := Option.bind_eq_some_iff.1 hex
    have hl : lost threads d (a :: r) = lostNow d a ++ lost threads d1 r := by
      conv_lhs => unfold lost
      rw [h1]
    rcases a with ⟨j, _ | p⟩ | k | k | _
    · cases h1
      rw [hl]
      exact ih d h2 hn
    · cases h1
      have hn' : ((d.queue ++ [(⟨j, p⟩ : (i : ι) × M i)]).map Sigma.fst ++ (storedBy r).map Sigma.fst).Nodup := by
        rw [List.map_append, List.append_assoc]
        exact hn
      have := ih _ h2 hn'
      rw [hl]
      refine ⟨fun h => this.1 h, fun h => ?_⟩
      rw [this.2 h]
      simp only [settle_append]
      rfl
    · obtain ⟨x, hx, hk, rfl⟩ := step_save h1
      have hnq := (List.nodup_append.1 hn).1
      have hsub : ((d.queue.eraseIdx k).map Sigma.fst ++ (storedBy r).map Sigma.fst).Sublist
          (d.queue.map Sigma.fst ++ (storedBy r).map Sigma.fst) :=
        ((List.eraseIdx_sublist d.queue k).map Sigma.fst).append (List.Sublist.refl _)
      have := ih _ h2 (hsub.nodup hn)
      rw [hl]
      refine ⟨fun h => ?_, fun h => ?_⟩
      · rw [this.1 h]
        have hi : i ≠ x.1 := by
          rintro rfl
          rcases lost_subset _ _ _ _ h with h | h
          · exact eraseIdx_not_mem hx hnq h
          · exact (List.nodup_append.1 hn).2.2 x.1
              (List.mem_map.2 ⟨x, List.mem_of_getElem? hx, rfl⟩) x.1 h rfl
        simp only [Function.update_of_ne hi]
      · rw [this.2 h]
        simp only [settle_erase d.queue d.file hx (Or.inr hnq)]
        rfl
    · obtain ⟨x, hx, hk, rfl⟩ := step_fail h1
      have hnq := (List.nodup_append.1 hn).1
      have hsub : ((d.queue.eraseIdx k).map Sigma.fst ++ (storedBy r).map Sigma.fst).Sublist
          (d.queue.map Sigma.fst ++ (storedBy r).map Sigma.fst) :=
        ((List.eraseIdx_sublist d.queue k).map Sigma.fst).append (List.Sublist.refl _)
      have := ih _ h2 (hsub.nodup hn)
      rw [hl]
      simp only [lostNow, hx, Option.map_some, Option.toList_some, List.singleton_append, List.mem_cons, not_or]
      have hr : x.1 ∉ (storedBy r).map Sigma.fst := fun h =>
        (List.nodup_append.1 hn).2.2 x.1
          (List.mem_map.2 ⟨x, List.mem_of_getElem? hx, rfl⟩) x.1 h rfl
      refine ⟨?_, ?_⟩
      · rintro (rfl | h)
        · by_cases h : x.1 ∈ lost threads ⟨d.file, d.queue.eraseIdx k⟩ r
          · exact this.1 h
          · rw [this.2 h, latest_other r _ hr, settle_other _ _ _ (eraseIdx_not_mem hx hnq)]
        · exact this.1 h
      · rintro ⟨hi, h⟩
        rw [this.2 h]
        have e : settle d.file (d.queue.eraseIdx k) i = settle d.file d.queue i :=
          settle_erase_other d.queue d.file hx hi
        exact latest_congr r e
    · obtain ⟨-, rfl⟩ := step_wait h1
      rw [hl]
      exact ih d1 h2 hn

/-! ### C132 -/

/-- **C132** (in memory).  With memory or CPU storage, `retrieve_preconditioner` returns what the last
`store_preconditioner` for the layer was given, `None` included; `None` for a layer never stored and for an
index beyond the number of layers. -/
theorem C132_memory (valid : ι → Bool) (calls : List ((i : ι) × Option (M i))) (i : ι) :
    (valid i = false → memRetrieve valid (memStores valid calls) i = none) ∧
    ((∀ c ∈ calls, c.1 ≠ i) → memRetrieve valid (memStores valid calls) i = none) ∧
    ∀ (l r : List ((i : ι) × Option (M i))) (p : Option (M i)), calls = l ++ ⟨i, p⟩ :: r →
      (∀ c ∈ r, c.1 ≠ i) → valid i = true → memRetrieve valid (memStores valid calls) i = p := by
  have key : ∀ (r : List ((i : ι) × Option (M i))) (s : Slots M), (∀ c ∈ r, c.1 ≠ i) →
      r.foldl (fun s c => memStore valid s c.1 c.2) s i = s i := by
    intro r
    induction r with
    | nil => intro s _; rfl
    | cons c r ih =>
      intro s h
      rw [List.foldl_cons, ih _ fun c hc => h c (List.mem_cons_of_mem _ hc)]
      unfold memStore
      split_ifs
      · rw [Function.update_of_ne (h c List.mem_cons_self).symm]
      · rfl
  refine ⟨fun h => by unfold memRetrieve; rw [if_neg (by rw [h]; simp)], ?_, ?_⟩
  · intro h
    unfold memRetrieve memStores
    rw [key _ _ h]
    simp
  · rintro l r p rfl h hv
    unfold memRetrieve memStores
    rw [if_pos hv, List.foldl_append, List.foldl_cons, key _ _ h]
    unfold memStore
    rw [if_pos hv, Function.update_self]

/-- **C132** (on disk).  With disk storage, once `wait_for_async_operations` can return after a schedule in
which no save raised, `retrieve_preconditioner` returns for every layer the last preconditioner stored for
it that was not `None`, and otherwise what the directory held before.  This needs one executor thread, or
that the calls for one layer are separated by a return of `wait_for_async_operations`. -/
theorem C132_disk (threads : ℕ) (f : Slots M) (acts : List (Act M)) {d : Disk M}
    (hex : exec threads ⟨f, []⟩ acts = some d) (hf : ∀ k, Act.fail k ∉ acts) (hq : d.queue = [])
    (h : threads ≤ 1 ∨ Separated [] acts) : d.file = latest f acts := by
  have := settled threads acts _ d [] hex hf (by
    rcases h with h | h
    · exact Or.inl h
    · exact Or.inr ⟨h, by simp, by simp⟩)
  rw [hq] at this
  exact this

/-- **C132** (race).  With two or more executor threads, two calls for one layer without a wait between them
can end with the earlier preconditioner in the file. -/
theorem C132_race (threads : ℕ) (ht : 2 ≤ threads) (f : Slots M) (i : ι) (p q : M i) :
    exec threads ⟨f, []⟩ [.store i (some p), .store i (some q), .save 1, .save 0, .wait] =
      some ⟨Function.update f i (some p), []⟩ := by
  have h1 : 1 < threads := by omega
  have h0 : 0 < threads := by omega
  simp [exec, step, h0, h1]

/-- **C132** (saves that raise).  If each layer is stored at most once, then once the saves are over a layer
whose save raised has the file it had before, every other layer what was stored for it. -/
theorem C132_lost (threads : ℕ) (f : Slots M) (acts : List (Act M)) {d : Disk M}
    (hex : exec threads ⟨f, []⟩ acts = some d) (hq : d.queue = [])
    (hn : ((storedBy acts).map Sigma.fst).Nodup) (i : ι) :
    (i ∈ lost threads ⟨f, []⟩ acts → d.file i = f i) ∧
    (i ∉ lost threads ⟨f, []⟩ acts → d.file i = latest f acts i) :=
  lost_files threads acts _ d hex hq (by simpa using hn) i

/-- **C132** (storing `None`).  Storing a preconditioner and then `None` forgets it in memory and keeps it on
disk, whatever the schedule. -/
theorem C132_none_kept (valid : ι → Bool) (threads : ℕ) (f : Slots M) (i : ι) (p : M i) (hv : valid i = true) :
    memRetrieve valid (memStores valid [⟨i, some p⟩, ⟨i, none⟩]) i = none ∧
    ∀ (acts : List (Act M)) (d : Disk M), exec threads ⟨f, []⟩ acts = some d → (∀ k, Act.fail k ∉ acts) →
      d.queue = [] → storedBy acts = [⟨i, p⟩] → d.file i = some p := by
  refine ⟨(C132_memory valid _ i).2.2 [⟨i, some p⟩] [] none rfl (by simp) hv, ?_⟩
  intro acts d hex hf hq hs
  have hl : ∀ (acts : List (Act M)) (d : Disk M), (∀ k, Act.fail k ∉ acts) → lost threads d acts = [] := by
    intro acts
    induction acts with
    | nil => intro d _; rfl
    | cons a r ih =>
      intro d h
      have h' : ∀ k, Act.fail k ∉ r := fun k hk => h k (List.mem_cons_of_mem _ hk)
      unfold lost
      rcases a with ⟨j, q⟩ | k | k | _
      · cases hs : step threads d (.store j q) with
        | none => rfl
        | some d' => exact ih d' h'
      · cases hs : step threads d (.save k) with
        | none => rfl
        | some d' => exact ih d' h'
      · exact absurd List.mem_cons_self (h k)
      · cases hs : step threads d .wait with
        | none => rfl
        | some d' => exact ih d' h'
  have := (C132_lost threads f acts hex hq (by rw [hs]; simp) i).2 (by rw [hl acts _ hf]; simp)
  rw [this, latest_settle, hs]
  simp [settle]

/-- A schedule with a store of `None` after a store. -/
example : exec (M := fun _ : ℕ => ℕ) 1 ⟨fun _ => none, []⟩
    [.store 0 (some 5), .save 0, .wait, .store 0 none, .wait] = some ⟨Function.update (fun _ => none) 0 (some 5), []⟩ ∧
    Separated [] [Act.store (M := fun _ : ℕ => ℕ) 0 (some 5), .save 0, .wait, .store 0 none, .wait] := by
  refine ⟨by simp [exec, step], ?_⟩
  simp [Separated]

end Verif.Precond

namespace Verif.BlockIF

open Verif Verif.Precond

variable {K : Type} [Field K] [DecidableEq K] {L : ℕ} {d : Fin L → ℕ}

theorem preStores_loop (damping : Option K) (cs : List (List (Row K d) × List (ℕ × ℕ × ℕ)))
    (ls : List (Fin L)) (p : Slots fun l : Fin L => Matrix (Fin (d l)) (Fin (d l)) K) :
    preLoop damping cs ls p =
      (settle p (preStores damping cs ls).1, (preStores damping cs ls).2) := by
  induction ls generalizing p with
  | nil => rfl
  | cons l ls ih =>
    unfold preLoop preStores
    split_ifs with h
    · exact ih p
    · cases hs : stableInverse damping (((accumulate l cs).2 : K)⁻¹ • (accumulate l cs).1) with
      | error e => rfl
      | ok P => simp only; rw [ih]; rfl

theorem preStores_sub (damping : Option K) (cs : List (List (Row K d) × List (ℕ × ℕ × ℕ)))
    (ls : List (Fin L)) : ((preStores damping cs ls).1.map Sigma.fst).Sublist ls := by
  induction ls with
  | nil => exact List.Sublist.slnil
  | cons l ls ih =>
    unfold preStores
    split_ifs with h
    · exact ih.cons l
    · cases hs : stableInverse damping (((accumulate l cs).2 : K)⁻¹ • (accumulate l cs).1) with
      | error e => exact List.nil_sublist _
      | ok P => exact ih.cons_cons l

/-- **C132** (round trip).  Let `compute_preconditioners` store its results through the disk manager, under
any schedule of the executor, in a directory that holds the preconditioners `f`.  When its final wait
returns, `compute_ifvp` retrieves for every layer whose save did not raise what the run with in-memory
storage holding `f` would have stored; for a layer whose save raised it retrieves what `f` holds - and
nothing was raised. -/
theorem C132_round_trip (damping : Option K) (cs : List (List (Row K d) × List (ℕ × ℕ × ℕ)))
    (threads : ℕ) (f : Slots fun l : Fin L => Matrix (Fin (d l)) (Fin (d l)) K)
    (acts : List (Act fun l : Fin L => Matrix (Fin (d l)) (Fin (d l)) K))
    {D : Disk fun l : Fin L => Matrix (Fin (d l)) (Fin (d l)) K}
    (hex : exec threads ⟨f, []⟩ acts = some D) (hq : D.queue = [])
    (hs : storedBy acts = (preStores damping cs (List.finRange L)).1) (l : Fin L) :
    (l ∉ lost threads ⟨f, []⟩ acts → D.file l = (preLoop damping cs (List.finRange L) f).1 l) ∧
    (l ∈ lost threads ⟨f, []⟩ acts → D.file l = f l) := by
  have hn : ((storedBy acts).map Sigma.fst).Nodup := by
    rw [hs]
    exact (preStores_sub damping cs _).nodup (List.nodup_finRange L)
  obtain ⟨h1, h2⟩ := C132_lost threads f acts hex hq hn l
  refine ⟨fun h => ?_, h1⟩
  rw [h2 h, latest_settle, hs, preStores_loop]

/-- **C132** (a lost save drops the layer from the scores).  In an empty directory, if the saves of some layers
raise, `compute_ifvp` goes on and every score is the sum over the other layers only. -/
theorem C132_lost_scores (damping : Option K) (cs : List (List (Row K d) × List (ℕ × ℕ × ℕ)))
    (threads : ℕ) (acts : List (Act fun l : Fin L => Matrix (Fin (d l)) (Fin (d l)) K))
    {D : Disk fun l : Fin L => Matrix (Fin (d l)) (Fin (d l)) K}
    (hex : exec threads ⟨fun _ => none, []⟩ acts = some D) (hq : D.queue = [])
    (hs : storedBy acts = (preStores damping cs (List.finRange L)).1) (g t : Row K d) :
    ∑ l, ∑ k, applyPre D.file g l k * t l k =
      ∑ l with l ∉ lost threads ⟨fun _ => none, []⟩ acts,
        ∑ k, applyPre (preLoop damping cs (List.finRange L) fun _ => none).1 g l k * t l k := by
  rw [Finset.sum_filter]
  apply Finset.sum_congr rfl
  intro l _
  obtain ⟨h1, h2⟩ := C132_round_trip damping cs threads _ acts hex hq hs l
  by_cases h : l ∈ lost threads ⟨fun _ => none, []⟩ acts
  · rw [if_neg (not_not.2 h)]
    unfold applyPre applyLayer
    rw [h2 h]
    simp
  · rw [if_pos h]
    unfold applyPre
    rw [h1 h]

/-- One layer of dimension 1 with the single gradient 2: the accumulated matrix is stored, and a schedule
whose save raises leaves the score 0. -/
example : ∃ D : Disk fun _ : Fin 1 => Matrix (Fin 1) (Fin 1) ℚ,
    exec 1 ⟨fun _ => none, []⟩ [.store 0 (some 1), .fail 0, .wait] = some D ∧ D.queue = [] ∧
      lost 1 (⟨fun _ => none, []⟩ : Disk fun _ : Fin 1 => Matrix (Fin 1) (Fin 1) ℚ)
        [.store 0 (some 1), .fail 0, .wait] = [0] := by
  refine ⟨⟨fun _ => none, []⟩, by simp [exec, step], rfl, by simp [lost, lostNow, step]⟩

end Verif.BlockIF
