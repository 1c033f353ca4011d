import Verif.DVEmb.Lemmas

/-!
# What recording a run and computing its embeddings does to the state
-/

namespace Verif.DVEmb

open Verif Matrix

variable {K : Type} [Field K] {d : ℕ}

theorem holds_nil {s : St K d} (hl : s.lrs = []) (hi : s.idxs = []) (hg : s.grads = []) :
    Holds s [] := by
  constructor <;> simp [hl, hi, hg]

omit [Field K] in
theorem lookup_push_dset {α : Type} (L : List (Call K d)) (f : Call K d → α) (c : Call K d)
    (m : Dict (List α))
    (h : ∀ e, m.lookup e = if L.filter (·.epoch = e) = [] then none
      else some ((L.filter (·.epoch = e)).map f)) (m1 : Dict (List α))
    (hm1 : ∀ e, m1.lookup e = if e = c.epoch then some ((L.filter (·.epoch = e)).map f)
      else m.lookup e) (e : ℤ) :
    (dpush c.epoch (f c) m1).lookup e = if (L ++ [c]).filter (·.epoch = e) = [] then none
      else some (((L ++ [c]).filter (·.epoch = e)).map f) := by
  rw [lookup_dpush]
  by_cases h1 : e = c.epoch
  · rw [if_pos h1, hm1, if_pos h1, List.filter_append, List.filter_cons_of_pos (by simp [h1])]
    simp
  · rw [if_neg h1, hm1, if_neg h1, h, List.filter_append,
      List.filter_cons_of_neg (by simpa using fun h => h1 h.symm)]
    simp

theorem cacheGradients_holds {s : St K d} {L : List (Call K d)} (h : Holds s L) (c : Call K d)
    (hc : c.idx ≠ []) :
    (cacheGradients s c.epoch c.g c.idx c.lr).2 = .ok () ∧
    Holds (cacheGradients s c.epoch c.g c.idx c.lr).1 (L ++ [c]) ∧
    (cacheGradients s c.epoch c.g c.idx c.lr).1.emb = s.emb := by
  have hlen : c.idx.length ≠ 0 := fun h => hc (List.length_eq_zero_iff.1 h)
  -- the three dictionaries after the key has been ensured
  obtain ⟨s1, hs1⟩ : ∃ s1 : St K d, s1 = (if (s.grads.lookup c.epoch).isNone then
      { s with grads := dset c.epoch [] s.grads, lrs := dset c.epoch [] s.lrs,
               idxs := dset c.epoch [] s.idxs } else s) := ⟨_, rfl⟩
  have key : (∀ e, s1.grads.lookup e = if e = c.epoch then
        some ((L.filter (·.epoch = e)).map Call.g) else s.grads.lookup e) ∧
      (∀ e, s1.lrs.lookup e = if e = c.epoch then
        some ((L.filter (·.epoch = e)).map Call.eta) else s.lrs.lookup e) ∧
      (∀ e, s1.idxs.lookup e = if e = c.epoch then
        some ((L.filter (·.epoch = e)).map Call.idx) else s.idxs.lookup e) ∧
      (s1.lrs.map Prod.fst).Nodup ∧ (s1.idxs.map Prod.fst).Nodup ∧
      (s1.grads.map Prod.fst).Nodup ∧ s1.emb = s.emb := by
    have hnd : ∀ {α : Type} (m : Dict (List α)), (m.map Prod.fst).Nodup →
        ((dset c.epoch [] m).map Prod.fst).Nodup := by
      intro α m hm
      rw [keys_dset]
      split_ifs with h1
      · exact hm
      · exact List.nodup_append.2 ⟨hm, by simp, by
          intro a ha b hb hab
          rw [List.mem_singleton] at hb
          exact h1 (hb ▸ hab ▸ ha)⟩
    by_cases hn : L.filter (·.epoch = c.epoch) = []
    · have h1 : (s.grads.lookup c.epoch).isNone = true := by rw [h.grads, if_pos hn]; rfl
      rw [if_pos h1] at hs1
      subst hs1
      refine ⟨?_, ?_, ?_, hnd _ h.nodupL, hnd _ h.nodupI, hnd _ h.nodupG, rfl⟩ <;>
      · intro e
        simp only [lookup_dset]
        by_cases he : e = c.epoch
        · simp [he, hn]
        · simp [he]
    · have h1 : ¬ (s.grads.lookup c.epoch).isNone = true := by rw [h.grads, if_neg hn]; simp
      rw [if_neg h1] at hs1
      subst hs1
      refine ⟨?_, ?_, ?_, h.nodupL, h.nodupI, h.nodupG, rfl⟩
      · intro e
        by_cases he : e = c.epoch
        · rw [if_pos he, he, h.grads, if_neg hn]
        · rw [if_neg he]
      · intro e
        by_cases he : e = c.epoch
        · rw [if_pos he, he, h.lrs, if_neg hn]
        · rw [if_neg he]
      · intro e
        by_cases he : e = c.epoch
        · rw [if_pos he, he, h.idxs, if_neg hn]
        · rw [if_neg he]
  obtain ⟨kg, kl, ki, n1, n2, n3, ke⟩ := key
  have h2 : ¬ (s1.lrs.lookup c.epoch).isNone = true := by rw [kl, if_pos rfl]; simp
  have h3 : ¬ (s1.idxs.lookup c.epoch).isNone = true := by rw [ki, if_pos rfl]; simp
  have hmain : cacheGradients s c.epoch c.g c.idx c.lr =
      ({ s1 with grads := dpush c.epoch c.g s1.grads, lrs := dpush c.epoch c.eta s1.lrs,
                 idxs := dpush c.epoch c.idx s1.idxs }, .ok ()) := by
    unfold cacheGradients
    simp only [← hs1]
    rw [if_neg h2, if_neg hlen, if_neg h3]
    rfl
  rw [hmain]
  refine ⟨rfl, ?_, ke⟩
  constructor
  · exact lookup_push_dset L Call.eta c s.lrs h.lrs s1.lrs kl
  · exact lookup_push_dset L Call.idx c s.idxs h.idxs s1.idxs ki
  · exact lookup_push_dset L Call.g c s.grads h.grads s1.grads kg
  · simpa only [keys_dpush] using n1
  · simpa only [keys_dpush] using n2
  · simpa only [keys_dpush] using n3

theorem record_holds {s : St K d} {L : List (Call K d)} (h : Holds s L) (calls : List (Call K d))
    (hc : ∀ c ∈ calls, c.idx ≠ []) :
    ∃ s', record s calls = .ok s' ∧ Holds s' (L ++ calls) ∧ s'.emb = s.emb := by
  induction calls generalizing s L with
  | nil => exact ⟨s, rfl, by simpa using h, rfl⟩
  | cons c t ih =>
    obtain ⟨h1, h2, h3⟩ := cacheGradients_holds h c (hc c List.mem_cons_self)
    obtain ⟨s', h4, h5, h6⟩ := ih h2 fun c hc' => hc c (List.mem_cons_of_mem _ hc')
    refine ⟨s', ?_, by simpa using h5, h6.trans h3⟩
    unfold record
    rw [h1]
    exact h4

theorem le_foldr_max {l : List ℕ} {x : ℕ} (h : x ∈ l) : x ≤ l.foldr max 0 := by
  induction l with
  | nil => cases h
  | cons a t ih =>
    rw [List.foldr_cons]
    rcases List.mem_cons.1 h with rfl | h
    · exact le_max_left _ _
    · exact le_trans (ih h) (le_max_right _ _)

theorem foldr_max_mem {l : List ℕ} (h : l ≠ []) : l.foldr max 0 ∈ l := by
  induction l with
  | nil => exact absurd rfl h
  | cons a t ih =>
    rw [List.foldr_cons]
    by_cases ht : t = []
    · subst ht; simp
    · rcases max_choice a (t.foldr max 0) with h1 | h1
      · rw [h1]; exact List.mem_cons_self
      · rw [h1]; exact List.mem_cons_of_mem _ (ih ht)

omit [Field K] in
theorem mem_keys_iff {α : Type} {m : Dict (List α)} {calls : List (Call K d)} {f : Call K d → α}
    (h : ∀ e, m.lookup e = if calls.filter (·.epoch = e) = [] then none
      else some ((calls.filter (·.epoch = e)).map f)) (e : ℤ) :
    e ∈ m.map Prod.fst ↔ ∃ c ∈ calls, c.epoch = e := by
  rw [← lookup_isSome, h]
  by_cases h1 : calls.filter (·.epoch = e) = []
  · rw [if_pos h1]
    rw [List.filter_eq_nil_iff] at h1
    simp only [Option.isSome_none, Bool.false_eq_true, false_iff, not_exists, not_and]
    intro c hc
    simpa using h1 c hc
  · rw [if_neg h1]
    obtain ⟨c, hc⟩ := List.exists_mem_of_ne_nil _ h1
    simp only [Option.isSome_some, true_iff]
    exact ⟨c, (List.mem_filter.1 hc).1, by simpa using (List.mem_filter.1 hc).2⟩

omit [Field K] in
theorem entry_of_mem {α : Type} {m : Dict (List α)} {calls : List (Call K d)} {f : Call K d → α}
    (hn : (m.map Prod.fst).Nodup)
    (h : ∀ e, m.lookup e = if calls.filter (·.epoch = e) = [] then none
      else some ((calls.filter (·.epoch = e)).map f)) {p : ℤ × List α} (hp : p ∈ m) :
    calls.filter (·.epoch = p.1) ≠ [] ∧ p.2 = (calls.filter (·.epoch = p.1)).map f := by
  have h1 := lookup_of_mem hn hp
  rw [h] at h1
  split_ifs at h1 with h2
  exact ⟨h2, (Option.some.inj h1).symm⟩

theorem numSamples_ok {s : St K d} {calls : List (Call K d)} (h : Holds s calls)
    (hne : calls ≠ []) (hc : ∀ c ∈ calls, c.idx ≠ []) :
    ∃ num, numSamples s.idxs = .ok num ∧ IsCount calls num := by
  obtain ⟨c0, hc0⟩ := List.exists_mem_of_ne_nil _ hne
  have hmem : ∀ i, i ∈ (s.idxs.map fun p => p.2.flatten).flatten ↔
      ∃ c ∈ calls, i ∈ c.idx := by
    intro i
    simp only [List.mem_flatten, List.mem_map]
    constructor
    · rintro ⟨l, ⟨p, hp, rfl⟩, hi⟩
      rw [List.mem_flatten] at hi
      obtain ⟨q, hq, hi⟩ := hi
      rw [(entry_of_mem h.nodupI h.idxs hp).2, List.mem_map] at hq
      obtain ⟨c, hc, rfl⟩ := hq
      exact ⟨c, (List.mem_filter.1 hc).1, hi⟩
    · rintro ⟨c, hc, hi⟩
      have hf : c ∈ calls.filter (·.epoch = c.epoch) := by simp [hc]
      have h1 := h.idxs c.epoch
      rw [if_neg (List.ne_nil_of_mem hf)] at h1
      exact ⟨_, ⟨_, mem_of_lookup h1, rfl⟩, List.mem_flatten.2
        ⟨c.idx, List.mem_map_of_mem hf, hi⟩⟩
  have hall : (s.idxs.map fun p => p.2.flatten).flatten ≠ [] := by
    obtain ⟨i, hi⟩ := List.exists_mem_of_ne_nil _ (hc c0 hc0)
    exact List.ne_nil_of_mem ((hmem i).2 ⟨c0, hc0, hi⟩)
  refine ⟨(s.idxs.map fun p => p.2.flatten).flatten.foldr max 0 + 1, ?_, ?_, ?_⟩
  · unfold numSamples
    rw [if_neg]
    · simp only [if_neg hall]
    · rw [not_or]
      constructor
      · intro h1
        rw [List.isEmpty_iff] at h1
        rw [h1] at hall
        exact hall rfl
      · rintro ⟨p, hp, h1⟩
        obtain ⟨h2, h3⟩ := entry_of_mem h.nodupI h.idxs hp
        rw [h1] at h3
        exact h2 (List.map_eq_nil_iff.1 h3.symm)
  · intro c hc i hi
    exact Nat.lt_succ_of_le (le_foldr_max ((hmem i).2 ⟨c, hc, hi⟩))
  · obtain ⟨c, hc, hi⟩ := (hmem _).1 (foldr_max_mem hall)
    exact ⟨c, hc, _, hi, rfl⟩

theorem notAllEmpty {s : St K d} {calls : List (Call K d)} (h : Holds s calls)
    (hne : calls ≠ []) : ¬ ∀ p ∈ s.grads, p.2 = [] := by
  obtain ⟨c0, hc0⟩ := List.exists_mem_of_ne_nil _ hne
  intro hall
  have hf : c0 ∈ calls.filter (·.epoch = c0.epoch) := by simp [hc0]
  have h1 := h.grads c0.epoch
  rw [if_neg (List.ne_nil_of_mem hf)] at h1
  have := hall _ (mem_of_lookup h1)
  exact List.ne_nil_of_mem hf (List.map_eq_nil_iff.1 this)

theorem probe_ok {s : St K d} {calls : List (Call K d)} (h : Holds s calls)
    (h0 : ∃ c ∈ calls, c.epoch = 0) : ∃ g, probe s.grads = .ok g := by
  obtain ⟨c0, hc0, he⟩ := h0
  have hf : c0 ∈ calls.filter (·.epoch = 0) := by simp [hc0, he]
  have h1 := h.grads 0
  rw [if_neg (List.ne_nil_of_mem hf)] at h1
  unfold probe getKey
  rw [h1]
  simp only [bind, Except.bind, getIdx]
  cases hl : calls.filter (·.epoch = 0) with
  | nil => rw [hl] at hf; cases hf
  | cons c t => exact ⟨c.g, rfl⟩

theorem probe_error {s : St K d} {calls : List (Call K d)} (h : Holds s calls)
    (h0 : ∀ c ∈ calls, c.epoch ≠ 0) : probe s.grads = .error .keyError := by
  have hf : calls.filter (·.epoch = 0) = [] := by
    rw [List.filter_eq_nil_iff]
    intro c hc
    simpa using h0 c hc
  have h1 := h.grads 0
  rw [if_pos hf] at h1
  unfold probe getKey
  rw [h1]
  rfl

/-- The epochs in the order `cache` visits them. -/
def visit (s : St K d) : List ℤ := (s.lrs.map Prod.fst).mergeSort fun a b => decide (b ≤ a)

theorem visit_mem {s : St K d} {calls : List (Call K d)} (h : Holds s calls) (e : ℤ) :
    e ∈ visit s ↔ ∃ c ∈ calls, c.epoch = e := by
  rw [visit, List.mem_mergeSort]
  exact mem_keys_iff h.lrs e

theorem visit_desc {s : St K d} {calls : List (Call K d)} (h : Holds s calls) :
    (visit s).Pairwise (· > ·) := by
  have h1 : (visit s).Pairwise (fun a b => decide (b ≤ a) = true) := by
    unfold visit
    apply List.pairwise_mergeSort
    · intro a b c h1 h2; simp at *; omega
    · intro a b; simp; omega
  have h2 : (visit s).Nodup := (List.mergeSort_perm _ _).nodup_iff.2 h.nodupL
  refine (h1.and h2).imp ?_
  rintro a b ⟨h3, h4⟩
  simp at h3
  exact lt_of_le_of_ne h3 (Ne.symm h4)

/-- The keys added to a dictionary by assigning the keys `es` in order. -/
def addKeys (ks es : List ℤ) : List ℤ := es.foldl (fun ks e => if e ∈ ks then ks else ks ++ [e]) ks

/-- The effect of a successful `cache` on recorded calls. -/
theorem cache_ok (factor ms : Bool) {s : St K d} {calls chron : List (Call K d)}
    (h : Holds s calls) (hch : Chronological calls chron) (hwf : WellFormed calls)
    (h0 : ∃ c ∈ calls, c.epoch = 0) :
    (cache factor s none none ms).res = .ok () ∧
    ∃ num, IsCount calls num ∧
      (∀ e, (∃ c ∈ calls, c.epoch = e) →
        ∃ E, (cache factor s none none ms).st.emb.lookup e = some ⟨num, E⟩ ∧
          ∀ i, E i = specEmb e i chron) ∧
      (∀ e, (∀ c ∈ calls, c.epoch ≠ e) →
        (cache factor s none none ms).st.emb.lookup e = s.emb.lookup e) ∧
      (cache factor s none none ms).st.emb.map Prod.fst =
        addKeys (s.emb.map Prod.fst) (visit s) := by
  obtain ⟨c0, hc0, he0⟩ := h0
  have hne : calls ≠ [] := List.ne_nil_of_mem hc0
  obtain ⟨num, hnum, hcount⟩ := numSamples_ok h hne fun c hc => (hwf c hc).1
  obtain ⟨g, hg⟩ := probe_ok h ⟨c0, hc0, he0⟩
  have hloop := epochLoop_ok s calls chron h hch.2 hch.1 (fun c hc => (hwf c hc).2) num
    (visit s) (visit_desc h)
    (by
      intro e he
      obtain ⟨c, hc, hce⟩ := (visit_mem h e).1 he
      exact List.ne_nil_of_mem (a := c) (by simp [hc, hce]))
    0 [] (by intro x; simp [propagate])
    (by
      intro e he
      symm
      rw [List.filter_eq_nil_iff]
      intro c hc
      have h7 : c ∈ chron.filter (·.epoch = c.epoch) := by simp [hc]
      rw [hch.2] at h7
      have h8 := (visit_mem h c.epoch).2 ⟨c, (List.mem_filter.1 h7).1, rfl⟩
      have h9 := visit_desc h
      cases hv : visit s with
      | nil => rw [hv] at h8; cases h8
      | cons a t =>
        rw [hv] at he h8 h9
        simp only [List.head?_cons, Option.mem_some_iff] at he
        subst he
        rcases List.mem_cons.1 h8 with h10 | h10
        · simp [h10]
        · have := (List.pairwise_cons.1 h9).1 _ h10
          simp; omega)
    (by
      intro c hc e _ _
      exact (visit_mem h c.epoch).2 ⟨c, hc, rfl⟩)
    s.emb
  obtain ⟨a1, a2, a3, a4⟩ := hloop
  have hres : (cache factor s none none ms).res = .ok () ∧
      (cache factor s none none ms).st.emb = (epochLoop s num (visit s) 0 s.emb).1 := by
    unfold cache
    simp only [Option.isSome_none, Bool.false_eq_true, and_false, if_false, Option.getD_none]
    rw [if_neg (notAllEmpty h hne), hnum]
    simp only [hg]
    change ((match (epochLoop s num (visit s) 0 s.emb).2 with
      | .error x => _ | .ok _ => _ : CacheOut K d).res = _) ∧ _
    change _ ∧ ((match (epochLoop s num (visit s) 0 s.emb).2 with
      | .error x => _ | .ok _ => _ : CacheOut K d).st.emb = _)
    rw [a1]
    cases ms <;> exact ⟨rfl, rfl⟩
  refine ⟨hres.1, num, hcount, ?_, ?_, ?_⟩
  · intro e he
    rw [hres.2]
    exact a3 e ((visit_mem h e).2 he)
  · intro e he
    rw [hres.2]
    exact a2 e fun h' => by
      obtain ⟨c, hc, hce⟩ := (visit_mem h e).1 h'
      exact he c hc hce
  · rw [hres.2, a4]; rfl

end Verif.DVEmb
