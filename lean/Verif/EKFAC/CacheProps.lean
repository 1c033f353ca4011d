import Verif.EKFAC.CacheModel
import Verif.EKFAC.Stats

/-!
# C216: modules that do not run in every batch, and hooks that stay
-/

namespace Verif.EkCache

open Verif.EKFAC

variable {R : Type}

/-! ## Specification -/

/-- The last `some` of a list, else the first argument. -/
def latest {α : Type} (init : Option α) (runs : List (Option α)) : Option α := runs.foldl (fun o r => r.or o) init

/-- What counts for batch `t`: what the module did last until then (before the first batch: the given value), and if it has not run until then, its first run. -/
def standIn {α : Type} (init : Option α) (runs : List (Option α)) (t : ℕ) : Option α := (latest init (runs.take (t + 1))).or (runs.findSome? id)

/-- The last application of module `nm` in a batch. -/
def lastOf (nm : String) (b : Batch R) : Option (Rec R) := (b.fwd.reverse.find? fun e => e.1 = nm).map Prod.snd

/-! ## Lemmas -/

theorem latest_append {α : Type} (init : Option α) (l : List (Option α)) (r : Option α) : latest init (l ++ [r]) = r.or (latest init l) := by
  simp [latest, List.foldl_append]

theorem latest_some {α : Type} (init : Option α) (l : List (Option α)) (x : α) (h : latest init l = some x) (r : Option α) : ∃ y, latest init (l ++ [r]) = some y := by
  rw [latest_append, h]
  cases r <;> simp

theorem latest_none {α : Type} (init : Option α) (l : List (Option α)) : latest init l = none ↔ init = none ∧ ∀ r ∈ l, r = none := by
  induction l using List.reverseRecOn with
  | nil => simp [latest]
  | append_singleton l r ih =>
    rw [latest_append, Option.or_eq_none_iff, ih]
    simp only [List.mem_append, List.mem_singleton]
    constructor
    · rintro ⟨h1, h2, h3⟩
      refine ⟨h2, fun x hx => ?_⟩
      rcases hx with hx | rfl
      · exact h3 x hx
      · exact h1
    · rintro ⟨h1, h2⟩
      exact ⟨h2 r (Or.inr rfl), h1, fun x hx => h2 x (Or.inl hx)⟩

theorem findSome_none {α : Type} (l : List (Option α)) : l.findSome? id = none ↔ ∀ r ∈ l, r = none := by
  simp [List.findSome?_eq_none_iff]

/-- Earlier batches keep what counts for them once anything has been recorded. -/
theorem standIn_append {α : Type} (init : Option α) (l : List (Option α)) (r : Option α) (h : latest init l ≠ none) (t : ℕ) (ht : t < l.length) :
    standIn init (l ++ [r]) t = standIn init l t := by
  unfold standIn
  rw [List.take_append_of_le_length (by omega)]
  cases hl : latest init (l.take (t + 1)) with
  | some x => simp
  | none =>
    simp only [Option.none_or]
    rw [latest_none] at hl
    have : ∃ x, l.findSome? id = some x := by
      cases hf : l.findSome? id with
      | some x => exact ⟨x, rfl⟩
      | none =>
        rw [findSome_none] at hf
        exact absurd ((latest_none init l).2 ⟨hl.1, hf⟩) h
    obtain ⟨x, hx⟩ := this
    rw [List.findSome?_append, hx]
    rfl

theorem standIn_last {α : Type} (init : Option α) (l : List (Option α)) (r : Option α) (x : α) (h : latest init (l ++ [r]) = some x) :
    standIn init (l ++ [r]) l.length = some x := by
  unfold standIn
  rw [List.take_of_length_le (by simp), h]
  rfl

theorem standIn_first {α : Type} (l : List (Option α)) (x : α) (h : ∀ r ∈ l, r = none) (t : ℕ) :
    standIn none (l ++ [some x]) t = some x := by
  have hf : (l ++ [some x]).findSome? id = some x := by
    rw [List.findSome?_append, (findSome_none l).2 h]
    rfl
  unfold standIn
  rcases Nat.lt_or_ge t l.length with hlt | hge
  · rw [List.take_append_of_le_length (by omega), (latest_none none _).2 ⟨rfl, fun r hr => h r (List.mem_of_mem_take hr)⟩, hf]
    rfl
  · rw [List.take_of_length_le (by simp; omega), latest_append]
    rfl

theorem standIn_some {α : Type} (init : Option α) (l : List (Option α)) (h : latest init l ≠ none) (t : ℕ) : ∃ x, standIn init l t = some x := by
  unfold standIn
  cases hl : latest init (l.take (t + 1)) with
  | some x => exact ⟨x, rfl⟩
  | none =>
    rw [latest_none] at hl
    cases hf : l.findSome? id with
    | some x => exact ⟨x, rfl⟩
    | none =>
      rw [findSome_none] at hf
      exact absurd ((latest_none init l).2 ⟨hl.1, hf⟩) h

theorem latest_mem {α : Type} (init : Option α) (l : List (Option α)) (x : α) (h : latest init l = some x) : init = some x ∨ some x ∈ l := by
  induction l using List.reverseRecOn with
  | nil => exact Or.inl h
  | append_singleton l r ih =>
    rw [latest_append] at h
    cases r with
    | none =>
      rw [Option.none_or] at h
      rcases ih h with h | h
      · exact Or.inl h
      · exact Or.inr (by simp [h])
    | some y =>
      rw [Option.some_or, Option.some.injEq] at h
      subst h
      exact Or.inr (by simp)

theorem standIn_mem {α : Type} (init : Option α) (l : List (Option α)) (t : ℕ) (x : α) (h : standIn init l t = some x) : init = some x ∨ some x ∈ l := by
  unfold standIn at h
  cases hl : latest init (l.take (t + 1)) with
  | some y =>
    rw [hl, Option.some_or, Option.some.injEq] at h
    subst h
    rcases latest_mem init _ y hl with h | h
    · exact Or.inl h
    · exact Or.inr (List.mem_of_mem_take h)
  | none =>
    rw [hl, Option.none_or] at h
    obtain ⟨a, ha, hx⟩ := List.exists_of_findSome?_eq_some h
    rw [id_eq] at hx
    exact Or.inr (hx ▸ ha)

theorem keys_fill (cache : Cache R) (fwd : List (String × Rec R)) (h : (PyDict.keys cache).Nodup) : (PyDict.keys (fill cache fwd)).Nodup := by
  induction fwd generalizing cache with
  | nil => exact h
  | cons e l ih =>
    unfold fill
    rw [List.foldl_cons]
    apply ih
    rw [PyDict.keys_set]
    split_ifs with hm
    · exact h
    · rw [List.nodup_append]
      refine ⟨h, by simp, ?_⟩
      intro a ha b hb
      simp only [List.mem_singleton] at hb
      subst hb
      rintro rfl
      exact hm ha

theorem get_fill (cache : Cache R) (b : Batch R) (nm : String) : PyDict.get? (fill cache b.fwd) nm = (lastOf nm b).or (PyDict.get? cache nm) := by
  unfold lastOf
  induction b.fwd using List.reverseRecOn with
  | nil => simp [fill]
  | append_singleton l e ih =>
    unfold fill at ih ⊢
    rw [List.foldl_append, List.foldl_cons, List.foldl_nil, PyDict.get?_set]
    simp only [List.reverse_append, List.reverse_cons, List.reverse_nil, List.nil_append, List.singleton_append, List.find?_cons]
    by_cases he : nm = e.1
    · simp [he]
    · rw [if_neg he]
      have : decide (e.1 = nm) = false := by simp [Ne.symm he]
      rw [this]
      exact ih

/-- A record with one row per sample of a batch of size `n` whose output received a gradient. -/
def Good (n : ℕ) (r : Rec R) : Prop := r.a.length = n ∧ ∃ ds, r.ds = some ds ∧ ds.length = n

/-- The gradients of a record. -/
def grads (r : Rec R) : List (ℕ → R) := r.ds.getD []

theorem fold_layers {β : Type} (one : Dict β → String × Rec R → Except Err (Dict β)) (good : Rec R → Prop) (f : String → Option β → Rec R → β) (ok : String → Prop)
    (h1 : ∀ est e, good e.2 → ok e.1 → one est e = .ok fun k => if k = e.1 then some (f e.1 (est e.1) e.2) else est k) (cache : Cache R)
    (hn : (PyDict.keys cache).Nodup) (hg : ∀ e ∈ cache, good e.2 ∧ ok e.1) (est : Dict β) :
    ∃ est', cache.foldlM one est = .ok est' ∧ ∀ nm, est' nm = match PyDict.get? cache nm with
      | none => est nm
      | some r => some (f nm (est nm) r) := by
  induction cache generalizing est with
  | nil => exact ⟨est, rfl, fun nm => rfl⟩
  | cons e l ih =>
    obtain ⟨k, r⟩ := e
    unfold PyDict.keys at hn ih
    rw [List.map_cons, List.nodup_cons] at hn
    obtain ⟨est', h2, h3⟩ := ih hn.2 (fun x hx => hg x (List.mem_cons_of_mem _ hx)) (fun k' => if k' = k then some (f k (est k) r) else est k')
    refine ⟨est', ?_, fun nm => ?_⟩
    · have hg' := hg (k, r) List.mem_cons_self
      rw [List.foldlM_cons, h1 est (k, r) hg'.1 hg'.2]
      exact h2
    · rw [h3 nm]
      by_cases hk : k = nm
      · subst hk
        have : PyDict.get? l k = none := (PyDict.get?_eq_none l k).2 hn.1
        rw [this]
        simp [PyDict.get?]
      · simp only [PyDict.get?, if_neg hk]
        rw [if_neg (Ne.symm hk)]

/-- The invariant of both loops. -/
theorem pass {β : Type} (n : ℕ) (one : ℕ → ℕ → Dict β → String × Rec R → Except Err (Dict β)) (f : ℕ → String → Option β → Rec R → β)
    (ok : String → Prop)
    (P : String → List (Rec R) → β)
    (h1 : ∀ total est e, Good n e.2 → ok e.1 → one total n est e = .ok fun k => if k = e.1 then some (f total e.1 (est e.1) e.2) else est k)
    (h2 : ∀ T nm r, Good n r → f (n * T) nm none r = P nm (List.replicate (T + 1) r))
    (h3 : ∀ nm r recs, recs ≠ [] → (∀ x ∈ recs, Good n x) → Good n r → f (n * recs.length) nm (some (P nm recs)) r = P nm (recs ++ [r]))
    (cache : Cache R) (hc : (PyDict.keys cache).Nodup) (hgc : ∀ e ∈ cache, Good n e.2 ∧ ok e.1) (bs : List (Batch R))
    (hb : ∀ b ∈ bs, b.size = n ∧ ∀ e ∈ b.fwd, Good n e.2 ∧ ok e.1) :
    ∃ est cache', bs.foldlM (fun (st : Dict β × Cache R × ℕ) b => do
        let c := fill st.2.1 b.fwd
        let est ← c.foldlM (one st.2.2 b.size) st.1
        pure (est, c, st.2.2 + b.size)) ((fun _ => none), cache, 0) = .ok (est, cache', n * bs.length) ∧
      (PyDict.keys cache').Nodup ∧ (∀ e ∈ cache', Good n e.2 ∧ ok e.1) ∧
      ∀ nm, PyDict.get? cache' nm = latest (PyDict.get? cache nm) (bs.map (lastOf nm)) ∧
        est nm = if bs = [] ∨ latest (PyDict.get? cache nm) (bs.map (lastOf nm)) = none then none
          else some (P nm ((List.range bs.length).filterMap (standIn (PyDict.get? cache nm) (bs.map (lastOf nm))))) := by
  induction bs using List.reverseRecOn with
  | nil => exact ⟨_, _, rfl, hc, hgc, fun nm => ⟨rfl, by simp⟩⟩
  | append_singleton bs b ih =>
    obtain ⟨est, cache', e1, e2, e3, e4⟩ := ih fun x hx => hb x (by simp [hx])
    obtain ⟨hbs, hbf⟩ := hb b (by simp)
    have k1 : (PyDict.keys (fill cache' b.fwd)).Nodup := keys_fill cache' b.fwd e2
    have k2 : ∀ e ∈ fill cache' b.fwd, Good n e.2 ∧ ok e.1 := by
      have : ∀ (l : List (String × Rec R)) (c : Cache R), (∀ e ∈ l, Good n e.2 ∧ ok e.1) → (PyDict.keys c).Nodup → (∀ e ∈ c, Good n e.2 ∧ ok e.1) →
          ∀ e ∈ fill c l, Good n e.2 ∧ ok e.1 := by
        intro l
        induction l with
        | nil => intro c _ _ h; exact h
        | cons x l ih2 =>
          intro c hl hcn h
          unfold fill
          rw [List.foldl_cons]
          refine ih2 _ (fun e he => hl e (by simp [he])) (PyDict.nodup_set hcn _ _) fun e he => ?_
          have hg := PyDict.get?_of_mem (PyDict.nodup_set hcn x.1 x.2) he
          rw [PyDict.get?_set] at hg
          by_cases hx : e.1 = x.1
          · rw [if_pos hx, Option.some.injEq] at hg
            rw [← hg, hx]
            exact hl x (by simp)
          · rw [if_neg hx] at hg
            exact h e (PyDict.mem_of_get? hg)
      exact this b.fwd cache' hbf e2 e3
    obtain ⟨est', g1, g2⟩ := fold_layers (one (n * bs.length) n) (Good n) (f (n * bs.length)) ok (h1 (n * bs.length)) (fill cache' b.fwd) k1 k2 est
    have hlat : ∀ nm, PyDict.get? (fill cache' b.fwd) nm = latest (PyDict.get? cache nm) ((bs ++ [b]).map (lastOf nm)) := by
      intro nm
      rw [get_fill, (e4 nm).1, List.map_append, List.map_cons, List.map_nil, latest_append]
    refine ⟨est', fill cache' b.fwd, ?_, k1, k2, fun nm => ⟨hlat nm, ?_⟩⟩
    · rw [List.foldlM_append, e1]
      simp only [bind, Except.bind, List.foldlM_cons, List.foldlM_nil, pure, Except.pure, hbs, g1]
      simp [Nat.mul_add]
    · rw [g2 nm, hlat nm]
      have hne : ¬(bs ++ [b] = [] ∨ False) := by simp
      set init := PyDict.get? cache nm with hinit
      have hest := (e4 nm).2
      have hmap : (bs ++ [b]).map (lastOf nm) = bs.map (lastOf nm) ++ [lastOf nm b] := by simp
      have hrange : List.range (bs ++ [b]).length = List.range bs.length ++ [bs.length] := by
        rw [List.length_append, List.length_singleton, List.range_succ]
      cases hl : latest init ((bs ++ [b]).map (lastOf nm)) with
      | none =>
        simp only [or_true, if_true]
        rw [hest, if_pos]
        right
        rw [hmap, latest_append, Option.or_eq_none_iff] at hl
        exact hl.2
      | some r =>
        have hgr : Good n r := by
          have := hlat nm
          rw [hl] at this
          exact (k2 _ (PyDict.mem_of_get? this)).1
        simp only
        rw [if_neg (by simp)]
        congr 1
        rw [hest]
        cases hl0 : latest init (bs.map (lastOf nm)) with
        | none =>
          rw [if_pos (Or.inr rfl), h2 bs.length nm r hgr]
          congr 1
          rw [latest_none] at hl0
          rw [hmap, latest_append, (latest_none init _).2 hl0, Option.or_none] at hl
          rw [hmap, hl, hl0.1, List.length_append, List.length_singleton]
          have hall : ∀ t ∈ List.range (bs.length + 1), standIn none (bs.map (lastOf nm) ++ [some r]) t = some r := fun t _ =>
            standIn_first _ r hl0.2 t
          rw [List.filterMap_congr hall]
          simp
        | some x =>
          by_cases hbe : bs = []
          · subst hbe
            rw [if_pos (Or.inl rfl)]
            have h0 := h2 0 nm r hgr
            simp only [Nat.mul_zero] at h0
            simp only [List.length_nil, Nat.mul_zero]
            rw [h0]
            congr 1
            simp only [List.nil_append, List.length_singleton, List.range_one, List.filterMap_cons, List.filterMap_nil, List.map_cons, List.map_nil,
              Nat.zero_add, List.replicate_one]
            have : standIn init ([] ++ [lastOf nm b]) 0 = some r := by
              apply standIn_last init [] (lastOf nm b) r
              simpa using hl
            rw [List.nil_append] at this
            rw [this]
          · rw [if_neg (by simp [hbe])]
            have hlen : ((List.range bs.length).filterMap (standIn init (bs.map (lastOf nm)))).length = bs.length := by
              rw [List.length_filterMap_eq_countP, List.countP_eq_length.2, List.length_range]
              intro t _
              obtain ⟨y, hy⟩ := standIn_some init (bs.map (lastOf nm)) (by rw [hl0]; simp) t
              rw [hy]
              rfl
            have hgood : ∀ y ∈ (List.range bs.length).filterMap (standIn init (bs.map (lastOf nm))), Good n y := by
              intro y hy
              obtain ⟨t, _, ht⟩ := List.mem_filterMap.1 hy
              rcases standIn_mem init _ t y ht with h | h
              · exact (hgc _ (PyDict.mem_of_get? h)).1
              · obtain ⟨b', hb', hy'⟩ := List.mem_map.1 h
                unfold lastOf at hy'
                obtain ⟨e, he, hey⟩ := Option.map_eq_some_iff.1 hy'
                have hm : e ∈ b'.fwd := by simpa using List.mem_of_find?_eq_some he
                rw [← hey]
                exact ((hb b' (by simp [hb'])).2 e hm).1
            have hne2 : (List.range bs.length).filterMap (standIn init (bs.map (lastOf nm))) ≠ [] := by
              intro h0
              rw [h0] at hlen
              exact hbe (List.length_eq_zero_iff.1 hlen.symm)
            have h5 := h3 nm r _ hne2 hgood hgr
            rw [hlen] at h5
            rw [h5]
            congr 1
            rw [hrange, List.filterMap_append]
            congr 1
            · refine (List.filterMap_congr fun t ht => ?_).symm
              rw [hmap]
              exact standIn_append init _ _ (by rw [hl0]; simp) t (by simpa using ht)
            · have : standIn init ((bs ++ [b]).map (lastOf nm)) bs.length = some r := by
                have := standIn_last init (bs.map (lastOf nm)) (lastOf nm b) r (by rw [← hmap]; exact hl)
                rw [List.length_map] at this
                rw [hmap]
                exact this
              rw [List.filterMap_cons, this, List.filterMap_nil]

theorem pooled_flat [Field R] (n : ℕ) (recs : List (Rec R)) (g : Rec R → List (ℕ → R)) (i j : ℕ) :
    pooled (recs.flatMap g) (n * recs.length) i j = (recs.map fun r => ((g r).map fun x => x i * x j).sum).sum / ((n : R) * (recs.length : R)) := by
  unfold pooled
  congr 1
  · induction recs with
    | nil => rfl
    | cons r l ih => rw [List.flatMap_cons, List.map_append, List.sum_append, ih, List.map_cons, List.sum_cons]
  · push_cast
    rfl

theorem mean_replicate [Field R] [CharZero R] (n : ℕ) (hn : 0 < n) (T : ℕ) (x : R) : ((List.replicate (T + 1) x).sum) / ((n : R) * ((T + 1 : ℕ) : R)) = x / (n : R) := by
  have h1 : (n : R) ≠ 0 := by exact_mod_cast hn.ne'
  have h2 : ((T + 1 : ℕ) : R) ≠ 0 := by exact_mod_cast Nat.succ_ne_zero T
  rw [List.sum_replicate, nsmul_eq_mul]
  field_simp

theorem mean_append [Field R] [CharZero R] (n : ℕ) (hn : 0 < n) (l : List R) (hl : l ≠ []) (x : R) :
    ((n * l.length : ℕ) : R) / (((n * l.length : ℕ) : R) + (n : R)) * (l.sum / ((n : R) * (l.length : R))) + (n : R) / (((n * l.length : ℕ) : R) + (n : R)) * (x / (n : R)) =
      (l ++ [x]).sum / ((n : R) * ((l ++ [x]).length : R)) := by
  have h1 : (n : R) ≠ 0 := by exact_mod_cast hn.ne'
  have h2 : (l.length : R) ≠ 0 := by
    have : l.length ≠ 0 := fun h => hl (List.length_eq_zero_iff.1 h)
    exact_mod_cast this
  have h3 : (l.length : R) + 1 ≠ 0 := by
    have : ((l.length + 1 : ℕ) : R) ≠ 0 := by exact_mod_cast Nat.succ_ne_zero l.length
    simpa using this
  have h4 : (n : R) * (l.length : R) + n ≠ 0 := by
    have : (n : R) * (l.length : R) + n = n * (l.length + 1) := by ring
    rw [this]
    exact mul_ne_zero h1 h3
  simp only [List.sum_append, List.sum_cons, List.sum_nil, List.length_append, List.length_singleton, Nat.cast_add, Nat.cast_one, Nat.cast_mul, add_zero]
  field_simp

theorem cov_rep [Field R] [CharZero R] (n : ℕ) (hn : 0 < n) (T : ℕ) (r : Rec R) (g : Rec R → List (ℕ → R)) :
    batchCov (g r) n = pooled ((List.replicate (T + 1) r).flatMap g) (n * (List.replicate (T + 1) r).length) := by
  funext i j
  rw [pooled_flat, List.map_replicate, List.length_replicate, mean_replicate n hn]
  rfl

theorem cov_app [Field R] [CharZero R] (n : ℕ) (hn : 0 < n) (recs : List (Rec R)) (hr : recs ≠ []) (r : Rec R) (g : Rec R → List (ℕ → R)) :
    mix (n * recs.length) n (pooled (recs.flatMap g) (n * recs.length)) (batchCov (g r) n) = pooled ((recs ++ [r]).flatMap g) (n * (recs ++ [r]).length) := by
  have hp : 0 < n * recs.length := Nat.mul_pos hn (List.length_pos_iff.2 hr)
  rcases mix_pooled (recs.flatMap g) (g r) (n * recs.length) n hn with h | ⟨h, _⟩
  · rw [h, List.flatMap_append, List.length_append, List.length_singleton, Nat.mul_add, Nat.mul_one]
    simp
  · omega

/-! ## Statistics -/

theorem covPass_full [Field R] [CharZero R] (n : ℕ) (hn : 0 < n) (cache : Cache R) (hc : (PyDict.keys cache).Nodup) (hgc : ∀ e ∈ cache, Good n e.2)
    (bs : List (Batch R)) (hne : bs ≠ []) (hb : ∀ b ∈ bs, b.size = n ∧ ∀ e ∈ b.fwd, Good n e.2) :
    ∃ est cache' t, covPass cache bs = .ok (est, cache', t) ∧ (PyDict.keys cache').Nodup ∧ (∀ e ∈ cache', Good n e.2) ∧ ∀ nm,
      let init := PyDict.get? cache nm
      let runs := bs.map (lastOf nm)
      let recs := (List.range bs.length).filterMap (standIn init runs)
      PyDict.get? cache' nm = latest init runs ∧
      (init = none → (∀ r ∈ runs, r = none) → est nm = none) ∧
      (init ≠ none ∨ (∃ r ∈ runs, r ≠ none) → recs.length = bs.length ∧
        est nm = some (pooled (recs.flatMap Rec.a) (n * bs.length), pooled (recs.flatMap grads) (n * bs.length))) := by
  obtain ⟨est, cache', e1, e2, e3, e4⟩ := pass n covOne
    (fun total nm cur r => covNew total n cur r.a (grads r)) (fun _ => True)
    (fun nm recs => (pooled (recs.flatMap Rec.a) (n * recs.length), pooled (recs.flatMap grads) (n * recs.length)))
    (fun total est e hg _ => by
      obtain ⟨ha, ds, hds, -⟩ := hg
      unfold covOne maskRows grads
      rw [if_pos (Or.inl ha), hds]
      rfl)
    (fun T nm r hg => by
      simp only [covNew]
      rw [cov_rep n hn T r Rec.a, cov_rep n hn T r grads])
    (fun nm r recs hr hgs hg => by
      simp only [covNew]
      rw [cov_app n hn recs hr r Rec.a, cov_app n hn recs hr r grads])
    cache hc (fun e he => ⟨hgc e he, trivial⟩) bs (fun b hb' => ⟨(hb b hb').1, fun e he => ⟨(hb b hb').2 e he, trivial⟩⟩)
  refine ⟨est, cache', _, e1, e2, fun e he => (e3 e he).1, fun nm => ?_⟩
  obtain ⟨h1, h2⟩ := e4 nm
  refine ⟨h1, fun hi hr => ?_, fun h => ?_⟩
  · rw [h2, if_pos (Or.inr ((latest_none _ _).2 ⟨hi, hr⟩))]
  · have hl : latest (PyDict.get? cache nm) (bs.map (lastOf nm)) ≠ none := by
      intro h0
      rw [latest_none] at h0
      rcases h with h | ⟨r, hr, hrn⟩
      · exact h h0.1
      · exact hrn (h0.2 r hr)
    have hlen : ((List.range bs.length).filterMap (standIn (PyDict.get? cache nm) (bs.map (lastOf nm)))).length = bs.length := by
      rw [List.length_filterMap_eq_countP, List.countP_eq_length.2, List.length_range]
      intro t _
      obtain ⟨y, hy⟩ := standIn_some _ _ hl t
      rw [hy]
      rfl
    refine ⟨hlen, ?_⟩
    rw [h2, if_neg (by simp only [not_or]; exact ⟨hne, hl⟩), hlen]

/-- **C216.** Batches of equal size.  The covariances of a module are the averages one gets if every batch in which the module did not run is replaced by the last
batch before in which it ran, or by what an earlier call of `cache()` left, or, failing both, by the first batch in which it runs.  A module that neither
ran nor was left gets none. -/
theorem C216_covariance [Field R] [CharZero R] (n : ℕ) (hn : 0 < n) (cache : Cache R) (hc : (PyDict.keys cache).Nodup) (hgc : ∀ e ∈ cache, Good n e.2)
    (bs : List (Batch R)) (hne : bs ≠ []) (hb : ∀ b ∈ bs, b.size = n ∧ ∀ e ∈ b.fwd, Good n e.2) :
    ∃ est cache' t, covPass cache bs = .ok (est, cache', t) ∧ ∀ nm,
      let init := PyDict.get? cache nm
      let runs := bs.map (lastOf nm)
      let recs := (List.range bs.length).filterMap (standIn init runs)
      PyDict.get? cache' nm = latest init runs ∧
      (init = none → (∀ r ∈ runs, r = none) → est nm = none) ∧
      (init ≠ none ∨ (∃ r ∈ runs, r ≠ none) → recs.length = bs.length ∧
        est nm = some (pooled (recs.flatMap Rec.a) (n * bs.length), pooled (recs.flatMap grads) (n * bs.length))) := by
  obtain ⟨est, cache', t, h1, -, -, h2⟩ := covPass_full n hn cache hc hgc bs hne hb
  exact ⟨est, cache', t, h1, h2⟩

theorem lam_flat [Field R] (recs : List (Rec R)) (v : (ℕ → R) × (ℕ → R) → R) :
    ((recs.flatMap fun r => r.a.zip (grads r)).map v).sum = (recs.map fun r => ((r.a.zip (grads r)).map v).sum).sum := by
  induction recs with
  | nil => rfl
  | cons r l ih => rw [List.flatMap_cons, List.map_append, List.sum_append, ih, List.map_cons, List.sum_cons]

/-- **C216.** The second pass starts from the dictionary that the first left, so for the eigenvalues a batch in which a module did not run is replaced by the last
batch before in which it ran, at the beginning by the last batch of the first pass. -/
theorem C216_lambda [Field R] [CharZero R] (sq : String → Option ((ℕ → R) → (ℕ → R) → Cov R)) (n : ℕ) (hn : 0 < n) (cache : Cache R)
    (hc : (PyDict.keys cache).Nodup) (hgc : ∀ e ∈ cache, Good n e.2 ∧ sq e.1 ≠ none) (bs : List (Batch R)) (hne : bs ≠ [])
    (hb : ∀ b ∈ bs, b.size = n ∧ ∀ e ∈ b.fwd, Good n e.2 ∧ sq e.1 ≠ none) :
    ∃ est cache' t, lamPass sq cache bs = .ok (est, cache', t) ∧ ∀ nm f, sq nm = some f →
      let init := PyDict.get? cache nm
      let runs := bs.map (lastOf nm)
      let recs := (List.range bs.length).filterMap (standIn init runs)
      PyDict.get? cache' nm = latest init runs ∧
      (init = none → (∀ r ∈ runs, r = none) → est nm = none) ∧
      (init ≠ none ∨ (∃ r ∈ runs, r ≠ none) → recs.length = bs.length ∧
        ∃ lam, est nm = some lam ∧ ∀ i j, lam i j = ((recs.flatMap fun r => r.a.zip (grads r)).map fun x => f x.1 x.2 i j).sum / ((n * bs.length : ℕ) : R)) := by
  obtain ⟨est, cache', e1, -, -, e4⟩ := pass n (lamOne sq)
    (fun total nm cur r => lamNew total n cur fun i j => ((r.a.zip (grads r)).map fun x => (sq nm).elim (0 : R) fun f => f x.1 x.2 i j).sum / (n : R)) (fun nm => sq nm ≠ none)
    (fun nm recs => fun i j =>
      ((recs.map fun r => ((r.a.zip (grads r)).map fun x => (sq nm).elim (0 : R) fun f => f x.1 x.2 i j).sum).sum) / ((n : R) * (recs.length : R)))
    (fun total est e hg hs => by
      obtain ⟨ha, ds, hds, hdl⟩ := hg
      obtain ⟨f, hf⟩ := Option.ne_none_iff_exists'.1 hs
      unfold lamOne maskRows pairRows grads
      rw [hds]
      simp only [bind, Except.bind]
      rw [if_pos (Or.inl ha)]
      simp only
      rw [if_pos (by rw [hdl, ha])]
      simp only [hf, Option.elim_some, Option.getD_some, List.length_zip, ha, hdl, min_self]
      rfl)
    (fun T nm r hg => by
      simp only [lamNew]
      funext i j
      rw [List.map_replicate, List.length_replicate, mean_replicate n hn])
    (fun nm r recs hr hgs hg => by
      simp only [lamNew]
      funext i j
      have := mean_append n hn (recs.map fun r => ((r.a.zip (grads r)).map fun x => (sq nm).elim (0 : R) fun f => f x.1 x.2 i j).sum) (by simpa using hr)
        (((r.a.zip (grads r)).map fun x => (sq nm).elim (0 : R) fun f => f x.1 x.2 i j).sum)
      rw [List.length_map] at this
      unfold mix
      rw [this, List.map_append, List.length_append, List.length_append, List.length_map]
      rfl)
    cache hc hgc bs hb
  refine ⟨est, cache', _, e1, fun nm f hf => ?_⟩
  obtain ⟨h1, h2⟩ := e4 nm
  refine ⟨h1, fun hi hr => ?_, fun h => ?_⟩
  · rw [h2, if_pos (Or.inr ((latest_none _ _).2 ⟨hi, hr⟩))]
  · have hl : latest (PyDict.get? cache nm) (bs.map (lastOf nm)) ≠ none := by
      intro h0
      rw [latest_none] at h0
      rcases h with h | ⟨r, hr, hrn⟩
      · exact h h0.1
      · exact hrn (h0.2 r hr)
    have hlen : ((List.range bs.length).filterMap (standIn (PyDict.get? cache nm) (bs.map (lastOf nm)))).length = bs.length := by
      rw [List.length_filterMap_eq_countP, List.countP_eq_length.2, List.length_range]
      intro t _
      obtain ⟨y, hy⟩ := standIn_some _ _ hl t
      rw [hy]
      rfl
    refine ⟨hlen, _, by rw [h2, if_neg (by simp only [not_or]; exact ⟨hne, hl⟩)], fun i j => ?_⟩
    rw [hlen, lam_flat, hf]
    push_cast
    rfl

/-- **C216.** A whole call of `cache()`: if every module of the second pass was run in the first (or left by an earlier call) and the eigenvectors are computed from the
covariances, the call succeeds; the eigenvalues of a module see, before its first run in the second pass, its last run of the first pass. -/
theorem C216_call [Field R] [CharZero R] (eig : Dict (Cov R × Cov R) → String → Option ((ℕ → R) → (ℕ → R) → Cov R))
    (heig : ∀ d nm, d nm ≠ none → eig d nm ≠ none) (n : ℕ) (hn : 0 < n) (cache : Cache R) (hc : (PyDict.keys cache).Nodup) (hgc : ∀ e ∈ cache, Good n e.2)
    (bs bs2 : List (Batch R)) (hne : bs ≠ []) (hne2 : bs2 ≠ []) (hb : ∀ b ∈ bs, b.size = n ∧ ∀ e ∈ b.fwd, Good n e.2)
    (hb2 : ∀ b ∈ bs2, b.size = n ∧ ∀ e ∈ b.fwd, Good n e.2 ∧ latest (PyDict.get? cache e.1) (bs.map (lastOf e.1)) ≠ none) :
    ∃ cov lam cache', cacheStats eig cache bs bs2 = .ok (cov, lam, cache') ∧ ∀ nm r, latest (PyDict.get? cache nm) (bs.map (lastOf nm)) = some r →
      ∃ f l, eig cov nm = some f ∧ lam nm = some l ∧ ∀ i j, l i j =
        ((((List.range bs2.length).filterMap (standIn (some r) (bs2.map (lastOf nm)))).flatMap fun r => r.a.zip (grads r)).map fun x => f x.1 x.2 i j).sum /
          ((n * bs2.length : ℕ) : R) := by
  obtain ⟨est, cache1, t, h1, h2, h3, h4⟩ := covPass_full n hn cache hc hgc bs hne hb
  have hsome : ∀ nm, latest (PyDict.get? cache nm) (bs.map (lastOf nm)) ≠ none → est nm ≠ none := by
    intro nm hl
    obtain ⟨-, -, h5⟩ := h4 nm
    have : PyDict.get? cache nm ≠ none ∨ ∃ r ∈ bs.map (lastOf nm), r ≠ none := by
      by_contra hcon
      push Not at hcon
      exact hl ((latest_none _ _).2 hcon)
    rw [(h5 this).2]
    simp
  have hk : ∀ e ∈ cache1, Good n e.2 ∧ eig est e.1 ≠ none := by
    intro e he
    refine ⟨h3 e he, heig est e.1 (hsome e.1 ?_)⟩
    rw [← (h4 e.1).1, PyDict.get?_of_mem h2 he]
    simp
  obtain ⟨lam, cache', t', g1, g2⟩ := C216_lambda (eig est) n hn cache1 h2 hk bs2 hne2
    fun b hb' => ⟨(hb2 b hb').1, fun e he => ⟨((hb2 b hb').2 e he).1, heig est e.1 (hsome e.1 ((hb2 b hb').2 e he).2)⟩⟩
  refine ⟨est, lam, cache', ?_, fun nm r hr => ?_⟩
  · unfold cacheStats
    rw [h1]
    simp only [bind, Except.bind]
    rw [g1]
    rfl
  · obtain ⟨f, hf⟩ := Option.ne_none_iff_exists'.1 (heig est nm (hsome nm (by rw [hr]; simp)))
    obtain ⟨-, -, g3⟩ := g2 nm f hf
    have hi : PyDict.get? cache1 nm = some r := by rw [(h4 nm).1, hr]
    obtain ⟨-, l, hl, hlam⟩ := g3 (Or.inl (by rw [hi]; simp))
    rw [hi] at hlam
    exact ⟨f, l, hf, hl, hlam⟩

/-- **C216.** Modules that run in every batch: what an earlier call left has no effect, and the covariances are the averages over all samples. -/
theorem C216_every_batch [Field R] [CharZero R] (n : ℕ) (hn : 0 < n) (cache : Cache R) (hc : (PyDict.keys cache).Nodup) (hgc : ∀ e ∈ cache, Good n e.2)
    (bs : List (Batch R)) (hne : bs ≠ []) (hb : ∀ b ∈ bs, b.size = n ∧ ∀ e ∈ b.fwd, Good n e.2) (nm : String) (rec : Batch R → Rec R)
    (hr : ∀ b ∈ bs, lastOf nm b = some (rec b)) :
    ∃ est cache' t, covPass cache bs = .ok (est, cache', t) ∧
      est nm = some (pooled (bs.flatMap fun b => (rec b).a) (n * bs.length), pooled (bs.flatMap fun b => grads (rec b)) (n * bs.length)) := by
  obtain ⟨est, cache', t, h1, h2⟩ := C216_covariance n hn cache hc hgc bs hne hb
  refine ⟨est, cache', t, h1, ?_⟩
  obtain ⟨-, -, h3⟩ := h2 nm
  obtain ⟨b0, hb0⟩ := List.exists_mem_of_ne_nil bs hne
  obtain ⟨-, h4⟩ := h3 (Or.inr ⟨some (rec b0), List.mem_map.2 ⟨b0, hb0, hr b0 hb0⟩, by simp⟩)
  have hrecs : (List.range bs.length).filterMap (standIn (PyDict.get? cache nm) (bs.map (lastOf nm))) = bs.map rec := by
    have hs : ∀ t ∈ List.range bs.length, standIn (PyDict.get? cache nm) (bs.map (lastOf nm)) t = (bs.map rec)[t]? := by
      intro t ht
      rw [List.mem_range] at ht
      have htake : (bs.map (lastOf nm)).take (t + 1) = (bs.map (lastOf nm)).take t ++ [some (rec bs[t])] := by
        rw [List.take_add_one, List.getElem?_map, List.getElem?_eq_getElem ht, Option.map_some, hr _ (List.getElem_mem ht)]
        rfl
      unfold standIn
      rw [htake, latest_append, List.getElem?_map, List.getElem?_eq_getElem ht]
      rfl
    rw [List.filterMap_congr hs]
    have : ∀ l : List (Rec R), (List.range l.length).filterMap (fun t => l[t]?) = l := by
      intro l
      induction l using List.reverseRecOn with
      | nil => rfl
      | append_singleton l x ih =>
        rw [List.length_append, List.length_singleton, List.range_succ, List.filterMap_append]
        congr 1
        · rw [← ih]
          rw [ih]
          conv_rhs => rw [← ih]
          refine List.filterMap_congr fun t ht => ?_
          rw [List.getElem?_append_left (by simpa using ht)]
        · simp
    have h6 := this (bs.map rec)
    rw [List.length_map] at h6
    exact h6
  rw [h4, hrecs]
  simp [List.flatMap_map]

/-- **C216.** A module left out by the last of three batches: the second counts twice.  The average over the samples that went through the module is another. -/
theorem C216_counted_twice : ∃ est cache' t, covPass (R := ℚ) []
    [⟨1, [("fc", ⟨[fun _ => 1], some [fun _ => 0]⟩)]⟩, ⟨1, [("fc", ⟨[fun _ => 2], some [fun _ => 0]⟩)]⟩, ⟨1, []⟩] = .ok (est, cache', t) ∧
    (est "fc").map (fun c => c.1 0 0) = some 3 ∧ ((1 : ℚ) + 4) / 2 ≠ 3 := by
  refine ⟨_, _, _, rfl, ?_, by norm_num⟩
  decide +kernel

/-- The hypotheses of `C216_covariance` and `C216_call` for these batches, the second pass in another order. -/
example : ∃ cov lam cache', cacheStats (R := ℚ) (fun d nm => (d nm).map fun _ => fun a ds i j => (ds i * a j) ^ 2) []
    [⟨1, [("fc", ⟨[fun _ => 1], some [fun _ => 3]⟩)]⟩, ⟨1, [("fc", ⟨[fun _ => 2], some [fun _ => 4]⟩)]⟩, ⟨1, []⟩]
    [⟨1, []⟩, ⟨1, [("fc", ⟨[fun _ => 1], some [fun _ => 3]⟩)]⟩] = .ok (cov, lam, cache') ∧ (lam "fc").map (fun l => l 0 0) = some (73 / 2) := by
  have hg : ∀ x y : ℚ, Good 1 (⟨[fun _ => x], some [fun _ => y]⟩ : Rec ℚ) := fun x y => ⟨rfl, _, rfl, rfl⟩
  obtain ⟨cov, lam, c, h1, h2⟩ := C216_call (R := ℚ) (fun d nm => (d nm).map fun _ => fun a ds i j => (ds i * a j) ^ 2) (by simp) 1 (by norm_num) [] (by simp [PyDict.keys]) (by simp)
    [⟨1, [("fc", ⟨[fun _ => 1], some [fun _ => 3]⟩)]⟩, ⟨1, [("fc", ⟨[fun _ => 2], some [fun _ => 4]⟩)]⟩, ⟨1, []⟩]
    [⟨1, []⟩, ⟨1, [("fc", ⟨[fun _ => 1], some [fun _ => 3]⟩)]⟩] (by simp) (by simp) (by simp [hg]) (by simp [hg, latest, lastOf])
  refine ⟨cov, lam, c, h1, ?_⟩
  obtain ⟨f, l, hf, hl, hv⟩ := h2 "fc" _ rfl
  rw [hl, Option.map_some, hv 0 0]
  obtain ⟨_, _, rfl⟩ := Option.map_eq_some_iff.1 hf
  decide +kernel

/-- **C216.** A batch of another size: if a module left out by it was last run with a batch of another size, and neither size is 1, the estimation raises. -/
theorem C216_sizes [Field R] (est : Dict (Cov R × Cov R)) (cache : Cache R) (t : ℕ) (b : Batch R) (nm : String) (r : Rec R) (hs : lastOf nm b = none)
    (hr : PyDict.get? cache nm = some r) (h1 : r.a.length ≠ b.size) (h2 : b.size ≠ 1) (h3 : r.a.length ≠ 1)
    (hds : ∀ e ∈ fill cache b.fwd, e.2.ds ≠ none) : covBatch (est, cache, t) b = .error .runtimeError := by
  have hmem : (nm, r) ∈ fill cache b.fwd := by
    apply PyDict.mem_of_get?
    rw [get_fill, hs, hr]
    rfl
  have key : ∀ (l : Cache R) (d : Dict (Cov R × Cov R)), (∀ e ∈ l, e.2.ds ≠ none) → (nm, r) ∈ l → l.foldlM (covOne t b.size) d = .error .runtimeError := by
    intro l
    induction l with
    | nil => intro d _ h; cases h
    | cons e l ih =>
      intro d hd hm
      rw [List.foldlM_cons]
      by_cases hbad : e.2.a.length = b.size ∨ b.size = 1 ∨ e.2.a.length = 1
      · have hne : e ≠ (nm, r) := by
          rintro rfl
          rcases hbad with h | h | h
          · exact h1 h
          · exact h2 h
          · exact h3 h
        have hm' : (nm, r) ∈ l := by
          rcases List.mem_cons.1 hm with h | h
          · exact absurd h.symm hne
          · exact h
        obtain ⟨ds, hds'⟩ := Option.ne_none_iff_exists'.1 (hd e (by simp))
        have : ∃ d', covOne t b.size d e = .ok d' := by
          unfold covOne
          have hmr : ∃ a, maskRows e.2.a b.size = .ok a := by
            unfold maskRows
            by_cases h : e.2.a.length = b.size ∨ b.size = 1
            · exact ⟨_, if_pos h⟩
            · rw [if_neg h]
              have : e.2.a.length = 1 := by
                rcases hbad with h' | h' | h'
                · exact absurd (Or.inl h') h
                · exact absurd (Or.inr h') h
                · exact h'
              exact ⟨_, if_pos this⟩
          obtain ⟨a, ha⟩ := hmr
          rw [ha, hds']
          exact ⟨_, rfl⟩
        obtain ⟨d', hd'⟩ := this
        rw [hd']
        exact ih d' (fun x hx => hd x (by simp [hx])) hm'
      · have : covOne t b.size d e = .error .runtimeError := by
          unfold covOne maskRows
          rw [if_neg fun h => hbad (by tauto), if_neg fun h => hbad (by tauto)]
          rfl
        rw [this]
        rfl
  unfold covBatch
  simp only
  rw [key _ est hds hmem]
  rfl

example : ∃ r : Rec ℚ, covBatch (R := ℚ) ((fun _ => none), [("fc", r)], 2) ⟨3, []⟩ = .error .runtimeError :=
  ⟨⟨[fun _ => 1, fun _ => 2], some []⟩, C216_sizes _ _ _ _ "fc" _ rfl rfl (by decide) (by decide) (by decide) (by simp [fill])⟩

/-- **C216.** A module first run in the second pass has no eigenvectors: `KeyError`. -/
theorem C216_second_pass [Field R] (sq : String → Option ((ℕ → R) → (ℕ → R) → Cov R)) (est : Dict (Cov R)) (t n : ℕ) (nm : String) (r : Rec R) (hg : Good n r)
    (hs : sq nm = none) : lamOne sq t n est (nm, r) = .error .keyError := by
  obtain ⟨ha, ds, hds, hdl⟩ := hg
  unfold lamOne maskRows pairRows
  rw [hds]
  simp only [bind, Except.bind]
  rw [if_pos (Or.inl ha)]
  simp only
  rw [if_pos (by rw [hdl, ha])]
  simp only [hs]

/-- **C216.** A selected module whose output takes no part in the loss: as soon as it has run, the estimation raises `AttributeError` (its output has no gradient); with
gradients for all modules, and batches of one size, it does not raise. -/
theorem C216_no_gradient [Field R] (est : Dict (Cov R × Cov R)) (cache : Cache R) (t : ℕ) (b : Batch R) (hs : ∀ e ∈ fill cache b.fwd, e.2.a.length = b.size) :
    ((∃ e ∈ fill cache b.fwd, e.2.ds = none) → covBatch (est, cache, t) b = .error .attributeError) ∧
    ((∀ e ∈ fill cache b.fwd, e.2.ds ≠ none) → ∃ r, covBatch (est, cache, t) b = .ok r) := by
  have key : ∀ (l : Cache R) (d : Dict (Cov R × Cov R)), (∀ e ∈ l, e.2.a.length = b.size) →
      ((∃ e ∈ l, e.2.ds = none) → l.foldlM (covOne t b.size) d = .error .attributeError) ∧
      ((∀ e ∈ l, e.2.ds ≠ none) → ∃ r, l.foldlM (covOne t b.size) d = .ok r) := by
    intro l
    induction l with
    | nil => intro d _; exact ⟨fun h => by obtain ⟨e, h, -⟩ := h; simp at h, fun _ => ⟨d, rfl⟩⟩
    | cons e l ih =>
      intro d hl
      have hm : maskRows e.2.a b.size = .ok e.2.a := if_pos (Or.inl (hl e (by simp)))
      rw [List.foldlM_cons]
      cases hd : e.2.ds with
      | none =>
        have h1 : covOne t b.size d e = .error .attributeError := by
          unfold covOne
          rw [hm, hd]
          rfl
        rw [h1]
        exact ⟨fun _ => rfl, fun h => absurd hd (h e (by simp))⟩
      | some ds =>
        obtain ⟨d', h1⟩ : ∃ d', covOne t b.size d e = .ok d' := by
          unfold covOne
          rw [hm, hd]
          exact ⟨_, rfl⟩
        rw [h1]
        obtain ⟨i1, i2⟩ := ih d' fun x hx => hl x (by simp [hx])
        refine ⟨fun ⟨x, hx, hn⟩ => i1 ⟨x, ?_, hn⟩, fun h => i2 fun x hx => h x (by simp [hx])⟩
        rcases List.mem_cons.1 hx with rfl | hx
        · rw [hd] at hn
          simp at hn
        · exact hx
  obtain ⟨k1, k2⟩ := key (fill cache b.fwd) est hs
  unfold covBatch
  simp only
  refine ⟨fun h => ?_, fun h => ?_⟩
  · rw [k1 h]
    rfl
  · obtain ⟨r, hr⟩ := k2 h
    rw [hr]
    exact ⟨_, rfl⟩

example : covBatch (R := ℚ) ((fun _ => none), [], 0) ⟨1, [("fc", ⟨[fun _ => 1], none⟩)]⟩ = .error .attributeError :=
  (C216_no_gradient _ _ _ _ (by simp [fill, PyDict.set])).1 ⟨("fc", ⟨[fun _ => 1], none⟩), by simp [fill, PyDict.set], rfl⟩

/-- **C216.** A last batch with one sample that a module does not see, while the dictionary still holds its record of a batch of `k` samples: the covariances add the
sum over the `k` samples and count one sample, the eigenvalues add the same `k` samples and count `k`. -/
theorem C216_single_sample [Field R] [CharZero R] (sq : String → Option ((ℕ → R) → (ℕ → R) → Cov R)) (f : (ℕ → R) → (ℕ → R) → Cov R) (t : ℕ) (nm : String)
    (hf : sq nm = some f) (a ds : List (ℕ → R)) (hl : ds.length = a.length) (ha : a ≠ []) (est : Dict (Cov R × Cov R)) (old : Cov R × Cov R)
    (he : est nm = some old) (est' : Dict (Cov R)) (old' : Cov R) (he' : est' nm = some old') :
    (∃ r c, covOne t 1 est (nm, ⟨a, some ds⟩) = .ok r ∧ r nm = some c ∧
      ∀ i j, c.1 i j = ((t : R) * old.1 i j + (a.map fun x => x i * x j).sum) / ((t : R) + 1)) ∧
    (∃ r c, lamOne sq t 1 est' (nm, ⟨a, some ds⟩) = .ok r ∧ r nm = some c ∧
      ∀ i j, c i j = ((t : R) * old' i j + ((a.zip ds).map fun x => f x.1 x.2 i j).sum) / ((t : R) + (a.length : R))) := by
  have hk : (a.length : R) ≠ 0 := by
    rw [Nat.cast_ne_zero]
    exact fun h => ha (List.length_eq_zero_iff.1 h)
  constructor
  · refine ⟨fun k => if k = nm then some (covNew t 1 (est nm) a ds) else est k, covNew t 1 (est nm) a ds, ?_, if_pos rfl, fun i j => ?_⟩
    · unfold covOne maskRows
      rw [if_pos (Or.inr rfl)]
      rfl
    · rw [he]
      simp only [covNew, mix, batchCov, Nat.cast_one, div_one]
      ring
  · refine ⟨fun k => if k = nm then some (lamNew t a.length (est' nm) fun i j => ((a.zip ds).map fun x => f x.1 x.2 i j).sum / ((a.zip ds).length : R)) else est' k,
      lamNew t a.length (est' nm) fun i j => ((a.zip ds).map fun x => f x.1 x.2 i j).sum / ((a.zip ds).length : R), ?_, if_pos rfl, fun i j => ?_⟩
    · unfold lamOne maskRows pairRows
      simp only [or_true, if_true, bind, Except.bind, hl, hf]
      rfl
    · rw [he']
      have hz : ((a.zip ds).length : R) = (a.length : R) := by rw [List.length_zip, hl, Nat.min_self]
      simp only [lamNew, mix, hz]
      field_simp

/-- Two samples seen before, then a batch of one that the module does not see. -/
example : (∃ r c, covOne (R := ℚ) 2 1 (fun _ => some (fun _ _ => 5 / 2, fun _ _ => 1)) ("fc", ⟨[fun _ => 1, fun _ => 2], some [fun _ => 1, fun _ => 1]⟩) = .ok r ∧
    r "fc" = some c ∧ c.1 0 0 = 10 / 3) := by
  obtain ⟨⟨r, c, h1, h2, h3⟩, -⟩ := C216_single_sample (R := ℚ) (fun _ => some fun _ _ _ _ => 0) _ 2 "fc" rfl [fun _ => 1, fun _ => 2] [fun _ => 1, fun _ => 1] rfl
    (by simp) (fun _ => some (fun _ _ => 5 / 2, fun _ _ => 1)) _ rfl (fun _ => some fun _ _ => 0) _ rfl
  refine ⟨r, c, h1, h2, ?_⟩
  rw [h3]
  norm_num

end Verif.EkCache
