import Verif.BlockIF.SelfModel
import Verif.BlockIF.IFProps

/-!
# Block-projected influence functions: self-influence (C93)
-/

namespace Verif.BlockIF

open Verif

variable {K : Type} [Field K] {L : ℕ} {d : Fin L → ℕ}

theorem sortedItems_holds {R : Type} {c : List (ℕ × List R)} {bl : List (List R)} (h : Holds c bl) :
    sortedItems c = bl.zipIdx.map fun p => (p.2, p.1) := by
  have hz : (PyDict.keys (bl.zipIdx.map fun p => (p.2, p.1))) = List.range bl.length := by
    unfold PyDict.keys
    rw [List.map_map]
    have : (Prod.fst ∘ fun p : List R × ℕ => (p.2, p.1)) = Prod.snd := rfl
    rw [this, List.zipIdx_map_snd, List.range_eq_range']
  have hk : (PyDict.keys c).Perm (List.range bl.length) := by
    refine (List.perm_ext_iff_of_nodup h.nodup List.nodup_range).2 fun k => ?_
    rw [← PyDict.get?_isSome, h.get k, List.mem_range]
    simp
  have hs : (PyDict.keys c).mergeSort (fun a b => decide (a ≤ b)) = List.range bl.length := by
    have h1 : (sorted (PyDict.keys c)).Perm (List.range bl.length) := (sorted_perm _).trans hk
    exact h1.eq_of_pairwise (fun a b _ _ h1 h2 => absurd h1 (lt_asymm h2)) (sorted_lt h.nodup)
      List.pairwise_lt_range
  unfold sortedItems
  rw [hs]
  apply List.ext_getElem?
  intro k
  rw [List.getElem?_map]
  have h2 : ∀ n (l : List ℕ), l = List.range n → n ≤ bl.length →
      (l.filterMap fun k => (PyDict.get? c k).map fun v => (k, v)) =
      (bl.take n).zipIdx.map fun p => (p.2, p.1) := by
    intro n
    induction n with
    | zero => intro l hl _; rw [hl]; rfl
    | succ n ih =>
      intro l hl hn
      have hn' : n < bl.length := by omega
      rw [hl, List.range_succ, List.filterMap_append, ih _ rfl (by omega), List.take_add_one,
        List.getElem?_eq_getElem hn', List.zipIdx_append, List.map_append]
      simp [h.get n, List.getElem?_eq_getElem hn', List.length_take, Nat.min_eq_left hn'.le]
  rw [h2 _ _ rfl le_rfl, List.take_length, List.getElem?_map]

theorem get?_map {κ α β : Type} [DecidableEq κ] (f : α → β) (m : List (κ × α)) (k : κ) :
    PyDict.get? (m.map fun e => (e.1, f e.2)) k = (PyDict.get? m k).map f := by
  induction m with
  | nil => rfl
  | cons p m ih =>
    obtain ⟨a, b⟩ := p
    simp only [List.map_cons, PyDict.get?]
    split_ifs
    · rfl
    · exact ih

theorem collate_get {R : Type} (items : List (ℕ × List R)) (k : ℕ) :
    (PyDict.get? (collate items).2 k).map (fun e => rowsOf (collate items).1 e.1 e.2) =
      PyDict.get? items k := by
  rw [← get?_map]
  conv_rhs => rw [← collate_rows items]

theorem foldlM_ok {α β ε : Type} {F : α → β → Except ε α} {G : α → β → α} (l : List β) (a : α)
    (h : ∀ a, ∀ b ∈ l, F a b = .ok (G a b)) : l.foldlM F a = .ok (l.foldl G a) := by
  induction l generalizing a with
  | nil => rfl
  | cons b l ih =>
    rw [List.foldlM_cons, h a b (by simp)]
    exact ih _ fun a b hb => h a b (List.mem_cons_of_mem _ hb)

/-- Writing the values of `v` into the range of batch `k`. -/
def putBatch {R : Type} (bl : List (List R)) (v : ℕ → K) (S : ℕ → K) (p : ℕ × List R) : ℕ → K :=
  fun i => if (bl.take p.1).flatten.length ≤ i ∧ i < (bl.take p.1).flatten.length + p.2.length
    then v i else S i

omit [Field K] in
theorem putBatch_fold {R : Type} (bl : List (List R)) (v : ℕ → K) (items : List (ℕ × List R))
    (S : ℕ → K) (i : ℕ) :
    ((∃ p ∈ items, (bl.take p.1).flatten.length ≤ i ∧
        i < (bl.take p.1).flatten.length + p.2.length) →
      items.foldl (putBatch bl v) S i = v i) ∧
    ((¬ ∃ p ∈ items, (bl.take p.1).flatten.length ≤ i ∧
        i < (bl.take p.1).flatten.length + p.2.length) →
      items.foldl (putBatch bl v) S i = S i) := by
  induction items using List.reverseRecOn with
  | nil => simp
  | append_singleton items p ih =>
    rw [List.foldl_append]
    simp only [List.foldl_cons, List.foldl_nil]
    by_cases hp : (bl.take p.1).flatten.length ≤ i ∧
        i < (bl.take p.1).flatten.length + p.2.length
    · constructor
      · intro _
        unfold putBatch
        rw [if_pos hp]
      · intro h
        exact absurd ⟨p, by simp, hp⟩ h
    · have e : putBatch bl v (items.foldl (putBatch bl v) S) p i =
          items.foldl (putBatch bl v) S i := by
        unfold putBatch
        rw [if_neg hp]
      rw [e]
      constructor
      · rintro ⟨q, hq, h⟩
        rw [List.mem_append, List.mem_singleton] at hq
        rcases hq with hq | rfl
        · exact ih.1 ⟨q, hq, h⟩
        · exact absurd h hp
      · intro h
        exact ih.2 fun ⟨q, hq, h'⟩ => h ⟨q, by simp [hq], h'⟩

theorem flatten_at {R : Type} (w : List (List R)) (k o : ℕ) (b : List R) (r : R)
    (hk : w[k]? = some b) (ho : b[o]? = some r) :
    w.flatten[(w.take k).flatten.length + o]? = some r := by
  induction w generalizing k with
  | nil => simp at hk
  | cons b' w ih =>
    cases k with
    | zero =>
      simp at hk
      subst hk
      have := (List.getElem?_eq_some_iff.1 ho).1
      simp only [List.take_zero, List.flatten_nil, List.length_nil, Nat.zero_add, List.flatten_cons]
      rw [List.getElem?_append_left this, ho]
    | succ k =>
      simp at hk
      rw [List.take_succ_cons, List.flatten_cons, List.flatten_cons, List.length_append,
        List.getElem?_append_right (by omega), ← ih k hk]
      congr 1
      omega

theorem zipIdx_get {R : Type} (bl : List (List R)) (k : ℕ) :
    (bl.zipIdx.map fun p => (p.2, p.1))[k]? = bl[k]?.map fun b => (k, b) := by
  rw [List.getElem?_map, List.getElem?_zipIdx]
  rcases bl[k]? with _ | b <;> simp

/-- The loops on aligned storages. -/
theorem selfLoop_spec {bl w : List (List (Row K d))} (he : bl.map List.length = w.map List.length)
    {m : Meta} (hm : Layout bl m) {cg ci : List (ℕ × List (Row K d))} (hg : Holds cg bl)
    (hi : Holds ci w) :
    ∃ S, selfLoop m.mapping (chunks 4 cg) (chunks 4 ci) (fun _ => 0) = .ok S ∧
      ∀ i a b, bl.flatten[i]? = some a → w.flatten[i]? = some b → S i = dot a b := by
  have hlen : bl.length = w.length := by simpa using congrArg List.length he
  set v : ℕ → K := fun i => dot (bl.flatten.getD i 0) (w.flatten.getD i 0) with hv
  set IG := bl.zipIdx.map fun p => (p.2, p.1) with hIG
  set II := w.zipIdx.map fun p => (p.2, p.1) with hII
  have hcg : chunks 4 cg = (batches 4 IG).map collate := by
    unfold chunks; rw [sortedItems_holds hg]
  have hci : chunks 4 ci = (batches 4 II).map collate := by
    unfold chunks; rw [sortedItems_holds hi]
  have hlI : IG.length = II.length := by simp [hIG, hII, hlen]
  have hzip : (chunks 4 cg).zip (chunks 4 ci) =
      (List.range (numBatches 4 IG.length)).map fun q =>
        (collate (batchAt 4 IG q), collate (batchAt 4 II q)) := by
    rw [hcg, hci]
    unfold batches
    rw [hlI, List.map_map, List.map_map, List.zip_map', ]
    rfl
  have hsame : ∀ (k : ℕ) (b b' : List (Row K d)), bl[k]? = some b → w[k]? = some b' → b.length = b'.length := by
    intro k b b' h1 h2
    have h3 : (bl.map List.length)[k]? = some b.length := by rw [List.getElem?_map, h1]; rfl
    rw [he, List.getElem?_map, h2] at h3
    exact (Option.some.inj h3).symm
  have hpre : ∀ k, (bl.take k).flatten.length = (w.take k).flatten.length := by
    intro k
    rw [List.length_flatten, List.length_flatten, List.map_take, List.map_take, he]
  -- one batch
  have hstep : ∀ q, ∀ S : ℕ → K, ∀ e ∈ (collate (batchAt 4 IG q)).2,
      (match PyDict.get? m.mapping e.1, PyDict.get? (collate (batchAt 4 II q)).2 e.1 with
        | some r, some e' =>
          match rowDots (rowsOf (collate (batchAt 4 IG q)).1 e.2.1 e.2.2)
            (rowsOf (collate (batchAt 4 II q)).1 e'.1 e'.2) with
          | .ok v => assignVec S r.1 r.2 v
          | .error e => .error e
        | _, _ => .ok S) =
      .ok (putBatch bl v S (e.1, rowsOf (collate (batchAt 4 IG q)).1 e.2.1 e.2.2)) := by
    intro q S e hein
    have h1 : (e.1, rowsOf (collate (batchAt 4 IG q)).1 e.2.1 e.2.2) ∈ batchAt 4 IG q := by
      have : (e.1, rowsOf (collate (batchAt 4 IG q)).1 e.2.1 e.2.2) ∈
          (collate (batchAt 4 IG q)).2.map
            (fun e => (e.1, rowsOf (collate (batchAt 4 IG q)).1 e.2.1 e.2.2)) :=
        List.mem_map.2 ⟨e, hein, rfl⟩
      rwa [collate_rows] at this
    set rows := rowsOf (collate (batchAt 4 IG q)).1 e.2.1 e.2.2 with hrows
    obtain ⟨o, ho⟩ := List.mem_iff_getElem?.1 h1
    have ho4 : o < 4 ∧ IG[q * 4 + o]? = some (e.1, rows) := by
      unfold batchAt at ho
      rw [List.getElem?_take] at ho
      split_ifs at ho with h
      exact ⟨h, by rw [List.getElem?_drop] at ho; exact ho⟩
    have hk := ho4.2
    rw [hIG, zipIdx_get] at hk
    rcases hbk : bl[q * 4 + o]? with _ | b
    · rw [hbk] at hk; cases hk
    · rw [hbk] at hk
      simp only [Option.map_some, Option.some.injEq, Prod.mk.injEq] at hk
      obtain ⟨hk1, hk2⟩ := hk
      subst hk2
      have hkl : q * 4 + o < w.length := by
        rw [← hlen]; exact (List.getElem?_eq_some_iff.1 hbk).1
      have hwk := List.getElem?_eq_getElem hkl
      have hII' : II[q * 4 + o]? = some (q * 4 + o, w[q * 4 + o]) := by
        rw [hII, zipIdx_get, hwk]; rfl
      have hmemI : (q * 4 + o, w[q * 4 + o]) ∈ batchAt 4 II q := by
        apply List.mem_iff_getElem?.2
        refine ⟨o, ?_⟩
        unfold batchAt
        rw [List.getElem?_take, if_pos ho4.1, List.getElem?_drop, hII']
      have hnd : (PyDict.keys (batchAt 4 II q)).Nodup := by
        have h5 : (PyDict.keys II).Nodup := by
          unfold PyDict.keys
          rw [hII, List.map_map]
          have : (Prod.fst ∘ fun p : List (Row K d) × ℕ => (p.2, p.1)) = Prod.snd := rfl
          rw [this, List.zipIdx_map_snd]
          exact List.nodup_range'
        exact h5.sublist (((List.take_sublist _ _).trans (List.drop_sublist _ _)).map _)
      have hget := PyDict.get?_of_mem hnd hmemI
      have hcol := collate_get (batchAt 4 II q) e.1
      rw [← hk1, hget] at hcol
      have hmp := layout_mapping hm (q * 4 + o)
      rw [hbk] at hmp
      rw [← hk1, hmp]
      rcases hge : PyDict.get? (collate (batchAt 4 II q)).2 (q * 4 + o) with _ | e'
      · rw [hge] at hcol; cases hcol
      · rw [hge] at hcol
        simp only [Option.map_some, Option.some.injEq] at hcol
        simp only [Option.map_some, hcol]
        have hl := hsame _ _ _ hbk hwk
        unfold rowDots
        rw [if_pos hl]
        simp only
        unfold assignVec
        have hzl : (List.zipWith dot rows w[q * 4 + o]).length = rows.length := by
          rw [List.length_zipWith, ← hl, Nat.min_self]
        rw [hzl, if_pos (by unfold bcast; simp)]
        congr 1
        funext i
        unfold putBatch
        simp only
        by_cases hin : (bl.take (q * 4 + o)).flatten.length ≤ i ∧
            i < (bl.take (q * 4 + o)).flatten.length + rows.length
        · rw [if_pos (by omega), if_pos hin]
          obtain ⟨t, ht⟩ : ∃ t, i = (bl.take (q * 4 + o)).flatten.length + t :=
            ⟨i - (bl.take (q * 4 + o)).flatten.length, by omega⟩
          have ht' : t < rows.length := by omega
          have hidx : (if rows.length = 1 then 0
              else ((i : ℤ) - ((bl.take (q * 4 + o)).flatten.length : ℤ)).toNat) = t := by
            split_ifs <;> omega
          rw [hidx]
          have e1 := flatten_at bl _ t rows _ hbk (List.getElem?_eq_getElem ht')
          have e2 := flatten_at w _ t _ _ hwk (List.getElem?_eq_getElem (by omega))
          rw [← hpre] at e2
          rw [hv]
          simp only [ht]
          rw [List.getD_eq_getElem?_getD, List.getD_eq_getElem?_getD, List.getD_eq_getElem?_getD, e1,
            e2, List.getElem?_zipWith, List.getElem?_eq_getElem ht',
            List.getElem?_eq_getElem (by omega : t < w[q * 4 + o].length)]
          rfl
        · rw [if_neg (by omega), if_neg hin]
  have hloop : selfLoop m.mapping (chunks 4 cg) (chunks 4 ci) (fun _ => 0) =
      .ok (IG.foldl (putBatch bl v) fun _ => 0) := by
    unfold selfLoop
    rw [hzip, foldlM_map']
    rw [foldlM_ok (G := fun S q => (batchAt 4 IG q).foldl (putBatch bl v) S)]
    · congr 1
      have h6 := flatten_batches 4 (by decide) IG
      conv_rhs => rw [← h6, ← List.flatMap_id, foldl_flatMap']
      unfold batches
      rw [List.foldl_map]
      rfl
    · intro S q _
      refine (foldlM_ok _ _ (hstep q)).trans ?_
      congr 1
      exact collate_foldl (batchAt 4 IG q) (fun S k rows => putBatch bl v S (k, rows)) S
  refine ⟨_, hloop, ?_⟩
  intro i a b ha hb
  obtain ⟨k, rows, o, hk, ho, hio⟩ := flatten_locate _ _ _ ha
  rw [(putBatch_fold bl v IG _ i).1]
  · rw [hv]
    simp only
    rw [List.getD_eq_getElem?_getD, List.getD_eq_getElem?_getD, ha, hb]
    rfl
  · refine ⟨(k, rows), ?_, ?_⟩
    · apply List.mem_iff_getElem?.2
      exact ⟨k, by rw [hIG, zipIdx_get, hk]; rfl⟩
    · have := (List.getElem?_eq_some_iff.1 ho).1
      simp only
      omega

/-- Self-influence of a ready state. -/
theorem self_ready {bl w : List (List (Row K d))} {st : St K d} (hs : Stored bl st) (hr : Ready w st)
    (he : bl.map List.length = w.map List.length) (h : Hessian) :
    ∃ S, selfAttribution h st = (st, .ok (bl.flatten.length, S)) ∧
      ∀ i a b, bl.flatten[i]? = some a → w.flatten[i]? = some b → S i = ∑ l, ∑ k, a l k * b l k := by
  obtain ⟨S, h1, h2⟩ := selfLoop_spec he hs.layout hs.grads hr.ifvp
  refine ⟨S, ?_, h2⟩
  unfold selfAttribution
  simp only [sync_eq hr.layout hr.ne hr.known]
  rw [if_pos hr.ifvp_ne]
  simp only [h1]
  have : st.md.totalSamples.toNat = bl.flatten.length := by
    unfold Meta.totalSamples
    rw [hs.layout.total]
    rfl
  rw [this]
  rfl

section

variable [DecidableEq K]

/-- **C93 (Fisher).** After any history of successful calls, the self-influence of sample `i` is the
inner product of its gradient with its own preconditioned gradient, over the samples found in the
storage. -/
theorem C93_fisher {damping : Option K} {bl : List (List (Row K d))} {st : St K d}
    (h : Hist damping bl st) (hne : bl ≠ []) :
    ∃ S, (selfAttribution .efim st).2 = .ok (bl.flatten.length, S) ∧
      ∀ i a, bl.flatten[i]? = some a → S i = ∑ l, ∑ k,
        a l k * preconditioned .efim (damping.getD (1 / 100000)) bl.flatten a l k := by
  obtain ⟨h1, w, -, -, h4⟩ := hist_inv h
  obtain ⟨S, k1, k2⟩ := self_ready h1 (h4 hne) (by
    rw [List.map_map]
    apply List.map_congr_left
    intro b _
    simp) .efim
  refine ⟨S, by rw [k1], ?_⟩
  intro i a ha
  refine k2 i a _ ha ?_
  rw [← List.map_flatten, List.getElem?_map, ha]
  rfl

/-- **C93 (diagonal).** It is the diagonal of `attribute` with the training samples as test samples. -/
theorem C93_diagonal {damping : Option K} {bl : List (List (Row K d))} {st : St K d}
    (h : Hist damping bl st) (hne : bl ≠ []) (train test : Data K d)
    (htest : test.batches.flatten = bl.flatten) (ht : bl.flatten ≠ []) (hd : ∑ l, d l ≠ 0) :
    ∃ S M, (selfAttribution .efim st).2 = .ok (bl.flatten.length, S) ∧
      (attribute' .efim damping st train test).2 = .ok M ∧
      ∀ i, i < bl.flatten.length → S i = M.f i i := by
  obtain ⟨S, h1, h2⟩ := C93_fisher h hne
  obtain ⟨M, h3, h4⟩ := C91_merged h hne train test (by rw [htest]; exact ht) hd
  refine ⟨S, M, h1, h3, ?_⟩
  intro i hi
  have hi' := List.getElem?_eq_getElem hi
  rw [h2 i _ hi', h4.f i i (preconditioned .efim (damping.getD (1 / 100000)) bl.flatten bl.flatten[i])
    bl.flatten[i] (by rw [List.getElem?_map, hi']; rfl) (by rw [htest]; exact hi')]
  apply Finset.sum_congr rfl
  intro l _
  apply Finset.sum_congr rfl
  intro k _
  exact mul_comm _ _

/-- **C93 (identity, stale).** Under Identity, after `cache(A)`, one `attribute` and `cache(B)` with the
same batch sizes, self-influence mixes the two loaders: it is the inner product of the gradients of
`B`'s and `A`'s sample `i`. -/
theorem C93_stale {damping : Option K} {A B : Data K d} (hA : A.WF) (hne : A.batches ≠ [])
    (hB : B.WF) (hsz : B.batches.map List.length = A.batches.map List.length)
    (train0 test0 : Data K d) :
    let st1 := (cache .identity damping (St.new K d none) A).1
    let st2 := (attribute' .identity damping st1 train0 test0).1
    let st3 := (cache .identity damping st2 B).1
    ∃ S, (selfAttribution .identity st3).2 = .ok (B.batches.flatten.length, S) ∧
      ∀ i a b, A.batches.flatten[i]? = some a → B.batches.flatten[i]? = some b →
        S i = ∑ l, ∑ k, b l k * a l k := by
  intro st1 st2 st3
  obtain ⟨s1, h1, h2, h3, h4, h5, h6⟩ := stored_cache stored_new hA hne
    (fun hl => by rw [List.length_eq_zero_iff.1 hl])
  rw [List.drop_nil, List.append_nil] at h2
  obtain ⟨s2, g1, g2, g3⟩ := attr_copy h2 hne h5 h6 h4
  have e1 : st1 = s1 := by simp only [st1]; rw [cache_identity, h1]
  have e2 : st2 = s2 := by
    simp only [st2, e1]
    rw [attribute_cached h6, g3, attr_state g2]
  have hlen : B.batches.length = A.batches.length := by simpa using congrArg List.length hsz
  have hB0 : B.batches ≠ [] := by
    intro h
    rw [h] at hlen
    exact hne (List.length_eq_zero_iff.1 hlen.symm)
  obtain ⟨s3, k1, k2, k3, k4, k5, k6⟩ := stored_cache g1 hB hB0 (fun _ => hsz)
  have e3 : st3 = s3 := by
    simp only [st3, e2]
    rw [cache_identity, k1]
  rw [hlen, List.drop_length, List.append_nil] at k2
  have hr : Ready A.batches s3 := ⟨layout_sizes k2.layout hsz, by rw [k4]; exact g2.ifvp, hne,
    k2.known hB0, k5, k6⟩
  obtain ⟨S, m1, m2⟩ := self_ready k2 hr hsz .identity
  exact ⟨S, by rw [e3, m1], fun i a b ha hb => m2 i b a hb ha⟩

/-- `A = [1, 2, 3]`, `B = [7, 8, 9]`: self-influence `7·1`, `8·2`, `9·3`. -/
example : ∃ S, (selfAttribution .identity (cache .identity none
      (attribute' .identity none (cache .identity none (St.new ℚ (fun _ : Fin 1 => 1) none)
        (Data.of 2 false [one 1, one 2, one 3])).1 (Data.of 2 false []) (Data.of 2 false [])).1
      (Data.of 2 false [one 7, one 8, one 9])).1).2 = .ok (3, S) ∧ S 2 = 27 := by
  obtain ⟨S, h1, h2⟩ := C93_stale (damping := none) (of_wf (bs := 2) (by decide) false
    [one 1, one 2, one 3]) (by decide) (of_wf (bs := 2) (by decide) false [one 7, one 8, one 9])
    (by decide) (Data.of 2 false []) (Data.of 2 false [])
  refine ⟨S, h1, ?_⟩
  rw [h2 2 (one 3) (one 9) rfl rfl]
  norm_num [one]

end

end Verif.BlockIF
