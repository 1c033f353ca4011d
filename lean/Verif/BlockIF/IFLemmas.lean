import Mathlib.Tactic.Ring
import Mathlib.Tactic.Linarith
import Verif.Base.Blocks
import Verif.BlockIF.MetaLemmas
import Verif.BlockIF.IFModel

/-!
# Lemmas about the stored-batch loader and the loops over it
-/

namespace Verif.BlockIF

open Verif

/-! ### The loader over stored batches -/

theorem sortedItems_perm {R : Type} {c : List (ℕ × R)} (h : (PyDict.keys c).Nodup) :
    (sortedItems c).Perm c := by
  have h1 : ∀ m : List (ℕ × R), (PyDict.keys m).Nodup →
      (PyDict.keys m).filterMap (fun k => (PyDict.get? m k).map fun v => (k, v)) = m := by
    intro m hm
    unfold PyDict.keys
    rw [List.filterMap_map]
    have : ∀ p ∈ m, ((fun k => (PyDict.get? m k).map fun v => (k, v)) ∘ Prod.fst) p = some p := by
      intro p hp
      simp [PyDict.get?_of_mem hm hp]
    rw [List.filterMap_congr this, List.filterMap_some]
  have h2 := (sorted_perm (PyDict.keys c)).filterMap
    (fun k => (PyDict.get? c k).map fun v => (k, v))
  rw [h1 c h] at h2
  exact h2

theorem sortedItems_mem {R : Type} {c : List (ℕ × R)} (h : (PyDict.keys c).Nodup) (p : ℕ × R) :
    p ∈ sortedItems c ↔ PyDict.get? c p.1 = some p.2 := by
  rw [(sortedItems_perm h).mem_iff]
  exact ⟨PyDict.get?_of_mem h, PyDict.mem_of_get?⟩

theorem sortedItems_of_sorted {R : Type} {c : List (ℕ × R)}
    (h : (PyDict.keys c).Pairwise (· < ·)) : sortedItems c = c := by
  have hn : (PyDict.keys c).Nodup := h.imp (fun hab => by omega)
  unfold sortedItems
  rw [show (PyDict.keys c).mergeSort (fun a b => decide (a ≤ b)) = PyDict.keys c from
    sorted_of_lt h]
  unfold PyDict.keys
  rw [List.filterMap_map]
  have : ∀ p ∈ c, ((fun k => (PyDict.get? c k).map fun v => (k, v)) ∘ Prod.fst) p = some p := by
    intro p hp
    simp [PyDict.get?_of_mem hn hp]
  rw [List.filterMap_congr this, List.filterMap_some]

theorem offsets_rows {R : Type} (pre : List R) (items : List (ℕ × List R)) :
    (offsets pre.length items).map
      (fun e => (e.1, rowsOf (pre ++ items.flatMap Prod.snd) e.2.1 e.2.2)) = items := by
  induction items generalizing pre with
  | nil => rfl
  | cons p items ih =>
    obtain ⟨k, t⟩ := p
    have := ih (pre ++ t)
    rw [List.length_append, List.append_assoc] at this
    simp only [offsets, List.map_cons, List.flatMap_cons, List.cons.injEq]
    refine ⟨?_, this⟩
    simp [rowsOf]

/-- The row ranges of a collated chunk cut out exactly the stored batches. -/
theorem collate_rows {R : Type} (items : List (ℕ × List R)) :
    (collate items).2.map (fun e => (e.1, rowsOf (collate items).1 e.2.1 e.2.2)) = items :=
  offsets_rows [] items

theorem collate_foldl {R α : Type} (items : List (ℕ × List R)) (F : α → ℕ → List R → α) (a : α) :
    (collate items).2.foldl (fun acc e => F acc e.1 (rowsOf (collate items).1 e.2.1 e.2.2)) a =
      items.foldl (fun acc p => F acc p.1 p.2) a := by
  conv_rhs => rw [← collate_rows items]
  rw [List.foldl_map]

theorem foldlM_map' {α β γ ε : Type} (g : β → γ) (F : α → γ → Except ε α) (l : List β) (a : α) :
    (l.map g).foldlM F a = l.foldlM (fun a b => F a (g b)) a := by
  induction l generalizing a with
  | nil => rfl
  | cons b l ih => simp only [List.map_cons, List.foldlM_cons, ih]

theorem foldlM_flatMap' {α β γ ε : Type} (g : β → List γ) (F : α → γ → Except ε α) (l : List β)
    (a : α) : (l.flatMap g).foldlM F a = l.foldlM (fun a b => (g b).foldlM F a) a := by
  induction l generalizing a with
  | nil => rfl
  | cons b l ih =>
    rw [List.flatMap_cons, List.foldlM_append, List.foldlM_cons]
    congr 1
    funext a'
    exact ih a'

theorem foldl_flatMap' {α β γ : Type} (g : β → List γ) (F : α → γ → α) (l : List β)
    (a : α) : (l.flatMap g).foldl F a = l.foldl (fun a b => (g b).foldl F a) a := by
  induction l generalizing a with
  | nil => rfl
  | cons b l ih => rw [List.flatMap_cons, List.foldl_append, List.foldl_cons]; exact ih _

/-- Storing preconditioned gradients chunk by chunk is storing them batch by batch. -/
theorem storeIfvp_chunks {R : Type} (known : List ℕ) (f : R → R) (g : ℕ) (hg : 0 < g)
    (c ifvp : List (ℕ × List R)) :
    storeIfvp known f (chunks g c) ifvp =
      (sortedItems c).foldl (fun acc p =>
        if p.1 ∈ known then PyDict.set p.1 (p.2.map f) acc else acc) ifvp := by
  conv_rhs => rw [← flatten_batches g hg (sortedItems c), ← List.flatMap_id, foldl_flatMap']
  unfold storeIfvp chunks
  rw [List.foldl_map]
  congr 1
  funext acc items
  exact collate_foldl items
    (fun acc k rows => if k ∈ known then PyDict.set k (rows.map f) acc else acc) acc

theorem chunks_rows {R : Type} (g : ℕ) (hg : 0 < g) (c : List (ℕ × List R)) :
    (chunks g c).flatMap Prod.fst = (sortedItems c).flatMap Prod.snd := by
  conv_rhs => rw [← flatten_batches g hg (sortedItems c)]
  unfold chunks
  rw [List.flatMap_map]
  induction Verif.batches g (sortedItems c) with
  | nil => rfl
  | cons a l ih =>
    rw [List.flatMap_cons, List.flatten_cons, List.flatMap_append, ih]
    rfl

/-! ### Accumulation -/

section
variable {K : Type} [Field K] {L : ℕ} {d : Fin L → ℕ}

theorem gram_append (l : Fin L) (a b : List (Row K d)) : gram l (a ++ b) = gram l a + gram l b := by
  ext i j
  simp [gram]

theorem gram_perm (l : Fin L) {a b : List (Row K d)} (h : a.Perm b) : gram l a = gram l b := by
  ext i j
  exact (h.map _).sum_eq

theorem gram_nil (l : Fin L) : gram l ([] : List (Row K d)) = 0 := by
  ext i j
  simp [gram]

/-- The accumulators after all chunks: outer products of all rows, and their number. -/
theorem accumulate_eq (l : Fin L) (cs : List (List (Row K d) × List (ℕ × ℕ × ℕ))) :
    accumulate l cs = (gram l (cs.flatMap Prod.fst), (cs.flatMap Prod.fst).length) := by
  unfold accumulate
  suffices H : ∀ (cs : List (List (Row K d) × List (ℕ × ℕ × ℕ)))
      (acc : Matrix (Fin (d l)) (Fin (d l)) K × ℕ),
      cs.foldl (fun acc c => if c.1.length = 0 then acc
        else (acc.1 + gram l c.1, acc.2 + c.1.length)) acc =
      (acc.1 + gram l (cs.flatMap Prod.fst), acc.2 + (cs.flatMap Prod.fst).length) by
    rw [H cs (0, 0)]; simp
  intro cs
  induction cs with
  | nil => intro acc; simp [gram_nil]
  | cons c cs ih =>
    intro acc
    rw [List.foldl_cons, ih, List.flatMap_cons, gram_append, List.length_append]
    by_cases h : c.1.length = 0
    · rw [if_pos h]
      rw [List.length_eq_zero_iff.1 h, gram_nil]
      simp
    · rw [if_neg h, add_assoc, add_assoc]

end

/-! ### The score loops -/

section
variable {K : Type} [Field K] {L : ℕ} {d : Fin L → ℕ}

/-- The writes performed by the score loops, in order: test range and stored batch. -/
def writes (g : ℕ) (c : List (ℕ × List (Row K d))) (n : ℕ) :
    List ((ℕ × ℕ) × (ℕ × List (Row K d))) :=
  (Verif.batches g (sortedItems c)).flatMap fun items =>
    (testRanges (min 32 n) n).flatMap fun t => items.map fun p => (t, p)

/-- One write. -/
def writeStep (mp : List (ℕ × (ℤ × ℤ))) (test : List (Row K d)) (S : Mat K)
    (w : (ℕ × ℕ) × (ℕ × List (Row K d))) : Except Err (Mat K) :=
  match PyDict.get? mp w.2.1 with
  | none => .ok S
  | some r => assign S r.1 r.2 w.1.1 w.1.2 w.2.2 test

theorem scoreLoop_writes (mp : List (ℕ × (ℤ × ℤ))) (g : ℕ) (c : List (ℕ × List (Row K d)))
    (test : List (Row K d)) (S : Mat K) :
    scoreLoop mp (chunks g c) test S = (writes g c test.length).foldlM (writeStep mp test) S := by
  unfold writes scoreLoop chunks
  rw [foldlM_map', foldlM_flatMap']
  congr 1
  funext S items
  rw [foldlM_flatMap']
  congr 1
  funext S t
  rw [foldlM_map']
  conv_rhs => rw [← collate_rows items]
  rw [foldlM_map']
  rfl

omit [Field K] in
theorem mem_writes {g : ℕ} (hg : 0 < g) {c : List (ℕ × List (Row K d))}
    (h : (PyDict.keys c).Nodup) (n : ℕ) (t : ℕ × ℕ) (p : ℕ × List (Row K d)) :
    (t, p) ∈ writes g c n ↔
      t ∈ testRanges (min 32 n) n ∧ PyDict.get? c p.1 = some p.2 := by
  rw [← sortedItems_mem h, ← flatten_batches g hg (sortedItems c)]
  unfold writes
  simp only [List.mem_flatMap, List.mem_map, List.mem_flatten, Prod.mk.injEq]
  constructor
  · rintro ⟨items, hi, t', ht', p', hp', rfl, rfl⟩
    exact ⟨ht', items, hi, hp'⟩
  · rintro ⟨ht, items, hi, hp⟩
    exact ⟨items, hi, t, ht, p, hp, rfl, rfl⟩

theorem testRanges_cover {b n j : ℕ} (hb : 0 < b) (hj : j < n) :
    ∃ t ∈ testRanges b n, t.1 ≤ j ∧ j < t.2 := by
  refine ⟨(j / b * b, min (j / b * b + b) n), ?_, Nat.div_mul_le_self j b, ?_⟩
  · unfold testRanges
    refine List.mem_map.2 ⟨j / b, List.mem_range.2 ?_, rfl⟩
    exact div_lt_numBatches hb hj
  · exact lt_min (Nat.lt_div_mul_add hb) hj

/-- A write touches a cell. -/
def Touches (mp : List (ℕ × (ℤ × ℤ))) (w : (ℕ × ℕ) × (ℕ × List (Row K d))) (i j : ℕ) : Prop :=
  ∃ r, PyDict.get? mp w.2.1 = some r ∧ r.1 ≤ (i : ℤ) ∧ (i : ℤ) < r.2 ∧ w.1.1 ≤ j ∧ j < w.1.2

theorem writes_cells (mp : List (ℕ × (ℤ × ℤ))) (test : List (Row K d))
    (ws : List ((ℕ × ℕ) × (ℕ × List (Row K d))))
    (hok : ∀ w ∈ ws, ∀ r, PyDict.get? mp w.2.1 = some r →
      bcast w.2.2.length (r.2 - r.1).toNat = true)
    (S : Mat K) :
    ∃ M, ws.foldlM (writeStep mp test) S = .ok M ∧ M.r = S.r ∧ M.c = S.c ∧
      (∀ i j, (∀ w ∈ ws, ¬ Touches mp w i j) → M.f i j = S.f i j) ∧
      (∀ i j v, (∃ w ∈ ws, Touches mp w i j) →
        (∀ w ∈ ws, ∀ r, PyDict.get? mp w.2.1 = some r → r.1 ≤ (i : ℤ) → (i : ℤ) < r.2 →
          dot (w.2.2.getD (if w.2.2.length = 1 then 0 else (i - r.1).toNat) 0) (test.getD j 0) = v) →
        M.f i j = v) := by
  induction ws using List.reverseRecOn with
  | nil => exact ⟨S, rfl, rfl, rfl, fun _ _ _ => rfl, fun _ _ _ ⟨w, hw, _⟩ => by cases hw⟩
  | append_singleton ws w ih =>
    obtain ⟨M, hM, hr, hc, h1, h2⟩ := ih fun w' hw' => hok w' (List.mem_append_left _ hw')
    rw [List.foldlM_append, hM]
    have hwm : w ∈ ws ++ [w] := by simp
    rcases hg : PyDict.get? mp w.2.1 with _ | r
    · have hstep : writeStep mp test M w = .ok M := by unfold writeStep; rw [hg]
      have hnt : ∀ i j, ¬ Touches mp w i j := by
        rintro i j ⟨r, hr, _⟩; rw [hg] at hr; cases hr
      refine ⟨M, ?_, hr, hc, ?_, ?_⟩
      · change [w].foldlM (writeStep mp test) M = _
        simp only [List.foldlM_cons, List.foldlM_nil, hstep]; rfl
      · intro i j h; exact h1 i j fun w' hw' => h w' (List.mem_append_left _ hw')
      · rintro i j v ⟨w', hw', ht⟩ hv
        apply h2 i j v ?_ fun w' hw' => hv w' (List.mem_append_left _ hw')
        rcases List.mem_append.1 hw' with h | h
        · exact ⟨w', h, ht⟩
        · rw [List.mem_singleton] at h; subst h; exact absurd ht (hnt i j)
    · have hlen := hok w hwm r hg
      have hstep : writeStep mp test M w = .ok { M with
          f := fun i j => if r.1 ≤ i ∧ (i : ℤ) < r.2 ∧ w.1.1 ≤ j ∧ j < w.1.2 then
            dot (w.2.2.getD (if w.2.2.length = 1 then 0 else (i - r.1).toNat) 0) (test.getD j 0)
            else M.f i j } := by
        unfold writeStep
        rw [hg]
        simp only [assign]
        rw [if_pos hlen]
      refine ⟨{ M with
          f := fun i j => if r.1 ≤ i ∧ (i : ℤ) < r.2 ∧ w.1.1 ≤ j ∧ j < w.1.2 then
            dot (w.2.2.getD (if w.2.2.length = 1 then 0 else (i - r.1).toNat) 0) (test.getD j 0)
            else M.f i j }, ?_, hr, hc, ?_, ?_⟩
      · change [w].foldlM (writeStep mp test) M = _
        simp only [List.foldlM_cons, List.foldlM_nil, hstep]; rfl
      · intro i j h
        have hnt := h w hwm
        simp only
        rw [if_neg (fun hc => hnt ⟨r, hg, hc⟩)]
        exact h1 i j fun w' hw' => h w' (List.mem_append_left _ hw')
      · rintro i j v ⟨w', hw', ht⟩ hv
        simp only
        by_cases hcov : r.1 ≤ (i : ℤ) ∧ (i : ℤ) < r.2 ∧ w.1.1 ≤ j ∧ j < w.1.2
        · rw [if_pos hcov, ← hv w hwm r hg hcov.1 hcov.2.1]
        · rw [if_neg hcov]
          apply h2 i j v ?_ fun w' hw' => hv w' (List.mem_append_left _ hw')
          rcases List.mem_append.1 hw' with h | h
          · exact ⟨w', h, ht⟩
          · rw [List.mem_singleton] at h
            subst h
            obtain ⟨r', hr', hh⟩ := ht
            rw [hg] at hr'
            cases hr'
            exact absurd hh hcov

/-- Ranges of different batches do not overlap. -/
def Disjoint' (mp : List (ℕ × (ℤ × ℤ))) : Prop :=
  ∀ k k' r r', PyDict.get? mp k = some r → PyDict.get? mp k' = some r' →
    ∀ i : ℤ, r.1 ≤ i → i < r.2 → r'.1 ≤ i → i < r'.2 → k = k'

/-- The score loops with batches of the recorded size or of one row: cells of stored and mapped batches get the inner products, others stay. -/
theorem scoreLoop_bcast {mp : List (ℕ × (ℤ × ℤ))} {g : ℕ} (hg : 0 < g)
    {c : List (ℕ × List (Row K d))} (hn : (PyDict.keys c).Nodup) (hd : Disjoint' mp)
    (hlen : ∀ k rows r, PyDict.get? c k = some rows → PyDict.get? mp k = some r →
      bcast rows.length (r.2 - r.1).toNat = true)
    (test : List (Row K d)) (S : Mat K) :
    ∃ M, scoreLoop mp (chunks g c) test S = .ok M ∧ M.r = S.r ∧ M.c = S.c ∧
      (∀ k rows r, PyDict.get? c k = some rows → PyDict.get? mp k = some r →
        ∀ i j : ℕ, r.1 ≤ (i : ℤ) → (i : ℤ) < r.2 → j < test.length →
          M.f i j = dot (rows.getD (if rows.length = 1 then 0 else (i - r.1).toNat) 0)
            (test.getD j 0)) ∧
      (∀ i j : ℕ, (∀ k rows r, PyDict.get? c k = some rows → PyDict.get? mp k = some r →
        ¬ (r.1 ≤ (i : ℤ) ∧ (i : ℤ) < r.2)) → M.f i j = S.f i j) := by
  rw [scoreLoop_writes]
  obtain ⟨M, hM, hr, hc, h1, h2⟩ := writes_cells mp test (writes g c test.length) (by
    rintro ⟨t, p⟩ hw r hr
    exact hlen p.1 p.2 r ((mem_writes hg hn _ t p).1 hw).2 hr) S
  refine ⟨M, hM, hr, hc, ?_, ?_⟩
  · intro k rows r hk hr i j hi1 hi2 hj
    have hb : 0 < min 32 test.length := by rw [lt_min_iff]; omega
    apply h2 i j
    · obtain ⟨t, ht, ht1, ht2⟩ := testRanges_cover hb hj
      exact ⟨(t, (k, rows)), (mem_writes hg hn _ t (k, rows)).2 ⟨ht, hk⟩, r, hr, hi1, hi2, ht1, ht2⟩
    · rintro ⟨t, p⟩ hw r' hr' h3 h4
      have hp := ((mem_writes hg hn _ t p).1 hw).2
      have hkk := hd _ _ _ _ hr hr' i hi1 hi2 h3 h4
      simp only at hp hr' ⊢
      rw [← hkk] at hp hr'
      rw [hk] at hp
      rw [hr] at hr'
      cases hp
      cases hr'
      rfl
  · intro i j h
    apply h1
    rintro ⟨t, p⟩ hw ⟨r, hr, h3, h4, _⟩
    exact h p.1 p.2 r ((mem_writes hg hn _ t p).1 hw).2 hr ⟨h3, h4⟩

/-- The score loops: cells of stored and mapped batches get the inner products, others stay. -/
theorem scoreLoop_spec {mp : List (ℕ × (ℤ × ℤ))} {g : ℕ} (hg : 0 < g)
    {c : List (ℕ × List (Row K d))} (hn : (PyDict.keys c).Nodup) (hd : Disjoint' mp)
    (hlen : ∀ k rows r, PyDict.get? c k = some rows → PyDict.get? mp k = some r →
      rows.length = (r.2 - r.1).toNat)
    (test : List (Row K d)) (S : Mat K) :
    ∃ M, scoreLoop mp (chunks g c) test S = .ok M ∧ M.r = S.r ∧ M.c = S.c ∧
      (∀ k rows r, PyDict.get? c k = some rows → PyDict.get? mp k = some r →
        ∀ i j : ℕ, r.1 ≤ (i : ℤ) → (i : ℤ) < r.2 → j < test.length →
          M.f i j = dot (rows.getD (i - r.1).toNat 0) (test.getD j 0)) ∧
      (∀ i j : ℕ, (∀ k rows r, PyDict.get? c k = some rows → PyDict.get? mp k = some r →
        ¬ (r.1 ≤ (i : ℤ) ∧ (i : ℤ) < r.2)) → M.f i j = S.f i j) := by
  obtain ⟨M, h1, h2, h3, h4, h5⟩ := scoreLoop_bcast hg hn hd
    (fun k rows r h1 h2 => by rw [hlen k rows r h1 h2]; simp [bcast]) test S
  refine ⟨M, h1, h2, h3, ?_, h5⟩
  intro k rows r hk hr i j hi1 hi2 hj
  rw [h4 k rows r hk hr i j hi1 hi2 hj]
  have := hlen k rows r hk hr
  congr 2
  split_ifs with hl
  · omega
  · rfl

/-- A stored batch that neither has the recorded size nor one row makes the assignment raise. -/
theorem writes_error (mp : List (ℕ × (ℤ × ℤ))) (test : List (Row K d))
    (ws : List ((ℕ × ℕ) × (ℕ × List (Row K d))))
    (h : ∃ w ∈ ws, ∃ r, PyDict.get? mp w.2.1 = some r ∧ bcast w.2.2.length (r.2 - r.1).toNat = false)
    (S : Mat K) : ws.foldlM (writeStep mp test) S = .error .runtimeError := by
  induction ws generalizing S with
  | nil => obtain ⟨w, hw, -⟩ := h; cases hw
  | cons w ws ih =>
    rw [List.foldlM_cons]
    by_cases hb : ∃ r, PyDict.get? mp w.2.1 = some r ∧ bcast w.2.2.length (r.2 - r.1).toNat = false
    · obtain ⟨r, hr, hb⟩ := hb
      have : writeStep mp test S w = .error .runtimeError := by
        unfold writeStep
        rw [hr]
        simp only [assign]
        rw [if_neg (by rw [hb]; simp)]
      rw [this]
      rfl
    · have hex : ∃ w ∈ ws, ∃ r, PyDict.get? mp w.2.1 = some r ∧
          bcast w.2.2.length (r.2 - r.1).toNat = false := by
        obtain ⟨w', hw', hr⟩ := h
        rcases List.mem_cons.1 hw' with rfl | hm
        · exact absurd hr hb
        · exact ⟨w', hm, hr⟩
      rcases hg : PyDict.get? mp w.2.1 with _ | r
      · have : writeStep mp test S w = .ok S := by unfold writeStep; rw [hg]
        rw [this]
        exact ih hex S
      · have hbt : bcast w.2.2.length (r.2 - r.1).toNat = true := by
          by_contra hc
          exact hb ⟨r, hg, by simpa using hc⟩
        unfold writeStep
        rw [hg]
        simp only [assign]
        rw [if_pos hbt]
        exact ih hex _

theorem scoreLoop_error {mp : List (ℕ × (ℤ × ℤ))} {g : ℕ} (hg : 0 < g)
    {c : List (ℕ × List (Row K d))} (hn : (PyDict.keys c).Nodup)
    {test : List (Row K d)} (ht : test ≠ []) (S : Mat K) {k : ℕ} {rows : List (Row K d)} {r : ℤ × ℤ}
    (hk : PyDict.get? c k = some rows) (hr : PyDict.get? mp k = some r)
    (hb : bcast rows.length (r.2 - r.1).toNat = false) :
    scoreLoop mp (chunks g c) test S = .error .runtimeError := by
  rw [scoreLoop_writes]
  have hpos : 0 < test.length := List.length_pos_iff.2 ht
  obtain ⟨t, ht', -⟩ := testRanges_cover (b := min 32 test.length) (by rw [lt_min_iff]; omega) hpos
  exact writes_error mp test _
    ⟨(t, (k, rows)), (mem_writes hg hn _ t (k, rows)).2 ⟨ht', hk⟩, r, hr, hb⟩ S

end

end Verif.BlockIF
