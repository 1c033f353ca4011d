import Verif.BlockIF.IFProps
import Verif.BlockIF.DiskModel
import Verif.Disk.ExactProps

/-!
# Loops over chunks depend only on the batches the chunks present
-/

namespace Verif.BlockIF

open Verif

/-- The batches of a chunk with their rows. -/
def pairsOf {R : Type} (c : List R × List (ℕ × ℕ × ℕ)) : List (ℕ × List R) :=
  c.2.map fun e => (e.1, rowsOf c.1 e.2.1 e.2.2)

/-- The chunks consist of the batches `data`, each once and with its rows, and of nothing else. -/
structure Presents {R : Type} (cs : List (List R × List (ℕ × ℕ × ℕ))) (data : List (ℕ × List R)) :
    Prop where
  rows : ∀ c ∈ cs, (pairsOf c).flatMap Prod.snd = c.1
  perm : (cs.flatMap pairsOf).Perm data

theorem presents_chunks {R : Type} {g : ℕ} (hg : 0 < g) {c : List (ℕ × List R)}
    (hn : (PyDict.keys c).Nodup) : Presents (chunks g c) c := by
  refine ⟨?_, ?_⟩
  · intro x hx
    obtain ⟨items, -, rfl⟩ := List.mem_map.1 hx
    rw [show pairsOf (collate items) = items from collate_rows items]
    rfl
  · refine List.Perm.trans ?_ (sortedItems_perm hn)
    unfold chunks
    rw [List.flatMap_map]
    have : (fun a : List (ℕ × List R) => pairsOf (collate a)) = id := by
      funext a; exact collate_rows a
    rw [this, List.flatMap_id, flatten_batches g hg]

theorem Presents.flat {R : Type} {cs : List (List R × List (ℕ × ℕ × ℕ))} {data : List (ℕ × List R)}
    (h : Presents cs data) : (cs.flatMap Prod.fst).Perm (data.flatMap Prod.snd) := by
  have e : cs.flatMap Prod.fst = (cs.flatMap pairsOf).flatMap Prod.snd := by
    rw [List.flatMap_assoc]
    exact List.flatMap_congr fun c hc => (h.rows c hc).symm
  rw [e]
  exact h.perm.flatMap_right _

theorem ifvpCalls_perm {R : Type} {cs : List (List R × List (ℕ × ℕ × ℕ))} {data : List (ℕ × List R)}
    (h : Presents cs data) {known : List ℕ} (hk : ∀ p ∈ data, p.1 ∈ known) (f : R → R) :
    (ifvpCalls known f cs).Perm (data.map fun p => (p.1, p.2.map f)) := by
  refine List.Perm.trans ?_ (h.perm.map _)
  rw [List.map_flatMap]
  unfold ifvpCalls
  rw [List.flatMap_congr]
  intro c hc
  rw [List.filter_eq_self.2]
  · unfold pairsOf
    rw [List.map_map]
    rfl
  · intro e he
    have : (e.1, rowsOf c.1 e.2.1 e.2.2) ∈ cs.flatMap pairsOf :=
      List.mem_flatMap.2 ⟨c, hc, List.mem_map.2 ⟨e, he, rfl⟩⟩
    simpa using hk _ (h.perm.mem_iff.1 this)

section
variable {K : Type} [Field K] {L : ℕ} {d : Fin L → ℕ}

theorem accumulate_presents (l : Fin L) {cs cs' : List (List (Row K d) × List (ℕ × ℕ × ℕ))}
    {data data' : List (ℕ × List (Row K d))} (h : Presents cs data) (h' : Presents cs' data')
    (hp : data.Perm data') : accumulate l cs = accumulate l cs' := by
  have := (h.flat.trans (hp.flatMap_right Prod.snd)).trans h'.flat.symm
  rw [accumulate_eq, accumulate_eq, gram_perm l this, this.length_eq]

theorem preLoop_congr [DecidableEq K] (damping : Option K)
    {cs cs' : List (List (Row K d) × List (ℕ × ℕ × ℕ))}
    (h : ∀ l : Fin L, accumulate l cs = accumulate l cs') (ls : List (Fin L))
    (p : (l : Fin L) → Option (Matrix (Fin (d l)) (Fin (d l)) K)) :
    preLoop damping cs ls p = preLoop damping cs' ls p := by
  induction ls generalizing p with
  | nil => rfl
  | cons l ls ih =>
    unfold preLoop
    rw [h l]
    simp only [ih]

/-- The writes of the score loops over any chunks. -/
def writes' (cs : List (List (Row K d) × List (ℕ × ℕ × ℕ))) (n : ℕ) :
    List ((ℕ × ℕ) × (ℕ × List (Row K d))) :=
  cs.flatMap fun c => (testRanges (min 32 n) n).flatMap fun t => (pairsOf c).map fun p => (t, p)

theorem scoreLoop_writes' (mp : List (ℕ × (ℤ × ℤ))) (cs : List (List (Row K d) × List (ℕ × ℕ × ℕ)))
    (test : List (Row K d)) (S : Mat K) :
    scoreLoop mp cs test S = (writes' cs test.length).foldlM (writeStep mp test) S := by
  unfold writes' scoreLoop
  rw [foldlM_flatMap']
  congr 1
  funext S c
  rw [foldlM_flatMap']
  congr 1
  funext S t
  unfold pairsOf
  rw [List.map_map, foldlM_map']
  rfl

omit [Field K] in
theorem mem_writes' {cs : List (List (Row K d) × List (ℕ × ℕ × ℕ))}
    {data : List (ℕ × List (Row K d))} (h : Presents cs data) (n : ℕ) (t : ℕ × ℕ)
    (p : ℕ × List (Row K d)) :
    (t, p) ∈ writes' cs n ↔ t ∈ testRanges (min 32 n) n ∧ p ∈ data := by
  rw [← h.perm.mem_iff]
  unfold writes'
  simp only [List.mem_flatMap, List.mem_map, Prod.mk.injEq]
  constructor
  · rintro ⟨c, hc, t', ht', p', hp', rfl, rfl⟩
    exact ⟨ht', c, hc, hp'⟩
  · rintro ⟨ht, c, hc, hp⟩
    exact ⟨c, hc, t, ht, p, hp, rfl, rfl⟩

/-- The score loops over chunks presenting the batches `w`. -/
theorem scores_presents {w : List (List (Row K d))} {m : Meta} (hl : Layout w m)
    {cs : List (List (Row K d) × List (ℕ × ℕ × ℕ))}
    (h : Presents cs (w.zipIdx.map fun p => (p.2, p.1))) (test : List (Row K d)) :
    ∃ M, scoreLoop m.mapping cs test (Mat.zeros m.totalSamples.toNat test.length) = .ok M ∧
      Scores M w.flatten test := by
  have hmem : ∀ p : ℕ × List (Row K d), p ∈ (w.zipIdx.map fun p => (p.2, p.1)) ↔ w[p.1]? = some p.2 := by
    rintro ⟨k, b⟩
    simp only [List.mem_map, Prod.mk.injEq, Prod.exists]
    constructor
    · rintro ⟨b', k', hm, rfl, rfl⟩
      exact List.mem_zipIdx_iff_getElem?.1 hm
    · intro hb
      exact ⟨b, k, List.mem_zipIdx_iff_getElem?.2 hb, rfl, rfl⟩
  rw [scoreLoop_writes']
  obtain ⟨M, hM, hr, hc, h1, h2⟩ := writes_cells m.mapping test (writes' cs test.length) (by
    rintro ⟨t, p⟩ hw r hr
    have hp := (hmem p).1 ((mem_writes' h _ t p).1 hw).2
    simp only at hr ⊢
    rw [layout_mapping hl, hp] at hr
    cases hr
    simp [bcast]) (Mat.zeros m.totalSamples.toNat test.length)
  refine ⟨M, hM, ?_, ?_, ?_⟩
  · rw [hr]
    change m.totalSamples.toNat = _
    unfold Meta.totalSamples
    rw [hl.total]
    rfl
  · rw [hc]; rfl
  · intro i j a b hi hj
    obtain ⟨k, rows, o, hk, ho, hio⟩ := flatten_locate _ _ _ hi
    have ho' := (List.getElem?_eq_some_iff.1 ho).1
    have hj' := (List.getElem?_eq_some_iff.1 hj).1
    have hk2 := layout_mapping hl k
    rw [hk] at hk2
    have hb : 0 < min 32 test.length := by rw [lt_min_iff]; omega
    apply h2 i j
    · obtain ⟨t, ht, ht1, ht2⟩ := testRanges_cover hb hj'
      exact ⟨(t, (k, rows)), (mem_writes' h _ t (k, rows)).2 ⟨ht, (hmem _).2 hk⟩, _, hk2,
        by simp only; omega, by simp only; omega, ht1, ht2⟩
    · rintro ⟨t, p⟩ hw r' hr' h3 h4
      have hp := (hmem p).1 ((mem_writes' h _ t p).1 hw).2
      have hkk := layout_disjoint hl _ _ _ _ hk2 hr' i (by simp only; omega) (by simp only; omega) h3 h4
      simp only at hp hr' hkk ⊢
      rw [← hkk] at hp hr'
      rw [hk] at hp
      rw [hk2] at hr'
      cases hp
      cases hr'
      simp only
      have e1 : ((i : ℤ) - ((w.take k).flatten.length : ℤ)).toNat = o := by omega
      have e2 : (if p.2.length = 1 then 0 else o) = o := by
        split_ifs with hl1
        · omega
        · rfl
      rw [e1, e2, List.getD_eq_getElem?_getD, List.getD_eq_getElem?_getD, ho, hj]
      rfl

end

end Verif.BlockIF

namespace Verif.Disk

variable {R : Type} {cfg : Cfg}

/-- The items a pass of the loader yields consist of the stored batches and of nothing else. -/
theorem presents_loader (acts : List (Act R)) {st st' : St R}
    (hex : exec cfg (St.init (fun _ => none) (fun _ => none)) acts = some st)
    (hd : Disciplined st.ev) (ho : OneRound st.ev)
    (hr : Returns cfg st st') (ls : List Path) (hls : ls.Nodup)
    (hall : ∀ p, p ∈ ls ↔ (st'.metaFile p).isSome) (dt : DT) :
    ∃ items, (chunkInfo ⟨st'.dataFile, st'.metaFile, ls⟩ dt none).mapM
        (loadFile ⟨st'.dataFile, st'.metaFile, ls⟩ none) = .ok items ∧
      ∀ g, 0 < g → BlockIF.Presents (loaderPass g items) (storedOf dt st.ev) := by
  obtain ⟨g1, g2⟩ := good_init (cfg := cfg) (fun _ => (none : Option (List R))) (fun _ => none)
  obtain ⟨f1, f2⟩ := flushHas_exec hex hd (k_init _ _) trivial g1 g2 trivial
  have hon := once_of hd f2 f1 ho
  obtain ⟨h1, h2, h3⟩ := C96_files acts hex hon hr ls hls hall dt
  obtain ⟨x, -⟩ := exact_of_return acts hex hon hr
  have hcn := ((h2.map Prod.fst).nodup_iff).2 h3
  obtain ⟨items, e1, e2, e3⟩ := dataset_read h1 hcn none
  have hperm : (items.flatMap readPairs).Perm (storedOf dt st.ev) := by
    refine e3.trans (List.Perm.trans ?_ h2)
    rw [List.filter_eq_self.2]
    intro a _; rfl
  have hkeys : ∀ l : List (Item R), (l.flatMap fun x => PyDict.keys x.2) =
      (l.flatMap readPairs).map Prod.fst := by
    intro l
    rw [List.map_flatMap]
    exact List.flatMap_congr fun x _ => (keys_readPairs x).symm
  -- every loaded item
  have hitem : ∀ y ∈ items, y.Bounds ∧ (readPairs y).flatMap Prod.snd = y.1 := by
    have key : ∀ (ps : List Path) (ys : List (Item R)),
        ps.mapM (loadFile ⟨st'.dataFile, st'.metaFile, ls⟩ none) = .ok ys →
        ∀ y ∈ ys, ∃ p ∈ ps, loadFile ⟨st'.dataFile, st'.metaFile, ls⟩ none p = .ok y := by
      intro ps
      induction ps with
      | nil => intro ys h y hy; cases h; cases hy
      | cons p ps ih =>
        intro ys h y hy
        rw [List.mapM_cons] at h
        cases hp : loadFile ⟨st'.dataFile, st'.metaFile, ls⟩ none p with
        | error e => rw [hp] at h; cases h
        | ok z =>
          rw [hp] at h
          cases hps : ps.mapM (loadFile ⟨st'.dataFile, st'.metaFile, ls⟩ none) with
          | error e => rw [hps] at h; cases h
          | ok zs =>
            rw [hps] at h
            cases h
            rcases List.mem_cons.1 hy with rfl | hy
            · exact ⟨p, List.mem_cons_self, hp⟩
            · obtain ⟨q, hq, hq'⟩ := ih zs hps y hy
              exact ⟨q, List.mem_cons_of_mem _ hq, hq'⟩
    intro y hy
    obtain ⟨p, -, hp⟩ := key _ _ e1 y hy
    unfold loadFile at hp
    simp only at hp
    cases hm : st'.metaFile p with
    | none => rw [hm] at hp; cases hp
    | some info =>
      obtain ⟨t, k, q1, -, q2, -, -⟩ := x.file p info hm
      rw [hm, q1] at hp
      simp only at hp
      obtain ⟨z, r1, r2, r3⟩ := loadRange_proper (⟨q2.fits, q2.nd⟩ : Proper info t) none
      obtain ⟨z', s1, s2, s3⟩ := C66_whole (t := t) q2.nd
      rw [hp] at r1 s1
      cases r1
      cases s1
      refine ⟨r2, ?_⟩
      rw [s3, s2]
      unfold entries
      rw [List.flatMap_map]
      exact q2.tight
  refine ⟨items, e1, fun g hg => ⟨?_, ?_⟩⟩
  · intro c hc
    obtain ⟨b, hb, rfl⟩ := List.mem_map.1 hc
    have hsub : b.Sublist items := by
      conv_rhs => rw [← flatten_batches g hg items]
      exact List.sublist_flatten_of_mem hb
    have hnd : (b.flatMap fun x => PyDict.keys x.2).Nodup := by
      rw [hkeys]
      have : (b.flatMap readPairs).Sublist (items.flatMap readPairs) := by
        rw [List.flatMap_def, List.flatMap_def]
        exact (hsub.map _).flatten
      exact (this.map _).nodup (((hperm.map Prod.fst).nodup_iff).2 h3)
    change (readPairs (collateItems b)).flatMap Prod.snd = _
    rw [collate_read b (fun y hy => (hitem y (hsub.subset hy)).1) hnd, collate_rows, List.flatMap_assoc]
    exact List.flatMap_congr fun y hy => (hitem y (hsub.subset hy)).2
  · change ((loaderPass g items).flatMap readPairs).Perm _
    rw [e2 g hg]
    exact hperm

end Verif.Disk
