import Verif.Base.Blocks

/-!
# Loaders that may drop the last incomplete batch (`DataLoader(..., drop_last=True)`)

PyTorch primitive: an unshuffled loader over `n` samples with `drop_last=True` yields the `n // bs` complete batches, while
`len(loader.sampler)` stays `n`.
-/

namespace Verif

/-- An unshuffled loader: the samples of its sampler, its batch size and its `drop_last` flag. -/
structure DLoader (X : Type) where
  data : List X
  bs : Nat
  drop : Bool := false

/-- Number of batches the loader yields. -/
def DLoader.nb {X : Type} (l : DLoader X) : Nat :=
  if l.drop then l.data.length / l.bs else numBatches l.bs l.data.length

/-- `b`-th batch of the loader. -/
def DLoader.batch {X : Type} (l : DLoader X) (b : Nat) : List X := batchAt l.bs l.data b

/-- The double loop over (train batch, test batch) pairs shared by the attributors (base.py:343-448, tracin.py:150-256): every
block is added at the place computed from the batch numbers, the batch size and `len(loader.sampler)`. -/
def pairLoopD {X R : Type} [Add R] (tr te : DLoader X) (blk : List X → List X → Mat R) (M : Mat R) : Except Err (Mat R) :=
  (List.range tr.nb).foldlM (fun M b => (List.range te.nb).foldlM (fun M t =>
    liftO (M.addBlock (b * tr.bs) (min ((b + 1) * tr.bs) tr.data.length)
      (t * te.bs) (min ((t + 1) * te.bs) te.data.length) (blk (tr.batch b) (te.batch t)))) M) M

/-! ## Specification -/

/-- How many samples, from the front, are contained in the yielded batches. -/
def DLoader.kept {X : Type} (l : DLoader X) : Nat :=
  if l.drop then l.bs * (l.data.length / l.bs) else l.data.length

/-- The ordinary loader over just these samples. -/
def DLoader.seen {X : Type} (l : DLoader X) : Loader X := ⟨l.data.take l.kept, l.bs, true⟩

/-! ## Lemmas -/

lemma DLoader.kept_le {X : Type} (l : DLoader X) : l.kept ≤ l.data.length := by
  unfold DLoader.kept
  split
  · exact Nat.mul_div_le _ _
  · exact le_rfl

lemma DLoader.nb_le {X : Type} (l : DLoader X) (h : 0 < l.bs) : l.nb ≤ numBatches l.bs l.data.length := by
  unfold DLoader.nb
  split
  · unfold numBatches
    exact Nat.div_le_div_right (by omega)
  · exact le_rfl

lemma DLoader.div_lt_nb {X : Type} (l : DLoader X) (h : 0 < l.bs) {i : Nat} (hi : i < l.data.length) :
    i / l.bs < l.nb ↔ i < l.kept := by
  unfold DLoader.nb DLoader.kept
  split
  · rw [Nat.div_lt_iff_lt_mul h, Nat.mul_comm]
  · simp [hi, div_lt_numBatches h hi]

lemma DLoader.seen_length {X : Type} (l : DLoader X) : l.seen.data.length = l.kept := by
  simp [DLoader.seen, l.kept_le]

lemma DLoader.seen_get {X : Type} (l : DLoader X) (i : Nat) (hi : i < l.seen.data.length) (hi' : i < l.data.length) :
    l.seen.data[i] = l.data[i] := by
  simp [DLoader.seen]

/-- Double loop over the first `kr` row blocks and `kc` column blocks. -/
lemma blockLoop_part {R : Type*} [Add R] (n m bR bC : Nat) (hbR : 0 < bR) (hbC : 0 < bC)
    (blk : Nat → Nat → Mat R)
    (hr : ∀ b c, b * bR < n → c * bC < m → (blk b c).r = min bR (n - b * bR))
    (hc : ∀ b c, b * bR < n → c * bC < m → (blk b c).c = min bC (m - c * bC))
    (kc : Nat) (hkc : kc ≤ numBatches bC m)
    (k : Nat) (hk : k ≤ numBatches bR n) (M : Mat R) (hMr : M.r = n) (hMc : M.c = m) :
    ∃ M' : Mat R, (List.range k).foldlM
        (fun (M : Mat R) b => (List.range kc).foldlM
          (fun (M : Mat R) c => M.addBlock (b * bR) (min ((b + 1) * bR) n) (c * bC) (min ((c + 1) * bC) m) (blk b c)) M) M = some M' ∧
      M'.r = n ∧ M'.c = m ∧ ∀ i < n, ∀ j < m,
        M'.f i j = if i / bR < k ∧ j / bC < kc then
          M.f i j + (blk (i / bR) (j / bC)).f (i - i / bR * bR) (j - j / bC * bC) else M.f i j := by
  induction k with
  | zero => exact ⟨M, by simp, hMr, hMc, by simp⟩
  | succ k ih =>
    obtain ⟨M1, h1, h1r, h1c, h1f⟩ := ih (by omega)
    have hkn : k * bR < n := (lt_numBatches_iff hbR).1 (by omega)
    obtain ⟨M2, h2, h2r, h2c, h2f⟩ := blockLoop_inner n m bR bC k hbR hbC hkn (blk k)
      (fun c => hr k c hkn) (fun c => hc k c hkn) kc hkc M1 h1r h1c
    refine ⟨M2, ?_, h2r, h2c, ?_⟩
    · rw [List.range_succ, List.foldlM_append, h1]
      simp [h2]
    · intro i hi j hj
      rw [h2f i hi j hj, h1f i hi j hj]
      by_cases e1 : i / bR = k
      · subst e1
        simp
      · by_cases e3 : i / bR < k
        · simp [e1, e3, Nat.lt_succ_of_lt e3]
        · have : ¬ i / bR < k + 1 := by omega
          simp [e1, e3, this]

/-- The pair loop adds to the entry of every pair of yielded samples its value and leaves all other entries. -/
lemma pairLoopD_spec {X R : Type} [Add R] (tr te : DLoader X) (blk : List X → List X → Mat R) (g : X → X → R)
    (hr : ∀ a b, (blk a b).r = a.length) (hc : ∀ a b, (blk a b).c = b.length)
    (hg : ∀ a b i j x y, a[i]? = some x → b[j]? = some y → (blk a b).f i j = g x y)
    (h1 : 0 < tr.bs) (h2 : 0 < te.bs)
    (M : Mat R) (hMr : M.r = tr.data.length) (hMc : M.c = te.data.length) :
    ∃ M', pairLoopD tr te blk M = .ok M' ∧ M'.r = tr.data.length ∧ M'.c = te.data.length ∧
      ∀ i (hi : i < tr.data.length) j (hj : j < te.data.length),
        M'.f i j = if i < tr.kept ∧ j < te.kept then M.f i j + g tr.data[i] te.data[j] else M.f i j := by
  obtain ⟨M', e, hr', hc', hf⟩ := blockLoop_part tr.data.length te.data.length tr.bs te.bs h1 h2
    (fun b t => blk (tr.batch b) (te.batch t))
    (fun b t _ _ => by rw [hr]; simp [DLoader.batch, length_batchAt])
    (fun b t _ _ => by rw [hc]; simp [DLoader.batch, length_batchAt])
    te.nb (te.nb_le h2) tr.nb (tr.nb_le h1) M hMr hMc
  refine ⟨M', ?_, hr', hc', ?_⟩
  · unfold pairLoopD
    simp only [foldlM_liftO]
    rw [e]; rfl
  · intro i hi j hj
    rw [hf i hi j hj]
    simp only [tr.div_lt_nb h1 hi, te.div_lt_nb h2 hj]
    congr 2
    apply hg
    · rw [DLoader.batch, getElem?_batchAt _ _ _ _ (sub_div_mul_lt h1), div_mul_add_sub, List.getElem?_eq_getElem hi]
    · rw [DLoader.batch, getElem?_batchAt _ _ _ _ (sub_div_mul_lt h2), div_mul_add_sub, List.getElem?_eq_getElem hj]

end Verif
