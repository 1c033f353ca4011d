import Verif.Base.Tensor
import Mathlib.Algebra.BigOperators.Group.Finset.Basic
import Mathlib.Algebra.BigOperators.Group.Finset.Sigma
import Mathlib.Algebra.BigOperators.Group.Finset.Piecewise
import Mathlib.Tactic.Ring
import Mathlib.Tactic.Linarith

/-! # Lemmas about loaders and block-wise accumulation (helpers, not properties) -/

namespace Verif

variable {α R : Type*}

lemma length_batchAt (bs : Nat) (xs : List α) (b : Nat) :
    (batchAt bs xs b).length = min bs (xs.length - b * bs) := by
  simp [batchAt]

lemma getElem?_batchAt (bs : Nat) (xs : List α) (b k : Nat) (hk : k < bs) :
    (batchAt bs xs b)[k]? = xs[b * bs + k]? := by
  simp [batchAt, hk]

lemma lt_numBatches_iff {bs n b : Nat} (hbs : 0 < bs) : b < numBatches bs n ↔ b * bs < n := by
  unfold numBatches
  rw [Nat.lt_iff_add_one_le, Nat.le_div_iff_mul_le hbs, Nat.add_mul, Nat.one_mul]
  omega

lemma div_lt_numBatches {bs n i : Nat} (hbs : 0 < bs) (hi : i < n) : i / bs < numBatches bs n := by
  rw [lt_numBatches_iff hbs]
  exact lt_of_le_of_lt (Nat.div_mul_le_self i bs) hi

lemma length_batches (bs : Nat) (xs : List α) :
    (batches bs xs).length = numBatches bs xs.length := by simp [batches]

lemma flatten_range_batchAt (bs : Nat) (xs : List α) (k : Nat) :
    ((List.range k).map (batchAt bs xs)).flatten = xs.take (k * bs) := by
  induction k with
  | zero => simp
  | succ k ih =>
    rw [List.range_succ, List.map_append, List.flatten_append, ih]
    simp only [List.map_cons, List.map_nil, List.flatten_cons, List.flatten_nil, List.append_nil, batchAt]
    rw [Nat.add_mul, Nat.one_mul, ← List.take_add]

/-- The batches of an unshuffled loader concatenate to the data set. -/
lemma flatten_batches (bs : Nat) (hbs : 0 < bs) (xs : List α) : (batches bs xs).flatten = xs := by
  rw [batches, flatten_range_batchAt]
  apply List.take_of_length_le
  by_contra h
  push Not at h
  have := (lt_numBatches_iff (n := xs.length) (b := numBatches bs xs.length) hbs).2 h
  omega

/-- Row interval of batch `b`: an index lies in it iff its batch number is `b`. -/
lemma mem_block_iff {bs n b i : Nat} (hbs : 0 < bs) (hi : i < n) :
    (b * bs ≤ i ∧ i < min (min ((b + 1) * bs) n) n) ↔ i / bs = b := by
  have h1 : i / bs = b ↔ b * bs ≤ i ∧ i < (b + 1) * bs := by
    constructor
    · rintro rfl
      refine ⟨Nat.div_mul_le_self i bs, ?_⟩
      have := Nat.lt_div_mul_add hbs (a := i)
      rw [Nat.add_mul, Nat.one_mul]; exact this
    · rintro ⟨h1, h2⟩
      exact Nat.div_eq_of_lt_le h1 h2
  rw [h1]
  constructor
  · rintro ⟨h, h'⟩; exact ⟨h, by omega⟩
  · rintro ⟨h, h'⟩; exact ⟨h, by omega⟩

/-- One aligned block update with a block of the right shape. -/
lemma addBlock_aligned [Add R] (M : Mat R) (bR bC b c : Nat)
    (hbR : 0 < bR) (hbC : 0 < bC) (hb : b * bR < M.r) (hc : c * bC < M.c) (B : Mat R)
    (hBr : B.r = min bR (M.r - b * bR)) (hBc : B.c = min bC (M.c - c * bC)) :
    ∃ M' : Mat R, M.addBlock (b * bR) (min ((b + 1) * bR) M.r) (c * bC) (min ((c + 1) * bC) M.c) B = some M' ∧
      M'.r = M.r ∧ M'.c = M.c ∧
      ∀ i < M.r, ∀ j < M.c,
        M'.f i j = if i / bR = b ∧ j / bC = c then M.f i j + B.f (i - b * bR) (j - c * bC) else M.f i j := by
  have e1 : (b + 1) * bR = b * bR + bR := by ring
  have e2 : (c + 1) * bC = c * bC + bC := by ring
  have hr : B.r = min (min ((b + 1) * bR) M.r) M.r - b * bR := by omega
  have hcc : B.c = min (min ((c + 1) * bC) M.c) M.c - c * bC := by omega
  refine ⟨⟨M.r, M.c, fun i j =>
      if b * bR ≤ i ∧ i < min (min ((b + 1) * bR) M.r) M.r ∧ c * bC ≤ j ∧ j < min (min ((c + 1) * bC) M.c) M.c then
        M.f i j + B.f (if B.r = 1 then 0 else i - b * bR) (if B.c = 1 then 0 else j - c * bC)
      else M.f i j⟩, ?_, rfl, rfl, ?_⟩
  · simp only [Mat.addBlock]
    rw [if_pos]
    simp only [bcast, Bool.and_eq_true, Bool.or_eq_true, beq_iff_eq]
    exact ⟨Or.inl hr, Or.inl hcc⟩
  · intro i hi j hj
    have hi' := mem_block_iff (b := b) hbR hi
    have hj' := mem_block_iff (b := c) hbC hj
    by_cases h : i / bR = b ∧ j / bC = c
    · have h1 := hi'.2 h.1
      have h2 := hj'.2 h.2
      have z1 : (if B.r = 1 then 0 else i - b * bR) = i - b * bR := by split <;> omega
      have z2 : (if B.c = 1 then 0 else j - c * bC) = j - c * bC := by split <;> omega
      simp only [z1, z2]
      rw [if_pos ⟨h1.1, h1.2, h2.1, h2.2⟩, if_pos h]
    · have : ¬ (b * bR ≤ i ∧ i < min (min ((b + 1) * bR) M.r) M.r ∧ c * bC ≤ j ∧
          j < min (min ((c + 1) * bC) M.c) M.c) := by
        rintro ⟨a1, a2, a3, a4⟩
        exact h ⟨hi'.1 ⟨a1, a2⟩, hj'.1 ⟨a3, a4⟩⟩
      simp only
      rw [if_neg this, if_neg h]

/-- Inner loop: all column blocks of one row block. -/
lemma blockLoop_inner [Add R] (n m bR bC b : Nat) (hbR : 0 < bR) (hbC : 0 < bC) (hb : b * bR < n)
    (blk : Nat → Mat R)
    (hr : ∀ c, c * bC < m → (blk c).r = min bR (n - b * bR))
    (hc : ∀ c, c * bC < m → (blk c).c = min bC (m - c * bC))
    (k : Nat) (hk : k ≤ numBatches bC m) (M : Mat R) (hMr : M.r = n) (hMc : M.c = m) :
    ∃ M' : Mat R, (List.range k).foldlM
        (fun (M : Mat R) c => M.addBlock (b * bR) (min ((b + 1) * bR) n) (c * bC) (min ((c + 1) * bC) m) (blk c)) M = some M' ∧
      M'.r = n ∧ M'.c = m ∧ ∀ i < n, ∀ j < m,
        M'.f i j = if i / bR = b ∧ j / bC < k then M.f i j + (blk (j / bC)).f (i - b * bR) (j - j / bC * bC) else M.f i j := by
  induction k with
  | zero => exact ⟨M, by simp, hMr, hMc, by simp⟩
  | succ k ih =>
    obtain ⟨M1, h1, h1r, h1c, h1f⟩ := ih (by omega)
    have hkm : k * bC < m := (lt_numBatches_iff hbC).1 (by omega)
    obtain ⟨M2, h2, h2r, h2c, h2f⟩ := addBlock_aligned M1 bR bC b k hbR hbC (by omega) (by omega) (blk k)
      (by rw [h1r]; exact hr k hkm) (by rw [h1c]; exact hc k hkm)
    rw [h1r, h1c] at h2
    refine ⟨M2, ?_, by omega, by omega, ?_⟩
    · rw [List.range_succ, List.foldlM_append, h1]
      simp [h2]
    · intro i hi j hj
      rw [h2f i (by omega) j (by omega), h1f i hi j hj]
      by_cases e1 : i / bR = b
      · by_cases e2 : j / bC = k
        · subst e2
          simp [e1]
        · by_cases e3 : j / bC < k
          · rw [if_neg (by tauto), if_pos ⟨e1, e3⟩, if_pos ⟨e1, by omega⟩]
          · rw [if_neg (by tauto), if_neg (by tauto), if_neg (by omega)]
      · simp [e1]

/-- Double loop over all aligned blocks with an arbitrary state-independent block: every entry is updated exactly once
with the value of its block. -/
lemma blockLoop [Add R] (n m bR bC : Nat) (hbR : 0 < bR) (hbC : 0 < bC)
    (blk : Nat → Nat → Mat R)
    (hr : ∀ b c, b * bR < n → c * bC < m → (blk b c).r = min bR (n - b * bR))
    (hc : ∀ b c, b * bR < n → c * bC < m → (blk b c).c = min bC (m - c * bC))
    (k : Nat) (hk : k ≤ numBatches bR n) (M : Mat R) (hMr : M.r = n) (hMc : M.c = m) :
    ∃ M' : Mat R, (List.range k).foldlM
        (fun (M : Mat R) b => (List.range (numBatches bC m)).foldlM
          (fun (M : Mat R) c => M.addBlock (b * bR) (min ((b + 1) * bR) n) (c * bC) (min ((c + 1) * bC) m) (blk b c)) M) M = some M' ∧
      M'.r = n ∧ M'.c = m ∧ ∀ i < n, ∀ j < m,
        M'.f i j = if i / bR < k then
          M.f i j + (blk (i / bR) (j / bC)).f (i - i / bR * bR) (j - j / bC * bC) else M.f i j := by
  induction k with
  | zero => exact ⟨M, by simp, hMr, hMc, by simp⟩
  | succ k ih =>
    obtain ⟨M1, h1, h1r, h1c, h1f⟩ := ih (by omega)
    have hkn : k * bR < n := (lt_numBatches_iff hbR).1 (by omega)
    obtain ⟨M2, h2, h2r, h2c, h2f⟩ := blockLoop_inner n m bR bC k hbR hbC hkn (blk k)
      (fun c => hr k c hkn) (fun c => hc k c hkn) (numBatches bC m) le_rfl M1 h1r h1c
    refine ⟨M2, ?_, h2r, h2c, ?_⟩
    · rw [List.range_succ, List.foldlM_append, h1]
      simp [h2]
    · intro i hi j hj
      rw [h2f i hi j hj, h1f i hi j hj]
      have hj' := div_lt_numBatches hbC hj
      by_cases e1 : i / bR = k
      · subst e1
        simp [hj']
      · by_cases e3 : i / bR < k
        · rw [if_neg (by tauto), if_pos e3, if_pos (by omega)]
        · rw [if_neg (by tauto), if_neg e3, if_neg (by omega)]

end Verif

namespace Verif

variable {α R : Type*}

lemma foldlM_liftO {β γ : Type} (f : β → γ → Option β) (l : List γ) (b : β) :
    l.foldlM (fun b c => liftO (f b c)) b = liftO (l.foldlM f b) := by
  induction l generalizing b with
  | nil => rfl
  | cons c l ih =>
    simp only [List.foldlM_cons]
    cases h : f b c with
    | none => rfl
    | some b' => exact ih b'

lemma sub_div_mul_lt {i bs : ℕ} (hbs : 0 < bs) : i - i / bs * bs < bs := by
  have := Nat.lt_div_mul_add hbs (a := i); omega

lemma div_mul_add_sub {i bs : ℕ} : i / bs * bs + (i - i / bs * bs) = i := by
  have := Nat.div_mul_le_self i bs; omega

/-- The pair loop adds to every entry the value of the pair of samples, if blocks are computed sample by sample. -/
lemma pairLoop_spec {X R : Type} [Add R] (tr te : Loader X) (blk : List X → List X → Mat R) (g : X → X → R)
    (hr : ∀ a b, (blk a b).r = a.length) (hc : ∀ a b, (blk a b).c = b.length)
    (hg : ∀ a b i j x y, a[i]? = some x → b[j]? = some y → (blk a b).f i j = g x y)
    (h1 : 0 < tr.bs) (h2 : 0 < te.bs) (s1 : tr.supported = true) (s2 : te.supported = true)
    (M : Mat R) (hMr : M.r = tr.data.length) (hMc : M.c = te.data.length) :
    ∃ M', pairLoop tr te blk M = .ok M' ∧ M'.r = tr.data.length ∧ M'.c = te.data.length ∧
      ∀ i (hi : i < tr.data.length) j (hj : j < te.data.length), M'.f i j = M.f i j + g tr.data[i] te.data[j] := by
  obtain ⟨M', e, hr', hc', hf⟩ := blockLoop tr.data.length te.data.length tr.bs te.bs h1 h2
    (fun b t => blk (tr.batch b) (te.batch t))
    (fun b t _ _ => by rw [hr]; simp [Loader.batch, length_batchAt])
    (fun b t _ _ => by rw [hc]; simp [Loader.batch, length_batchAt])
    (numBatches tr.bs tr.data.length) le_rfl M hMr hMc
  refine ⟨M', ?_, hr', hc', ?_⟩
  · unfold pairLoop Loader.nb
    simp only [s1, s2, Bool.not_true, Bool.false_eq_true, if_false]
    simp only [foldlM_liftO]
    rw [e]; rfl
  · intro i hi j hj
    rw [hf i hi j hj, if_pos (div_lt_numBatches h1 hi)]
    congr 1
    apply hg
    · rw [Loader.batch, getElem?_batchAt _ _ _ _ (sub_div_mul_lt h1), div_mul_add_sub, List.getElem?_eq_getElem hi]
    · rw [Loader.batch, getElem?_batchAt _ _ _ _ (sub_div_mul_lt h2), div_mul_add_sub, List.getElem?_eq_getElem hj]

/-- The slice loop adds to every entry the value of its sample. -/
lemma sliceLoop_spec {X R : Type} [Add R] (tr : Loader X) (blk : List X → Vec R) (g : X → R)
    (hr : ∀ a, (blk a).n = a.length) (hg : ∀ a i x, a[i]? = some x → (blk a).f i = g x)
    (h1 : 0 < tr.bs) (s1 : tr.supported = true) (v : Vec R) (hv : v.n = tr.data.length) :
    ∃ v', sliceLoop tr blk v = .ok v' ∧ v'.n = tr.data.length ∧
      ∀ i (hi : i < tr.data.length), v'.f i = v.f i + g tr.data[i] := by
  have key : ∀ k ≤ tr.nb, ∃ v', (List.range k).foldlM (fun v b =>
      if !tr.supported then .error .typeError
      else liftO (v.addSlice (b * tr.bs) (min ((b + 1) * tr.bs) tr.data.length) (blk (tr.batch b)))) v
        = Except.ok (ε := Err) v' ∧ v'.n = tr.data.length ∧
        ∀ i (hi : i < tr.data.length), v'.f i = if i / tr.bs < k then v.f i + g tr.data[i] else v.f i := by
    intro k
    induction k with
    | zero => intro _; exact ⟨v, rfl, hv, by simp⟩
    | succ k ih =>
      intro hk
      obtain ⟨w, e, hn, hf⟩ := ih (by omega)
      have hk' : k * tr.bs < tr.data.length := (lt_numBatches_iff h1).1 hk
      have e1 : (k + 1) * tr.bs = k * tr.bs + tr.bs := by ring
      have hl : (blk (tr.batch k)).n = min (min ((k + 1) * tr.bs) tr.data.length) w.n - k * tr.bs := by
        rw [hr, Loader.batch, length_batchAt]; omega
      refine ⟨⟨w.n, fun i => if k * tr.bs ≤ i ∧ i < min (min ((k + 1) * tr.bs) tr.data.length) w.n then
        w.f i + (blk (tr.batch k)).f (if (blk (tr.batch k)).n = 1 then 0 else i - k * tr.bs) else w.f i⟩, ?_, ?_, ?_⟩
      · rw [List.range_succ, List.foldlM_append, e]
        simp only [bind, Except.bind, List.foldlM_cons, List.foldlM_nil, s1, Bool.not_true, Bool.false_eq_true,
          if_false, Vec.addSlice]
        rw [if_pos (by simp only [bcast, Bool.or_eq_true, beq_iff_eq]; exact Or.inl hl)]
        rfl
      · exact hn
      · intro i hi
        have hm := mem_block_iff (b := k) h1 hi
        simp only [hn]
        by_cases h : i / tr.bs = k
        · have h' := hm.2 h
          have z : (if (blk (tr.batch k)).n = 1 then 0 else i - k * tr.bs) = i - k * tr.bs := by split <;> omega
          rw [if_pos h', z, if_pos (by omega : i / tr.bs < k + 1), hf i hi, if_neg (by omega)]
          congr 1
          apply hg
          rw [Loader.batch, getElem?_batchAt _ _ _ _ (by omega), show k * tr.bs + (i - k * tr.bs) = i by omega,
            List.getElem?_eq_getElem hi]
        · rw [if_neg (fun h' => h (hm.1 h')), hf i hi]
          by_cases h3 : i / tr.bs < k
          · rw [if_pos h3, if_pos (by omega)]
          · rw [if_neg h3, if_neg (by omega)]
  obtain ⟨v', e, hn, hf⟩ := key _ le_rfl
  exact ⟨v', e, hn, fun i hi => by rw [hf i hi]; exact if_pos (div_lt_numBatches h1 hi)⟩

end Verif
