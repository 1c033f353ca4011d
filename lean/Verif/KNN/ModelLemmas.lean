import Verif.KNN.Model
import Verif.KNN.Lemmas
import Verif.Base.Blocks
import Mathlib.Data.Nat.Cast.Order.Field
import Mathlib.Tactic.Tauto

/-! # Helper lemmas linking the KNN model and the specification -/

namespace Verif.KNN

open Finset Equiv

lemma foldl_row (N K : ℕ) (nn : ℕ → ℕ) (m : ℕ → Bool) (hinj : ∀ a < N, ∀ b < N, nn a = nn b → a = b)
    (g : ℕ → ℚ)
    (hg : ∀ i, i + 1 < N → g i = g (i + 1) + (ind (m (nn i)) - ind (m (nn (i + 1)))) / K * (min K (i + 1) : ℕ) / (i + 1 : ℕ)) :
    ∀ k, k + 1 ≤ N → ∀ s : ℕ → ℚ, (∀ i, k ≤ i → i < N → s (nn i) = g i) →
      ∀ i < N, ((List.range k).reverse.foldl (stepRow K nn m) s) (nn i) = g i := by
  intro k
  induction k with
  | zero => intro _ s hs i hi; exact hs i (Nat.zero_le _) hi
  | succ k ih =>
    intro hk s hs i hi
    rw [List.range_succ, List.reverse_append]
    simp only [List.reverse_cons, List.reverse_nil, List.nil_append, List.cons_append, List.foldl_cons]
    apply ih (by omega) _ _ i hi
    intro i' h1 h2
    unfold stepRow
    rcases eq_or_ne i' k with rfl | h
    · rw [Function.update_self, hs _ le_rfl (by omega), ← hg _ (by omega)]
    · rw [Function.update_of_ne, hs _ (by omega) h2]
      intro e; exact h (hinj _ h2 _ (by omega) e)

lemma knnRow_eq (N K : ℕ) (hN : 0 < N) (nn : ℕ → ℕ) (m : ℕ → Bool) (hinj : ∀ a < N, ∀ b < N, nn a = nn b → a = b)
    (g : ℕ → ℚ) (hlast : g (N - 1) = ind (m (nn (N - 1))) / N)
    (hg : ∀ i, i + 1 < N → g i = g (i + 1) + (ind (m (nn i)) - ind (m (nn (i + 1)))) / K * (min K (i + 1) : ℕ) / (i + 1 : ℕ)) :
    ∀ i < N, knnRow N K nn m (nn i) = g i := by
  intro i hi
  unfold knnRow
  apply foldl_row N K nn m hinj g hg (N - 1) (by omega) _ _ i hi
  intro i' h1 h2
  have : i' = N - 1 := by omega
  subst this
  rw [Function.update_self, hlast]

/-- Coefficient of the unit game of rank `k` in the Shapley value of rank `i`. -/
def coef (K k i : ℕ) : ℚ :=
  if k < i then 0
  else if k = i then (min K (k + 1) : ℕ) / ((k : ℚ) + 1)
  else ((if k < K then (1 : ℚ) else 0) - (min K (k + 1) : ℕ) / ((k : ℚ) + 1)) / (k : ℚ)

lemma shapley_rank {N : ℕ} (K : ℕ) (σ : Perm (Fin N)) (m : Fin N → Bool) (i : Fin N) :
    shapley (knnUtility K (fun a b => σ.symm a < σ.symm b) m) (σ i) =
      ∑ k : Fin N, ind (m (σ k)) / K * coef K k i := by
  rw [knnUtility_eq_sum, shapley_sum]
  apply Fintype.sum_equiv σ.symm
  intro a
  have hcard : ∀ a : Fin N, (univ.filter (fun j => σ.symm j < σ.symm a)).card = (σ.symm a : ℕ) := by
    intro a
    rw [← Fin.card_Iio (σ.symm a)]
    apply Finset.card_bij (fun j _ => σ.symm j)
    · intro j hj; simpa using hj
    · intro x _ y _ h; exact σ.symm.injective h
    · intro y hy; exact ⟨σ y, by simpa using hy, by simp⟩
  have hirr : ∀ a : Fin N, ¬ (σ.symm a < σ.symm a) := fun a => lt_irrefl _
  rw [Equiv.apply_symm_apply]
  unfold ind
  congr 1
  have hself := shapley_unit_self (fun a b : Fin N => σ.symm a < σ.symm b) hirr K a
  rw [hcard] at hself
  unfold coef
  rcases lt_trichotomy (σ.symm a) i with h | h | h
  · rw [if_pos (by exact_mod_cast h), shapley_unit_far]
    · intro e; rw [← e] at h; simp at h
    · simpa using h.le
  · have : σ i = a := by rw [← h]; simp
    rw [this, hself, if_neg (by rw [h]; simp), if_pos (by rw [h])]
  · rw [if_neg (by simpa using (Fin.lt_def.1 h).le), if_neg (by simpa using (Fin.lt_def.1 h).ne')]
    rw [shapley_unit_close _ hirr K a (σ i) (by simpa using h), hself, hcard]

/-- Closed form by rank, plus the correction that the code's starting value introduces when `K > N`. -/
def gVal (N K : ℕ) (mm : ℕ → Bool) (i : ℕ) : ℚ :=
  (∑ k ∈ range N, ind (mm k) / K * coef K k i) + ind (mm (N - 1)) * (1 / N - (min K N : ℕ) / ((K : ℚ) * N))

lemma gVal_last (N K : ℕ) (hN : 0 < N) (hK : 0 < K) (mm : ℕ → Bool) : gVal N K mm (N - 1) = ind (mm (N - 1)) / N := by
  unfold gVal
  have : ∑ k ∈ range N, ind (mm k) / K * coef K k (N - 1) = ind (mm (N - 1)) / K * coef K (N - 1) (N - 1) := by
    apply Finset.sum_eq_single_of_mem _ (by simp; omega)
    intro k hk hne
    have hk' : k < N := by simpa using hk
    unfold coef
    rw [if_pos (by omega), mul_zero]
  rw [this]
  have e : coef K (N - 1) (N - 1) = (min K N : ℕ) / (N : ℚ) := by
    unfold coef
    rw [if_neg (lt_irrefl _), if_pos rfl]
    obtain ⟨n, rfl⟩ : ∃ n, N = n + 1 := ⟨N - 1, by omega⟩
    simp
  rw [e]
  have hK' : (K : ℚ) ≠ 0 := by positivity
  have hN' : (N : ℚ) ≠ 0 := by positivity
  field_simp
  ring

lemma coef_diff (K k i : ℕ) : coef K k i - coef K k (i + 1) =
    if k = i then (min K (i + 1) : ℕ) / ((i : ℚ) + 1)
    else if k = i + 1 then - ((min K (i + 1) : ℕ) / ((i : ℚ) + 1)) else 0 := by
  unfold coef
  rcases lt_trichotomy k i with h | h | h
  · simp [h, h.ne, show k < i + 1 by omega, show k ≠ i + 1 by omega]
  · subst h
    simp
  · rcases eq_or_ne k (i + 1) with rfl | h2
    · simp only [show ¬ (i + 1 < i) by omega, show ¬ (i + 1 = i) by omega, if_false, lt_irrefl, if_true]
      have hi : ((i : ℚ) + 1) ≠ 0 := by positivity
      have hi2 : ((i : ℚ) + 1 + 1) ≠ 0 := by positivity
      push_cast
      by_cases hK : i + 1 < K
      · have e1 : min (K : ℚ) ((i : ℚ) + 1 + 1) = (i : ℚ) + 1 + 1 := min_eq_right (by exact_mod_cast hK)
        have e2 : min (K : ℚ) ((i : ℚ) + 1) = (i : ℚ) + 1 := min_eq_right (by exact_mod_cast hK.le)
        rw [e1, e2, if_pos hK]
        field_simp
        ring
      · have e1 : min (K : ℚ) ((i : ℚ) + 1 + 1) = K := min_eq_left (by exact_mod_cast (by omega : K ≤ i + 1 + 1))
        have e2 : min (K : ℚ) ((i : ℚ) + 1) = K := min_eq_left (by exact_mod_cast (by omega : K ≤ i + 1))
        rw [e1, e2, if_neg hK]
        field_simp
        ring
    · simp [show ¬ k < i by omega, show k ≠ i by omega, show ¬ (k < i + 1) by omega, h2]

lemma gVal_step (N K : ℕ) (mm : ℕ → Bool) (i : ℕ) (hi : i + 1 < N) :
    gVal N K mm i = gVal N K mm (i + 1) + (ind (mm i) - ind (mm (i + 1))) / K * (min K (i + 1) : ℕ) / (i + 1 : ℕ) := by
  rw [← sub_eq_iff_eq_add']
  unfold gVal
  rw [add_sub_add_right_eq_sub, ← Finset.sum_sub_distrib]
  have : ∀ k ∈ range N, ind (mm k) / K * coef K k i - ind (mm k) / K * coef K k (i + 1) =
      (if k = i then ind (mm k) / K * ((min K (i + 1) : ℕ) / ((i : ℚ) + 1)) else 0)
      + (if k = i + 1 then - (ind (mm k) / K * ((min K (i + 1) : ℕ) / ((i : ℚ) + 1))) else 0) := by
    intro k _
    rw [← mul_sub, coef_diff]
    rcases eq_or_ne k i with rfl | h1
    · simp
    · rcases eq_or_ne k (i + 1) with rfl | h2
      · simp
      · simp [h1, h2]
  rw [Finset.sum_congr rfl this, Finset.sum_add_distrib, Finset.sum_ite_eq' , Finset.sum_ite_eq',
    if_pos (by simp; omega), if_pos (by simp; omega)]
  push_cast
  ring

/-- Rank-level result for every `K ≥ 1`. -/
lemma knnRow_eq_shapley {N : ℕ} (K : ℕ) (hK : 0 < K) (σ : Perm (Fin N)) (nn : ℕ → ℕ) (hnn : ∀ k : Fin N, nn k = σ k)
    (m : ℕ → Bool) (i : Fin N) :
    knnRow N K nn m i = shapley (knnUtility K (fun a b => σ.symm a < σ.symm b) (fun a => m a)) i
      + ind (m (nn (N - 1))) * (1 / N - (min K N : ℕ) / ((K : ℚ) * N)) := by
  have hN : 0 < N := i.pos
  have hinj : ∀ a < N, ∀ b < N, nn a = nn b → a = b := by
    intro a ha b hb h
    have h1 := hnn ⟨a, ha⟩
    have h2 := hnn ⟨b, hb⟩
    simp only at h1 h2
    rw [h1, h2] at h
    have := σ.injective (Fin.ext h)
    simpa using this
  have key := knnRow_eq N K hN nn m hinj (gVal N K (fun k => m (nn k))) (gVal_last N K hN hK _)
    (fun i hi => gVal_step N K _ i hi) (σ.symm i) (σ.symm i).isLt
  rw [hnn, Equiv.apply_symm_apply] at key
  rw [key]
  have hs := shapley_rank K σ (fun a => m a) (σ.symm i)
  rw [Equiv.apply_symm_apply] at hs
  rw [hs]
  unfold gVal
  congr 1
  rw [← Fin.sum_univ_eq_sum_range (fun k => ind (m (nn k)) / K * coef K k (σ.symm i)) N]
  refine Finset.sum_congr rfl (fun k _ => ?_)
  rw [hnn]

/-! ### The fitting loop -/

variable {X L : Type}

lemma fitTrain_split (dist : X → X → ℚ) (lab : X → L) (train : List X) (bsTr nTe bsTe tb : ℕ) (testBatch : List X)
    (k : ℕ) (st : Fit L) (D' : Mat ℚ)
    (hD : (List.range k).foldlM (fun (D : Mat ℚ) b => D.addBlock (tb * bsTe) (min ((tb + 1) * bsTe) nTe)
        (b * bsTr) (min ((b + 1) * bsTr) train.length) (distBlock dist testBatch (batchAt bsTr train b))) st.dist = some D') :
    (List.range k).foldlM (fun (st : Fit L) b => do
      let batch := batchAt bsTr train b
      let D ← st.dist.addBlock (tb * bsTe) (min ((tb + 1) * bsTe) nTe)
        (b * bsTr) (min ((b + 1) * bsTr) train.length) (distBlock dist testBatch batch)
      some ⟨D, if st.trl.length ≠ train.length then st.trl ++ batch.map lab else st.trl, st.tel⟩) st
    = some ⟨D', (List.range k).foldl (fun l b => if l.length ≠ train.length then l ++ (batchAt bsTr train b).map lab else l) st.trl,
        st.tel⟩ := by
  induction k generalizing D' with
  | zero => simp at hD; subst hD; simp
  | succ k ih =>
    rw [List.range_succ, List.foldlM_append] at hD ⊢
    rw [Option.bind_eq_bind, Option.bind_eq_some_iff] at hD
    obtain ⟨D1, h1, h2⟩ := hD
    rw [ih D1 h1]
    simp only [List.foldlM_cons, List.foldlM_nil, Option.bind_eq_bind, Option.pure_def, Option.bind_fun_some] at h2
    simp [List.foldl_append, h2]

lemma labels_loop (lab : X → L) (train : List X) (bs : ℕ) (hbs : 0 < bs) (k : ℕ) (hk : k ≤ numBatches bs train.length) :
    (List.range k).foldl (fun l b => if l.length ≠ train.length then l ++ (batchAt bs train b).map lab else l) ([] : List L)
      = (train.map lab).take (k * bs) := by
  induction k with
  | zero => simp
  | succ k ih =>
    have hkm : k * bs < train.length := (lt_numBatches_iff hbs).1 (by omega)
    rw [List.range_succ, List.foldl_append, ih (by omega)]
    simp only [List.foldl_cons, List.foldl_nil]
    rw [if_pos (by simp; omega)]
    rw [show (k + 1) * bs = k * bs + bs by ring, List.take_add, batchAt, List.map_take, List.map_drop]

lemma labels_loop_full (lab : X → L) (train : List X) (bs : ℕ) (k : ℕ) (l : List L) (hl : l.length = train.length) :
    (List.range k).foldl (fun l b => if l.length ≠ train.length then l ++ (batchAt bs train b).map lab else l) l = l := by
  induction k with
  | zero => simp
  | succ k ih =>
    rw [List.range_succ, List.foldl_append, ih]
    simp [hl]

lemma take_numBatches_mul (bs n : ℕ) (hbs : 0 < bs) : n ≤ numBatches bs n * bs := by
  by_contra h
  push Not at h
  have := (lt_numBatches_iff (n := n) (b := numBatches bs n) hbs).2 h
  omega

/-- What the list of labels is after the loop, given the optional user-supplied labels. -/
def finalLabels (lab : X → L) (xs : List X) (o : Option (List L)) : List L := o.getD (xs.map lab)

lemma labels_pass (lab : X → L) (train : List X) (bs : ℕ) (hbs : 0 < bs) (o : Option (List L))
    (ho : ∀ l, o = some l → l.length = train.length) (l : List L) (hl : l = o.getD [] ∨ l = finalLabels lab train o) :
    (List.range (numBatches bs train.length)).foldl
      (fun l b => if l.length ≠ train.length then l ++ (batchAt bs train b).map lab else l) l = finalLabels lab train o := by
  cases o with
  | some l' =>
    have : l = l' := by rcases hl with h | h <;> simpa [finalLabels] using h
    subst this
    exact labels_loop_full lab train bs _ _ (ho _ rfl)
  | none =>
    rcases hl with h | h
    · simp only [Option.getD_none] at h
      subst h
      rw [labels_loop lab train bs hbs _ le_rfl]
      apply List.take_of_length_le
      simpa using take_numBatches_mul bs train.length hbs
    · subst h
      exact labels_loop_full lab train bs _ _ (by simp [finalLabels])

lemma distBlock_val (dist : X → X → ℚ) (train test : List X) (bsTr bsTe i j : ℕ) (hTr : 0 < bsTr) (hTe : 0 < bsTe)
    (hi : i < test.length) (hj : j < train.length) :
    (distBlock dist (batchAt bsTe test (i / bsTe)) (batchAt bsTr train (j / bsTr))).f (i - i / bsTe * bsTe) (j - j / bsTr * bsTr)
      = dist test[i] train[j] := by
  have e1 : i / bsTe * bsTe + (i - i / bsTe * bsTe) = i := by have := Nat.div_mul_le_self i bsTe; omega
  have e2 : j / bsTr * bsTr + (j - j / bsTr * bsTr) = j := by have := Nat.div_mul_le_self j bsTr; omega
  have l1 : i - i / bsTe * bsTe < bsTe := by have := Nat.lt_div_mul_add hTe (a := i); omega
  have l2 : j - j / bsTr * bsTr < bsTr := by have := Nat.lt_div_mul_add hTr (a := j); omega
  unfold distBlock
  simp only [getElem?_batchAt _ _ _ _ l1, getElem?_batchAt _ _ _ _ l2, e1, e2]
  simp [hi, hj]

lemma fit_spec (dist : X → X → ℚ) (lab : X → L) (train test : List X) (bsTr bsTe : ℕ) (hTr : 0 < bsTr) (hTe : 0 < bsTe)
    (o p : Option (List L)) (ho : ∀ l, o = some l → l.length = train.length) (hp : ∀ l, p = some l → l.length = test.length) :
    ∃ st, fit dist lab train test bsTr bsTe ⟨Mat.zeros test.length train.length, o.getD [], p.getD []⟩ = some st ∧
      (0 < test.length → st.trl = finalLabels lab train o) ∧ st.tel = finalLabels lab test p ∧
      ∀ i (hi : i < test.length) j (hj : j < train.length), st.dist.f i j = dist test[i] train[j] := by
  -- the distance matrix on its own
  have hD : ∀ k, k ≤ numBatches bsTe test.length → ∃ st : Fit L, (List.range k).foldlM (fun st tb => do
      let testBatch := batchAt bsTe test tb
      let st ← fitTrain dist lab train bsTr test.length bsTe tb testBatch st
      some (⟨st.dist, st.trl, if st.tel.length ≠ test.length then st.tel ++ testBatch.map lab else st.tel⟩ : Fit L))
        ⟨Mat.zeros test.length train.length, o.getD [], p.getD []⟩ = some st ∧
      st.dist.r = test.length ∧ st.dist.c = train.length ∧
      (st.trl = o.getD [] ∨ st.trl = finalLabels lab train o) ∧ (0 < k → st.trl = finalLabels lab train o) ∧
      st.tel = (List.range k).foldl (fun l b => if l.length ≠ test.length then l ++ (batchAt bsTe test b).map lab else l) (p.getD []) ∧
      ∀ i (hi : i < test.length) j (hj : j < train.length),
        st.dist.f i j = if i / bsTe < k then dist test[i] train[j] else 0 := by
    intro k
    induction k with
    | zero => intro _; exact ⟨_, rfl, rfl, rfl, Or.inl rfl, by simp, rfl, by simp [Mat.zeros]⟩
    | succ k ih =>
      intro hk
      obtain ⟨st, h1, hr, hc, htr, _, htel, hf⟩ := ih (by omega)
      have hkn : k * bsTe < test.length := (lt_numBatches_iff hTe).1 (by omega)
      obtain ⟨D', hD1, hDr, hDc, hDf⟩ := blockLoop_inner test.length train.length bsTe bsTr k hTe hTr hkn
        (fun c => distBlock dist (batchAt bsTe test k) (batchAt bsTr train c))
        (fun c _ => by simp [distBlock, length_batchAt]) (fun c _ => by simp [distBlock, length_batchAt])
        (numBatches bsTr train.length) le_rfl st.dist hr hc
      have hft : fitTrain dist lab train bsTr test.length bsTe k (batchAt bsTe test k) st
          = some ⟨D', finalLabels lab train o, st.tel⟩ := by
        unfold fitTrain
        rw [fitTrain_split dist lab train bsTr test.length bsTe k _ _ st D' hD1, labels_pass lab train bsTr hTr o ho _ htr]
      refine ⟨⟨D', finalLabels lab train o,
        if st.tel.length ≠ test.length then st.tel ++ (batchAt bsTe test k).map lab else st.tel⟩, ?_, hDr, hDc,
        Or.inr rfl, fun _ => rfl, ?_, ?_⟩
      · rw [List.range_succ, List.foldlM_append, h1]
        simp [hft]
      · rw [List.range_succ, List.foldl_append, ← htel]; simp
      · intro i hi j hj
        rw [hDf i hi j hj, hf i hi j hj]
        have hj' := div_lt_numBatches hTr hj
        by_cases e1 : i / bsTe = k
        · subst e1
          simp only [hj', and_self, if_true, lt_irrefl, if_false, Nat.lt_succ_self, zero_add]
          exact distBlock_val dist train test bsTr bsTe i j hTr hTe hi hj
        · by_cases e3 : i / bsTe < k
          · rw [if_neg (by tauto), if_pos e3, if_pos (by omega)]
          · rw [if_neg (by tauto), if_neg e3, if_neg (by omega)]
  obtain ⟨st, h1, _, _, _, htr, htel, hf⟩ := hD (numBatches bsTe test.length) le_rfl
  refine ⟨st, h1, ?_, ?_, ?_⟩
  · intro hpos
    apply htr
    exact lt_of_le_of_lt (Nat.zero_le _) (div_lt_numBatches hTe hpos)
  · rw [htel, labels_pass lab test bsTe hTe p hp _ (Or.inl rfl)]
  · intro i hi j hj
    rw [hf i hi j hj, if_pos (div_lt_numBatches hTe hi)]

end Verif.KNN
