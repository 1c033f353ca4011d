import Verif.KNN.DropModel
import Verif.KNN.Props

/-! # Helper lemmas for KNN-Shapley with loaders that drop the last batch -/

namespace Verif.KNN

open Equiv

variable {X L : Type}

lemma kept_lt_dvd (l : DLoader X) (h : l.kept < l.data.length) :
    l.drop = true ∧ l.nb = l.data.length / l.bs ∧ l.kept = l.bs * (l.data.length / l.bs) ∧ ¬ l.bs ∣ l.data.length := by
  have hd : l.drop = true := by
    by_contra hd
    simp [DLoader.kept, hd] at h
  refine ⟨hd, by simp [DLoader.nb, hd], by simp [DLoader.kept, hd], ?_⟩
  intro hdv
  simp [DLoader.kept, hd, Nat.mul_div_cancel' hdv] at h

lemma nb_of_kept (l : DLoader X) (hbs : 0 < l.bs) (h : l.kept = l.data.length) : l.nb = numBatches l.bs l.data.length := by
  unfold DLoader.kept at h
  unfold DLoader.nb
  split
  · rename_i hd
    rw [if_pos hd] at h
    unfold numBatches
    obtain ⟨q, hq⟩ : l.bs ∣ l.data.length := ⟨_, h.symm⟩
    rw [hq, Nat.mul_div_cancel_left _ hbs]
    symm
    rw [Nat.div_eq_iff hbs]
    constructor
    · rw [Nat.mul_comm]; omega
    · exact (Nat.mul_comm _ _ ▸ le_rfl)
  · rfl

/-- One pass over the train batches when the loader drops samples: their labels are appended every time. -/
lemma pass_dropped (lab : X → L) (xs : List X) (bs N : ℕ) (hN : ¬ bs ∣ N) (k : ℕ) (hk : k * bs ≤ xs.length)
    (l : List L) (hl : bs ∣ l.length) :
    (List.range k).foldl (fun l b => if l.length ≠ N then l ++ (batchAt bs xs b).map lab else l) l
      = l ++ (xs.take (k * bs)).map lab := by
  induction k with
  | zero => simp
  | succ k ih =>
    have hk' : k * bs ≤ xs.length := le_trans (Nat.mul_le_mul_right _ (by omega)) hk
    rw [List.range_succ, List.foldl_append, ih hk']
    simp only [List.foldl_cons, List.foldl_nil]
    have hlen : (l ++ (xs.take (k * bs)).map lab).length = l.length + k * bs := by
      simp [hk']
    rw [if_pos (by rw [hlen]; intro e; exact hN (e ▸ Nat.dvd_add hl (Dvd.intro_left _ rfl))), List.append_assoc, ← List.map_append]
    congr 2
    rw [show (k + 1) * bs = k * bs + bs by ring, List.take_add, batchAt]

lemma cyclic_getElem? (l : List L) (T i : ℕ) (hi : i < T * l.length) :
    ((List.replicate T l).flatten)[i]? = l[i % l.length]? := by
  induction T generalizing i with
  | zero => simp at hi
  | succ T ih =>
    rw [List.replicate_succ, List.flatten_cons]
    by_cases h : i < l.length
    · rw [List.getElem?_append_left h, Nat.mod_eq_of_lt h]
    · rw [List.getElem?_append_right (by omega), ih (i - l.length) (by rw [Nat.succ_mul] at hi; omega),
        ← Nat.mod_eq_sub_mod (by omega)]

/-- The training labels collected after `k` test batches. -/
def trlAfter (lab : X → L) (train : DLoader X) (o : Option (List L)) (k : ℕ) : List L :=
  match o with
  | some l => l
  | none => if train.kept = train.data.length then (if k = 0 then [] else train.data.map lab)
      else (List.replicate k ((train.data.take train.kept).map lab)).flatten

lemma trl_pass (lab : X → L) (train : DLoader X) (hbs : 0 < train.bs) (o : Option (List L))
    (ho : ∀ l, o = some l → l.length = train.data.length) (k : ℕ) :
    (List.range train.nb).foldl (fun l b => if l.length ≠ train.data.length then l ++ (batchAt train.bs train.data b).map lab else l)
      (trlAfter lab train o k) = trlAfter lab train o (k + 1) := by
  cases o with
  | some l => exact labels_loop_full lab train.data train.bs _ _ (ho _ rfl)
  | none =>
    by_cases hk : train.kept = train.data.length
    · rw [nb_of_kept train hbs hk]
      simp only [trlAfter, if_pos hk, Nat.add_one_ne_zero, if_false]
      have := labels_pass lab train.data train.bs hbs none (by simp) (if k = 0 then [] else train.data.map lab)
        (by by_cases h0 : k = 0 <;> simp [h0, finalLabels])
      simpa [finalLabels] using this
    · obtain ⟨hd, hnb, hkept, hndvd⟩ := kept_lt_dvd train (lt_of_le_of_ne train.kept_le hk)
      simp only [trlAfter, if_neg hk]
      have hlen : ((train.data.take train.kept).map lab).length = train.kept := by simp [train.kept_le]
      rw [hnb, pass_dropped lab train.data train.bs train.data.length hndvd _ (Nat.div_mul_le_self _ _)]
      · rw [List.replicate_succ', List.flatten_append, Nat.mul_comm, ← hkept]
        simp
      · rw [List.length_flatten, List.map_replicate, List.sum_replicate, hlen, hkept]
        exact Dvd.dvd.mul_left (Dvd.intro _ rfl) _

lemma tel_loop (lab : X → L) (test : DLoader X) (hbs : 0 < test.bs) (p : Option (List L))
    (hp : ∀ l, p = some l → l.length = test.data.length) :
    (List.range test.nb).foldl (fun l b => if l.length ≠ test.data.length then l ++ (batchAt test.bs test.data b).map lab else l)
      (p.getD []) = p.getD ((test.data.take test.kept).map lab) := by
  cases p with
  | some l => exact labels_loop_full lab test.data test.bs _ _ (hp _ rfl)
  | none =>
    simp only [Option.getD_none]
    rw [labels_loop lab test.data test.bs hbs _ (test.nb_le hbs), List.map_take]
    by_cases hk : test.kept = test.data.length
    · rw [nb_of_kept test hbs hk, hk, List.take_of_length_le, List.take_of_length_le]
      · simp
      · simpa using take_numBatches_mul test.bs test.data.length hbs
    · obtain ⟨-, hnb, hkept, -⟩ := kept_lt_dvd test (lt_of_le_of_ne test.kept_le hk)
      rw [hnb, hkept, Nat.mul_comm]

lemma fitD_spec (dist : X → X → ℚ) (lab : X → L) (train test : DLoader X) (hTr : 0 < train.bs) (hTe : 0 < test.bs)
    (o p : Option (List L)) (ho : ∀ l, o = some l → l.length = train.data.length)
    (hp : ∀ l, p = some l → l.length = test.data.length) :
    ∃ st, fitD dist lab train test ⟨Mat.zeros test.data.length train.data.length, o.getD [], p.getD []⟩ = some st ∧
      st.trl = trlAfter lab train o test.nb ∧ st.tel = p.getD ((test.data.take test.kept).map lab) ∧
      ∀ i (hi : i < test.data.length) j (hj : j < train.data.length),
        st.dist.f i j = if i < test.kept ∧ j < train.kept then dist test.data[i] train.data[j] else 0 := by
  have hD : ∀ k, k ≤ test.nb → ∃ st : Fit L, (List.range k).foldlM (fun st tb => do
      let st ← fitTrainD dist lab train test tb st
      some (⟨st.dist, st.trl, if st.tel.length ≠ test.data.length then st.tel ++ (test.batch tb).map lab else st.tel⟩ : Fit L))
        ⟨Mat.zeros test.data.length train.data.length, o.getD [], p.getD []⟩ = some st ∧
      st.dist.r = test.data.length ∧ st.dist.c = train.data.length ∧
      st.trl = trlAfter lab train o k ∧
      st.tel = (List.range k).foldl (fun l b => if l.length ≠ test.data.length then l ++ (batchAt test.bs test.data b).map lab else l)
        (p.getD []) ∧
      ∀ i (hi : i < test.data.length) j (hj : j < train.data.length),
        st.dist.f i j = if i / test.bs < k ∧ j < train.kept then dist test.data[i] train.data[j] else 0 := by
    intro k
    induction k with
    | zero =>
      intro _
      refine ⟨_, rfl, rfl, rfl, ?_, rfl, by simp [Mat.zeros]⟩
      cases o <;> simp [trlAfter]
    | succ k ih =>
      intro hk
      obtain ⟨st, h1, hr, hc, htr, htel, hf⟩ := ih (by omega)
      have hkn : k * test.bs < test.data.length := (lt_numBatches_iff hTe).1 (lt_of_lt_of_le hk (test.nb_le hTe))
      obtain ⟨D', hD1, hDr, hDc, hDf⟩ := blockLoop_inner test.data.length train.data.length test.bs train.bs k hTe hTr hkn
        (fun c => distBlock dist (batchAt test.bs test.data k) (batchAt train.bs train.data c))
        (fun c _ => by simp [distBlock, length_batchAt]) (fun c _ => by simp [distBlock, length_batchAt])
        train.nb (train.nb_le hTr) st.dist hr hc
      have hft : fitTrainD dist lab train test k st = some ⟨D', trlAfter lab train o (k + 1), st.tel⟩ := by
        unfold fitTrainD DLoader.batch
        rw [fitTrain_split dist lab train.data train.bs test.data.length test.bs k _ _ st D' hD1, htr, trl_pass lab train hTr o ho]
      refine ⟨⟨D', trlAfter lab train o (k + 1),
        if st.tel.length ≠ test.data.length then st.tel ++ (test.batch k).map lab else st.tel⟩, ?_, hDr, hDc, rfl, ?_, ?_⟩
      · rw [List.range_succ, List.foldlM_append, h1]
        simp [hft]
      · rw [List.range_succ, List.foldl_append, ← htel]; simp [DLoader.batch]
      · intro i hi j hj
        rw [hDf i hi j hj, hf i hi j hj]
        simp only [train.div_lt_nb hTr hj]
        by_cases e1 : i / test.bs = k
        · subst e1
          simp only [true_and, lt_irrefl, false_and, if_false, Nat.lt_succ_self, zero_add]
          rw [distBlock_val dist train.data test.data train.bs test.bs i j hTr hTe hi hj]
        · by_cases e3 : i / test.bs < k
          · have : i / test.bs < k + 1 := by omega
            simp [e1, e3, this]
          · have : ¬ i / test.bs < k + 1 := by omega
            simp [e1, e3, this]
  obtain ⟨st, h1, _, _, htr, htel, hf⟩ := hD test.nb le_rfl
  refine ⟨st, h1, htr, by rw [htel, tel_loop lab test hTe p hp], ?_⟩
  intro i hi j hj
  rw [hf i hi j hj]
  simp only [test.div_lt_nb hTe hi]

lemma trlAfter_length (lab : X → L) (train : DLoader X) (o : Option (List L))
    (ho : ∀ l, o = some l → l.length = train.data.length) (T : ℕ) (hN : 0 < train.data.length) :
    (trlAfter lab train o T).length < train.data.length ↔ o = none ∧ T * train.kept < train.data.length := by
  cases o with
  | some l => simp [trlAfter, ho l rfl]
  | none =>
    by_cases hk : train.kept = train.data.length
    · simp only [trlAfter, hk]
      by_cases h0 : T = 0
      · simp [h0, hN]
      · have : train.data.length ≤ T * train.data.length := Nat.le_mul_of_pos_left _ (by omega)
        simp [h0]
        omega
    · have hlen : ((train.data.take train.kept).map lab).length = train.kept := by simp [train.kept_le]
      simp only [trlAfter, if_neg hk]
      rw [List.length_flatten, List.map_replicate, List.sum_replicate, hlen]
      simp

lemma trlAfter_get (lab : X → L) (train : DLoader X) (T i : ℕ) (hi : i < train.data.length)
    (hT : train.data.length ≤ T * train.kept) :
    (trlAfter lab train none T)[i]? = (train.data[i % train.kept]?).map lab := by
  by_cases hk : train.kept = train.data.length
  · have : T ≠ 0 := by rintro rfl; omega
    simp [trlAfter, hk, this, Nat.mod_eq_of_lt hi]
  · have hlen : ((train.data.take train.kept).map lab).length = train.kept := by simp [train.kept_le]
    have hpos : 0 < train.kept := by
      rcases Nat.eq_zero_or_pos train.kept with h | h
      · rw [h] at hT; omega
      · exact h
    simp only [trlAfter, if_neg hk]
    rw [cyclic_getElem? _ _ _ (by rw [hlen]; omega), hlen]
    simp [Nat.mod_lt _ hpos]

end Verif.KNN
