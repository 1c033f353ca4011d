import Verif.EKFAC.Model
import Verif.Base.Blocks
import Mathlib.Data.Rat.Defs
import Mathlib.Algebra.CharZero.Defs
import Mathlib.Tactic.FieldSimp
import Mathlib.Tactic.NormNum
import Mathlib.Tactic.FinCases
import Mathlib.Algebra.Field.Rat

/-! # C19, C20: EK-FAC running statistics and the random batch iterator -/

namespace Verif.EKFAC

open Matrix

/-! ## C20 -/

/-- **C20.** For every permutation of the samples and every batch size: the iterator raises `ZeroDivisionError` exactly when there are
no samples or the batch size is zero; otherwise it yields every index exactly once, every batch except possibly the last has size
`min batchSize n`, and the last one is not empty. -/
theorem C20_random_batches (n bs : Nat) (perm : List Nat) (hp : perm.Perm (List.range n)) :
    (n = 0 ∨ bs = 0 → randomBatches perm n bs = .error .zeroDivisionError) ∧
    (0 < n → 0 < bs → ∃ out, randomBatches perm n bs = .ok out ∧ out.flatten.Perm (List.range n) ∧
      (∀ i, (h : i + 1 < out.length) → (out[i]).length = min bs n) ∧
      (∀ b ∈ out, b ≠ [] ∧ b.length ≤ min bs n)) := by
  have hlen : perm.length = n := by simpa using hp.length_eq
  constructor
  · rintro (rfl | rfl)
    · have : (if bs > 0 then 0 else bs) = 0 := by split <;> omega
      simp only [randomBatches, this, if_true]
    · simp [randomBatches]
  · intro hn hb
    have hbs : (if bs > n then n else bs) = min bs n := by split <;> omega
    set m := min bs n with hm
    have hmpos : 0 < m := by omega
    have hslice : ∀ i, (perm.take (min n ((i + 1) * m))).drop (i * m) = batchAt m perm i := by
      intro i
      unfold batchAt
      rw [List.drop_take]
      by_cases h : (i + 1) * m ≤ n
      · rw [min_eq_right h]
        congr 1
        rw [Nat.add_mul, Nat.one_mul]; omega
      · rw [min_eq_left (by omega)]
        rw [List.take_of_length_le (by simp [hlen]), List.take_of_length_le]
        simp only [List.length_drop, hlen]
        rw [Nat.add_mul, Nat.one_mul] at h
        omega
    have hout : randomBatches perm n bs = .ok (batches m perm) := by
      simp only [randomBatches, hbs, if_neg hmpos.ne', hslice, batches, numBatches, hlen]
    refine ⟨_, hout, ?_, ?_, ?_⟩
    · rw [flatten_batches m hmpos]; exact hp
    · intro i h
      simp only [batches, List.getElem_map, List.getElem_range]
      rw [length_batches] at h
      have := (lt_numBatches_iff hmpos).1 h
      rw [length_batchAt, hlen]
      rw [hlen] at this
      rw [Nat.add_mul, Nat.one_mul] at this
      omega
    · intro b hb
      simp only [batches, List.mem_map, List.mem_range] at hb
      obtain ⟨i, hi, rfl⟩ := hb
      have := (lt_numBatches_iff hmpos).1 hi
      have hl := length_batchAt m perm i
      refine ⟨?_, by omega⟩
      intro h0
      rw [h0] at hl
      simp only [List.length_nil] at hl
      omega

example : randomBatches [2, 0, 4, 1, 3] 5 2 = .ok [[2, 0], [4, 1], [3]] := by decide
example : randomBatches [1, 0] 2 7 = .ok [[1, 0]] := by decide

/-! ## C19 -/

variable {R : Type} [Field R]

/-- Specification: the average of `x xᵀ` over a pool of samples. -/
def pooled (xs : List (Nat → R)) (count : Nat) : Cov R := fun i j => (xs.map (fun x => x i * x j)).sum / (count : R)

lemma covLayer_two (total batch : Nat) (d : Dict (Cov R × Cov R)) (s : Option (List (Nat → R))) (l : LayerRec R) (h : l.ndim = 2) :
    covLayer total batch (d, s) l
      = .ok (fun k => if k = l.name then some (covNew total batch (d l.name) l.a l.ds) else d k, some l.a) := by
  simp [covLayer, h, pure, Except.pure]

lemma cov_fold (total batch : Nat) (cache : List (LayerRec R)) (h2 : ∀ l ∈ cache, l.ndim = 2) (hnd : (cache.map (·.name)).Nodup)
    (d : Dict (Cov R × Cov R)) (s : Option (List (Nat → R))) :
    ∃ d' s', cache.foldlM (covLayer total batch) (d, s) = .ok (d', s') ∧ (∀ nm ∉ cache.map (·.name), d' nm = d nm) ∧
      ∀ l ∈ cache, d' l.name = some (covNew total batch (d l.name) l.a l.ds) := by
  induction cache generalizing d s with
  | nil => exact ⟨d, s, rfl, by simp, by simp⟩
  | cons c cs ih =>
    simp only [List.map_cons, List.nodup_cons] at hnd
    obtain ⟨d', s', h1, h3, h4⟩ := ih (fun l hl => h2 l (by simp [hl])) hnd.2
      (fun k => if k = c.name then some (covNew total batch (d c.name) c.a c.ds) else d k) (some c.a)
    refine ⟨d', s', ?_, ?_, ?_⟩
    · rw [List.foldlM_cons, covLayer_two _ _ _ _ _ (h2 c (by simp))]
      exact h1
    · intro nm hnm
      simp only [List.map_cons, List.mem_cons, not_or] at hnm
      rw [h3 nm hnm.2, if_neg hnm.1]
    · intro l hl
      rcases List.mem_cons.1 hl with rfl | hl'
      · rw [h3 _ hnd.1, if_pos rfl]
      · rw [h4 l hl', if_neg]
        intro he
        exact hnd.1 (List.mem_map.2 ⟨l, hl', he⟩)

lemma mix_pooled [CharZero R] (xs ys : List (Nat → R)) (total batch : Nat) (hb : 0 < batch) :
    mix total batch (pooled xs total) (batchCov ys batch) = pooled (xs ++ ys) (total + batch) ∨ total = 0 ∧ xs ≠ [] := by
  by_cases ht : total = 0
  · by_cases hx : xs = []
    · left
      subst hx ht
      funext i j
      have : (batch : R) ≠ 0 := by exact_mod_cast hb.ne'
      simp [mix, pooled, batchCov, this]
    · exact Or.inr ⟨ht, hx⟩
  · left
    funext i j
    have h1 : (batch : R) ≠ 0 := by exact_mod_cast hb.ne'
    have h2 : (total : R) ≠ 0 := by exact_mod_cast ht
    have h3 : (total : R) + (batch : R) ≠ 0 := by
      have : ((total + batch : Nat) : R) ≠ 0 := by
        rw [Nat.cast_ne_zero]; omega
      simpa using this
    simp only [mix, pooled, batchCov, List.map_append, List.sum_append, Nat.cast_add]
    field_simp

/-- **C19.** For every non-empty sequence of batches of positive sizes in which layer `nm` occurs once per batch (and the inputs of
all hooked layers are two-dimensional), the covariances estimated for `nm` are the averages of `a aᵀ` and `ds dsᵀ` over ALL samples
of the visited batches. -/
theorem C19_covariance_pooled [CharZero R] (bs : List (Batch R)) (maxIter : Option Nat) (nm : String) (rec : Batch R → LayerRec R)
    (hne : visited maxIter bs ≠ [])
    (hok : ∀ b ∈ visited maxIter bs, 0 < b.size ∧ (∀ l ∈ b.layers, l.ndim = 2) ∧ (b.layers.map (·.name)).Nodup ∧
      rec b ∈ b.layers ∧ (rec b).name = nm) :
    ∃ c, estimateCovariance bs maxIter = .ok c ∧
      c nm = some (pooled ((visited maxIter bs).flatMap (fun b => (rec b).a)) ((visited maxIter bs).map (·.size)).sum,
                   pooled ((visited maxIter bs).flatMap (fun b => (rec b).ds)) ((visited maxIter bs).map (·.size)).sum) := by
  have key : ∀ vs : List (Batch R), (∀ b ∈ vs, 0 < b.size ∧ (∀ l ∈ b.layers, l.ndim = 2) ∧ (b.layers.map (·.name)).Nodup ∧
      rec b ∈ b.layers ∧ (rec b).name = nm) →
      ∃ c, vs.foldlM (fun (st : Dict (Cov R × Cov R) × Nat) b => do
        let c ← updateCovariance st.1 b.layers st.2 b.size
        pure (c, st.2 + b.size)) ((fun _ => none), 0) = Except.ok (ε := Err) (c, (vs.map (·.size)).sum) ∧
        ((vs = [] ∧ c nm = none) ∨ (vs ≠ [] ∧ 0 < (vs.map (·.size)).sum ∧ c nm = some (
          pooled (vs.flatMap (fun b => (rec b).a)) (vs.map (·.size)).sum,
          pooled (vs.flatMap (fun b => (rec b).ds)) (vs.map (·.size)).sum))) := by
    intro vs
    induction vs using List.reverseRecOn with
    | nil => intro _; exact ⟨fun _ => none, rfl, Or.inl ⟨rfl, rfl⟩⟩
    | append_singleton vs b ih =>
      intro h
      obtain ⟨c, hc, hcases⟩ := ih (fun x hx => h x (by simp [hx]))
      obtain ⟨hs, h2, hnd, hm, hn⟩ := h b (by simp)
      obtain ⟨d', s', e1, _, e3⟩ := cov_fold (vs.map (·.size)).sum b.size b.layers h2 hnd c none
      have e3' := e3 _ hm
      rw [hn] at e3'
      refine ⟨d', ?_, Or.inr ⟨by simp, by simp; omega, ?_⟩⟩
      · rw [List.foldlM_append, hc]
        simp only [bind, Except.bind, List.foldlM_cons, List.foldlM_nil, updateCovariance, e1, pure, Except.pure,
          List.map_append, List.map_cons, List.map_nil, List.sum_append, List.sum_cons, List.sum_nil, Nat.add_zero]
      · rw [e3']
        rcases hcases with ⟨rfl, hcn⟩ | ⟨hvne, hpos, hcn⟩
        · rw [hcn]
          simp [covNew]
          exact ⟨rfl, rfl⟩
        · rw [hcn]
          simp only [covNew]
          have m1 := (mix_pooled (vs.flatMap (fun b => (rec b).a)) (rec b).a (vs.map (·.size)).sum b.size hs).resolve_right
            (fun h => by omega)
          have m2 := (mix_pooled (vs.flatMap (fun b => (rec b).ds)) (rec b).ds (vs.map (·.size)).sum b.size hs).resolve_right
            (fun h => by omega)
          rw [m1, m2]
          simp
  obtain ⟨c, hc, hcases⟩ := key _ hok
  rcases hcases with ⟨h, _⟩ | ⟨_, _, h⟩
  · exact absurd h hne
  · refine ⟨c, ?_, h⟩
    unfold estimateCovariance
    rw [hc]
    rfl

/-- **C19.** Consequence: two runs over the same samples, batched and ordered differently, estimate the same covariances. -/
theorem C19_covariance_batching_independent [CharZero R] (bs bs' : List (Batch R)) (nm : String) (rec : Batch R → LayerRec R)
    (hne : bs ≠ []) (hne' : bs' ≠ [])
    (hok : ∀ b ∈ bs ++ bs', 0 < b.size ∧ (∀ l ∈ b.layers, l.ndim = 2) ∧ (b.layers.map (·.name)).Nodup ∧
      rec b ∈ b.layers ∧ (rec b).name = nm ∧ (rec b).a.length = b.size)
    (ha : (bs.flatMap (fun b => (rec b).a)).Perm (bs'.flatMap (fun b => (rec b).a)))
    (hs : (bs.flatMap (fun b => (rec b).ds)).Perm (bs'.flatMap (fun b => (rec b).ds))) :
    ∃ c c', estimateCovariance bs none = .ok c ∧ estimateCovariance bs' none = .ok c' ∧ c nm = c' nm ∧ c nm ≠ none := by
  have hv : ∀ l : List (Batch R), visited none l = l := by
    intro l; cases l <;> simp [visited]
  obtain ⟨c, h1, h2⟩ := C19_covariance_pooled bs none nm rec (by rwa [hv]) (fun b hb => by
    obtain ⟨a1, a2, a3, a4, a5, _⟩ := hok b (by rw [hv] at hb; simp [hb]); exact ⟨a1, a2, a3, a4, a5⟩)
  obtain ⟨c', h1', h2'⟩ := C19_covariance_pooled bs' none nm rec (by rwa [hv]) (fun b hb => by
    obtain ⟨a1, a2, a3, a4, a5, _⟩ := hok b (by rw [hv] at hb; simp [hb]); exact ⟨a1, a2, a3, a4, a5⟩)
  refine ⟨c, c', h1, h1', ?_, by rw [h2]; simp⟩
  rw [h2, h2', hv, hv]
  have hsz : ∀ l : List (Batch R), (∀ b ∈ l, (rec b).a.length = b.size) →
      (l.map (·.size)).sum = (l.flatMap (fun b => (rec b).a)).length := by
    intro l hl
    induction l with
    | nil => rfl
    | cons b l ih => simp [ih (fun x hx => hl x (by simp [hx])), hl b (by simp)]
  have e : (bs.map (·.size)).sum = (bs'.map (·.size)).sum := by
    rw [hsz bs (fun b hb => (hok b (by simp [hb])).2.2.2.2.2), hsz bs' (fun b hb => (hok b (by simp [hb])).2.2.2.2.2), ha.length_eq]
  have p : ∀ (xs ys : List (Nat → R)) (n : Nat), xs.Perm ys → pooled xs n = pooled ys n := by
    intro xs ys n h
    funext i j
    simp only [pooled]
    rw [(h.map _).sum_eq]
  rw [e, p _ _ _ ha, p _ _ _ hs]

/-- **C19.** `max_iter = m ≥ 1` uses the first `m` batches; `max_iter = 0` uses ALL batches. -/
theorem C19_max_iter {α : Type} (bs : List α) : (∀ m, 0 < m → visited (some m) bs = bs.take m) ∧ visited (some 0) bs = bs ∧
    visited none bs = bs := by
  refine ⟨fun m hm => ?_, rfl, ?_⟩
  · obtain ⟨k, rfl⟩ := Nat.exists_eq_succ_of_ne_zero hm.ne'
    rfl
  · cases bs <;> simp [visited]

/-- **C19 (disagreement).** Sequence inputs (three-dimensional) are advertised but not handled: if the first hooked layer has an input
that is not two-dimensional, the update raises `UnboundLocalError`. -/
theorem C19_sequence_input_raises (cur : Dict (Cov R × Cov R)) (l : LayerRec R) (ls : List (LayerRec R)) (total batch : Nat)
    (h : l.ndim ≠ 2) : updateCovariance cur (l :: ls) total batch = .error .unboundLocalError := by
  unfold updateCovariance
  rw [List.foldlM_cons]
  have : covLayer total batch (cur, none) l = .error .unboundLocalError := by simp [covLayer, h]
  rw [this]
  rfl

/-- **C19 (disagreement).** If such a layer comes after a two-dimensional one, its input covariance is silently that of the PREVIOUS
layer's inputs; its own inputs are ignored. -/
theorem C19_sequence_input_stale (l l' : LayerRec R) (h2 : l.ndim = 2) (h3 : l'.ndim ≠ 2) (batch : Nat) :
    ∃ c, updateCovariance (fun _ => none) [l, l'] 0 batch = .ok c ∧
      (l.name ≠ l'.name → c l'.name = some (batchCov l.a batch, batchCov l'.ds batch)) := by
  refine ⟨fun k => if k = l'.name then some (covNew 0 batch
      (if l'.name = l.name then some (covNew 0 batch none l.a l.ds) else none) l.a l'.ds) else
      if k = l.name then some (covNew 0 batch none l.a l.ds) else none, ?_, ?_⟩
  · unfold updateCovariance
    rw [List.foldlM_cons, covLayer_two _ _ _ _ _ h2]
    simp [covLayer, h3, bind, Except.bind, pure, Except.pure]
  · intro hne
    simp [covNew, Ne.symm hne]

/-! Non-vacuity: two batches of sizes 2 and 1 of one layer. -/
example : ∃ c, estimateCovariance (R := ℚ) [⟨2, [⟨"fc", 2, [fun _ => 1, fun _ => 2], [fun _ => 1, fun _ => 0]⟩]⟩,
    ⟨1, [⟨"fc", 2, [fun _ => 4], [fun _ => 1]⟩]⟩] none = .ok c ∧ ((c "fc").map (fun p => p.1 0 0)) = some 7 := by
  obtain ⟨c, h1, h2⟩ := C19_covariance_pooled (R := ℚ) [⟨2, [⟨"fc", 2, [fun _ => 1, fun _ => 2], [fun _ => 1, fun _ => 0]⟩]⟩,
    ⟨1, [⟨"fc", 2, [fun _ => 4], [fun _ => 1]⟩]⟩] none "fc" (fun b => b.layers.headD ⟨"fc", 2, [], []⟩) (by simp [visited]) (by
      intro b hb
      simp [visited] at hb
      rcases hb with rfl | rfl <;> simp)
  refine ⟨c, h1, ?_⟩
  rw [h2]
  simp [visited, pooled]
  norm_num

/-! ### Lambda -/

variable {p q : Nat}

/-- **C19 (lambda).** The corrected eigenvalues are, entry by entry, the average over ALL samples of the visited batches of the squared
gradient coordinates `(q_sᵢ · ds)² (q_aⱼ · a)²`, where `q_sᵢ`, `q_aⱼ` are ROWS of the stored matrices. -/
theorem C19_lambda_pooled [CharZero R] (qa : Matrix (Fin p) (Fin p) R) (qs : Matrix (Fin q) (Fin q) R)
    (bs : List (List ((Fin p → R) × (Fin q → R)))) (maxIter : Option Nat)
    (hne : visited maxIter bs ≠ []) (hpos : ∀ b ∈ visited maxIter bs, b ≠ []) :
    ∃ lam, estimateLambda qa qs bs maxIter = some lam ∧ ∀ i j, lam i j =
      ((visited maxIter bs).flatten.map (fun x => ((∑ k, qs i k * x.2 k) * (∑ k, qa j k * x.1 k)) ^ 2)).sum
        / ((visited maxIter bs).flatten.length : R) := by
  have hentry : ∀ (x : (Fin p → R) × (Fin q → R)) i j,
      lambdaEntry qa qs x.1 x.2 i j = ((∑ k, qs i k * x.2 k) * (∑ k, qa j k * x.1 k)) ^ 2 := by
    intro x i j
    simp only [lambdaEntry]
    congr 1
    rw [Matrix.mul_vecMulVec, Matrix.vecMulVec_mul]
    simp only [vecMulVec_apply, Matrix.mulVec, Matrix.vecMul, dotProduct, Matrix.transpose_apply]
    congr 1
    exact Finset.sum_congr rfl (fun k _ => mul_comm _ _)
  have key : ∀ vs : List (List ((Fin p → R) × (Fin q → R))), (∀ b ∈ vs, b ≠ []) →
      ∃ st, vs.foldl (fun (st : Option (Matrix (Fin q) (Fin p) R) × Nat) b =>
        (some (updateLambda qa qs st.1 b st.2), st.2 + b.length)) (none, 0) = (st, vs.flatten.length) ∧
        ((vs = [] ∧ st = none) ∨ (vs ≠ [] ∧ 0 < vs.flatten.length ∧ ∃ lam, st = some lam ∧ ∀ i j, lam i j =
          (vs.flatten.map (fun x => lambdaEntry qa qs x.1 x.2 i j)).sum / (vs.flatten.length : R))) := by
    intro vs
    induction vs using List.reverseRecOn with
    | nil => intro _; exact ⟨none, rfl, Or.inl ⟨rfl, rfl⟩⟩
    | append_singleton vs b ih =>
      intro h
      obtain ⟨st, hst, hc⟩ := ih (fun x hx => h x (by simp [hx]))
      have hb : 0 < b.length := List.length_pos_iff.2 (h b (by simp))
      refine ⟨some (updateLambda qa qs st b vs.flatten.length), ?_, Or.inr ⟨by simp, by simp; omega, _, rfl, ?_⟩⟩
      · rw [List.foldl_append, hst]
        simp
      · intro i j
        rcases hc with ⟨rfl, rfl⟩ | ⟨_, hp, lam, rfl, hl⟩
        · simp [updateLambda]
        · have h1 : (b.length : R) ≠ 0 := by exact_mod_cast hb.ne'
          have h2 : (vs.flatten.length : R) ≠ 0 := by exact_mod_cast hp.ne'
          have h3 : (vs.flatten.length : R) + (b.length : R) ≠ 0 := by
            have : ((vs.flatten.length + b.length : Nat) : R) ≠ 0 := by rw [Nat.cast_ne_zero]; omega
            simpa using this
          simp only [updateLambda, hl, List.flatten_append, List.flatten_cons, List.flatten_nil, List.append_nil, List.map_append,
            List.sum_append, List.length_append, Nat.cast_add]
          field_simp
  obtain ⟨st, h1, h2⟩ := key _ hpos
  rcases h2 with ⟨h, _⟩ | ⟨_, _, lam, rfl, hl⟩
  · exact absurd h hne
  · refine ⟨lam, ?_, ?_⟩
    · unfold estimateLambda; rw [h1]
    · intro i j
      rw [hl]
      simp only [hentry]

example : ∃ lam, estimateLambda (R := ℚ) (p := 1) (q := 1) 1 1 [[(fun _ => 1, fun _ => 2), (fun _ => 1, fun _ => 0)],
    [(fun _ => 2, fun _ => 2)]] none = some lam ∧ lam 0 0 = 20 / 3 := by
  obtain ⟨lam, h1, h2⟩ := C19_lambda_pooled (R := ℚ) (p := 1) (q := 1) 1 1 [[(fun _ => 1, fun _ => 2), (fun _ => 1, fun _ => 0)],
    [(fun _ => 2, fun _ => 2)]] none (by simp [visited]) (by simp [visited])
  refine ⟨lam, h1, ?_⟩
  rw [h2]
  simp [visited]
  norm_num

end Verif.EKFAC
