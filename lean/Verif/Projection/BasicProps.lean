import Mathlib.Algebra.BigOperators.Ring.Finset
import Mathlib.Algebra.BigOperators.Field
import Mathlib.Algebra.BigOperators.Fin
import Mathlib.Tactic.Ring
import Mathlib.Tactic.Module
import Mathlib.Tactic.NormNum
import Verif.Base.Blocks
import Verif.Projection.BasicModel

/-!
# C27, C28, C29: seeds, history independence and linearity of `BasicProjector`
-/

namespace Verif.Projection

variable {d : ℕ}

/-! ## C27 -/

/-- **C27** (positive part). Up to 100 blocks (projection dimension at most 10000 with the default block size), different
(block, ensemble) pairs use different seeds. -/
theorem C27_seeds_distinct (seed : ℤ) (i j : ℕ) (e f : ℤ) (hi : i < 100) (hj : j < 100) :
    blockSeed seed i e = blockSeed seed j f ↔ i = j ∧ e = f := by
  unfold blockSeed
  constructor
  · intro h; omega
  · rintro ⟨rfl, rfl⟩; rfl

/-- The default block size gives at most 100 blocks exactly up to projection dimension 10000. -/
theorem C27_blocks_le_iff (c : Basic d) (hb : c.block = 100) (hp : 0 < c.projDim) :
    c.numBlocks ≤ 100 ↔ c.projDim ≤ 10000 := by
  unfold Basic.numBlocks Basic.blockSize numBatches
  rw [hb]
  by_cases h : c.projDim ≤ 100
  · rw [Nat.min_eq_left h]
    have : (c.projDim + c.projDim - 1) / c.projDim = 1 := by
      rw [Nat.div_eq_iff hp]; omega
    omega
  · rw [Nat.min_eq_right (by omega)]; omega

/-- **C27** (collision). From block 100 on, block `i` of ensemble `e` uses the very generator state of block `i - 100` of ensemble
`e + 1`, for every seed. -/
theorem C27_seed_collision (seed : ℤ) (i : ℕ) (e : ℤ) (hi : 100 ≤ i) :
    blockSeed seed i e = blockSeed seed (i - 100) (e + 1) := by
  unfold blockSeed; push_cast [Nat.cast_sub hi]; ring

/-! ## The ideal projection -/

/-- The specification of one output entry: column `j` of the projection in ensemble `e` is the `(j mod B)`-th column of the matrix drawn
from seed `seed + 1000 * (j / B) + 100000 * e`, and the entry is the inner product with it divided by `√projDim`. -/
noncomputable def idealEntry (c : Basic d) (e : ℤ) (x : Fin d → ℝ) (j : ℕ) : ℝ :=
  (∑ a, x a * c.rng.dense c.kind (c.seed + 1000 * (j / min c.projDim c.block : ℕ) + 100000 * e) a (j % min c.projDim c.block))
    / Real.sqrt c.projDim

/-- The specification of one projected row. -/
noncomputable def idealRow (c : Basic d) (e : ℤ) (x : Fin d → ℝ) : List ℝ :=
  match c.kind with
  | .identity => List.ofFn x
  | .randomMask => (((c.rng.perm (c.seed + 100000 * e)).take c.projDim).mergeSort (· ≤ ·)).map x
  | _ => (List.range c.projDim).map (idealEntry c e x)

/-- The ensemble id used by the last projection of a history (`e0` initially). -/
def lastEns (e0 : ℤ) : List (BOp d) → ℤ
  | [] => e0
  | .free :: h => lastEns e0 h
  | .project _ e :: h => lastEns e h

/-- The matrix of ensemble `e` has been freed and nothing since has forced its regeneration. -/
def Lost (e0 : ℤ) (h : List (BOp d)) (e : ℤ) : Prop :=
  ∃ h1 h2, h = h1 ++ .free :: h2 ∧ lastEns e0 h1 = e ∧ ∀ op ∈ h2, op = .free ∨ ∃ f, op = .project f e

lemma lastEns_append (e0 : ℤ) (h1 h2 : List (BOp d)) : lastEns e0 (h1 ++ h2) = lastEns (lastEns e0 h1) h2 := by
  induction h1 generalizing e0 with
  | nil => rfl
  | cons op h ih => cases op <;> simp [lastEns, ih]

lemma lastEns_const (e : ℤ) (h : List (BOp d)) (hh : ∀ op ∈ h, op = .free ∨ ∃ f, op = .project f e) : lastEns e h = e := by
  induction h with
  | nil => rfl
  | cons op h ih =>
    have := hh op (by simp)
    have ih := ih (fun o ho => hh o (by simp [ho]))
    rcases this with rfl | ⟨f, rfl⟩ <;> simpa [lastEns] using ih

lemma Lost.last {e0 e : ℤ} {h : List (BOp d)} (hl : Lost e0 h e) : lastEns e0 h = e := by
  obtain ⟨h1, h2, rfl, h3, h4⟩ := hl
  rw [lastEns_append, h3]
  exact lastEns_const e _ (by simpa using h4)

lemma lost_nil (e0 e : ℤ) : ¬ Lost (d := d) e0 [] e := by
  rintro ⟨h1, h2, h, -⟩; simp at h

lemma lost_free (e0 : ℤ) (h : List (BOp d)) : Lost e0 (h ++ [.free]) (lastEns e0 h) :=
  ⟨h, [], rfl, rfl, by simp⟩

lemma lost_project (e0 e : ℤ) (h : List (BOp d)) (f : List (Fin d → ℝ)) :
    Lost e0 (h ++ [.project f e]) e ↔ Lost e0 h e := by
  constructor
  · rintro ⟨h1, h2, he, h3, h4⟩
    rcases List.eq_nil_or_concat h2 with rfl | ⟨h2', op, rfl⟩
    · have := congrArg List.getLast? he
      simp at this
    · have he' : h ++ [.project f e] = (h1 ++ .free :: h2') ++ [op] := by simpa using he
      obtain ⟨e1, -⟩ := List.append_inj' he' rfl
      exact ⟨h1, h2', e1, h3, fun o ho => h4 o (by simp [ho])⟩
  · rintro ⟨h1, h2, rfl, h3, h4⟩
    refine ⟨h1, h2 ++ [.project f e], by simp, h3, ?_⟩
    intro op hop
    rcases List.mem_append.1 hop with h | h
    · exact h4 op h
    · exact Or.inr ⟨f, by simpa using h⟩

/-! ## Lemmas about the model -/

lemma numBlocks_pos (c : Basic d) (hB : 0 < c.blockSize) : 0 < c.numBlocks := by
  unfold Basic.numBlocks
  rw [lt_numBatches_iff hB]
  unfold Basic.blockSize at hB
  omega

/-- A dense type. -/
def Dense (c : Basic d) : Prop := c.kind = .normal ∨ c.kind = .rademacher

/-- Invariant of dense projectors. -/
structure DInv (c : Basic d) (h : List (BOp d)) (st : BState d) : Prop where
  ens : st.ens = lastEns c.ens0 h
  states : st.states = (List.range c.numBlocks).map (fun i => blockSeed c.seed i st.ens)
  avail : st.avail.isSome
  mat : c.numBlocks = 1 → (Lost c.ens0 h st.ens → st.mat = none) ∧
    (¬ Lost c.ens0 h st.ens → st.mat = some (c.rng.dense c.kind (blockSeed c.seed 0 st.ens)))

lemma genDense_ok (c : Basic d) (hk : Dense c) (st : BState d) (s : ℤ) (ha : st.avail.isSome) :
    c.genDense st s = .ok { st with mat := some (c.rng.dense c.kind s), avail := some true } := by
  obtain ⟨a, ha⟩ := Option.isSome_iff_exists.1 ha
  unfold Basic.genDense
  rw [ha]
  simp [show c.kind = .normal ∨ c.kind = .rademacher from hk]

lemma firstState_ok (c : Basic d) (hB : 0 < c.blockSize) (st : BState d) :
    firstState (c.genStates st) = .ok (blockSeed c.seed 0 st.ens) := by
  unfold firstState Basic.genStates
  obtain ⟨n, hn⟩ : ∃ n, c.numBlocks = n + 1 := ⟨c.numBlocks - 1, by have := numBlocks_pos c hB; omega⟩
  simp [hn, List.range_succ_eq_map]

/-- What the block loop computes. -/
lemma blockLoop_spec (c : Basic d) (hk : Dense c) (hB : 0 < c.blockSize) (feats : List (Fin d → ℝ)) (st : BState d)
    (hs : st.states = (List.range c.numBlocks).map (fun i => blockSeed c.seed i st.ens)) (ha : st.avail.isSome) :
    ∃ st' sk, c.blockLoop feats st = .ok (st', sk) ∧ st'.ens = st.ens ∧ st'.states = st.states ∧ st'.avail.isSome ∧
      ∀ i, ∀ j < c.projDim, sk i j =
        matmul feats (c.rng.dense c.kind (blockSeed c.seed (j / c.blockSize) st.ens)) i (j % c.blockSize) := by
  have key : ∀ k ≤ c.numBlocks, ∃ st' sk, (List.range k).foldlM (fun (s : BState d × (ℕ → ℕ → ℝ)) ind =>
      match s.1.states[ind]? with
      | none => .error .indexError
      | some g => do
        let st' ← c.genDense s.1 g
        match st'.mat with
        | none => .error .attributeError
        | some M =>
          let lo := ind * c.blockSize
          let hi := min ((ind + 1) * c.blockSize) c.projDim
          pure (st', fun i j => if lo ≤ j ∧ j < hi then matmul feats M i (j - lo) else s.2 i j)) (st, fun _ _ => 0)
        = Except.ok (ε := Err) (st', sk) ∧ st'.ens = st.ens ∧ st'.states = st.states ∧ st'.avail.isSome ∧
      ∀ i, ∀ j < c.projDim, j / c.blockSize < k → sk i j =
        matmul feats (c.rng.dense c.kind (blockSeed c.seed (j / c.blockSize) st.ens)) i (j % c.blockSize) := by
    intro k
    induction k with
    | zero => intro _; exact ⟨st, fun _ _ => 0, rfl, rfl, rfl, ha, by simp⟩
    | succ k ih =>
      intro hk'
      obtain ⟨st1, sk1, h1, h2, h3, h4, h5⟩ := ih (by omega)
      rw [List.range_succ, List.foldlM_append, h1]
      have hget : st1.states[k]? = some (blockSeed c.seed k st.ens) := by
        rw [h3, hs]; simp [show k < c.numBlocks by omega]
      refine ⟨{ st1 with mat := some (c.rng.dense c.kind (blockSeed c.seed k st.ens)), avail := some true }, ?_, ?_, h2, h3, rfl, ?_⟩
      · exact fun i j => if k * c.blockSize ≤ j ∧ j < min ((k + 1) * c.blockSize) c.projDim then
          matmul feats (c.rng.dense c.kind (blockSeed c.seed k st.ens)) i (j - k * c.blockSize) else sk1 i j
      · simp only [bind, Except.bind, pure, Except.pure, List.foldlM_cons, List.foldlM_nil, hget,
          genDense_ok c hk st1 _ h4]
      · intro i j hj hjk
        have hiff := mem_block_iff (b := k) hB hj
        rw [show min (min ((k + 1) * c.blockSize) c.projDim) c.projDim = min ((k + 1) * c.blockSize) c.projDim by omega] at hiff
        by_cases hb : j / c.blockSize = k
        · rw [if_pos (hiff.2 hb), hb]
          congr 1
          rw [Nat.mod_eq_sub_div_mul, hb]
        · rw [if_neg (fun h => hb (hiff.1 h))]
          exact h5 i j hj (by omega)
  obtain ⟨st', sk, h1, h2, h3, h4, h5⟩ := key c.numBlocks le_rfl
  exact ⟨st', sk, h1, h2, h3, h4, fun i j hj => h5 i j hj (div_lt_numBatches hB hj)⟩

lemma finish_eq (c : Basic d) (feats : List (Fin d → ℝ)) (sk : ℕ → ℕ → ℝ) (g : (Fin d → ℝ) → ℕ → ℝ)
    (h : ∀ i x, feats[i]? = some x → ∀ j < c.projDim, sk i j / Real.sqrt c.projDim = g x j) :
    c.finish feats sk = feats.map (fun x => (List.range c.projDim).map (g x)) := by
  unfold Basic.finish
  apply List.ext_getElem
  · simp
  · intro i h1 h2
    simp only [List.length_map, List.length_range] at h1
    simp only [List.getElem_map, List.getElem_range]
    apply List.map_congr_left
    intro j hj
    exact h i _ (List.getElem?_eq_getElem h1) j (by simpa using hj)

/-- One projection from a state satisfying the invariant. -/
lemma project_dense (c : Basic d) (hk : Dense c) (hB : 0 < c.blockSize) (h : List (BOp d)) (st : BState d)
    (hI : DInv c h st) (feats : List (Fin d → ℝ)) (e : ℤ) :
    DInv c (h ++ [.project feats e]) (c.project st feats e).1 ∧
    (c.numBlocks = 1 → Lost c.ens0 h e → (c.project st feats e).2 = .error .attributeError) ∧
    (¬ (c.numBlocks = 1 ∧ Lost c.ens0 h e) → (c.project st feats e).2 = .ok (feats.map (idealRow c e))) := by
  have hkm : c.kind ≠ .randomMask := by rcases hk with h | h <;> simp [h]
  have hki : c.kind ≠ .identity := by rcases hk with h | h <;> simp [h]
  have hideal : idealRow c e = fun x => (List.range c.projDim).map (idealEntry c e x) := by
    funext x; unfold idealRow; rcases hk with h | h <;> simp [h]
  have hlast : lastEns c.ens0 (h ++ [.project feats e]) = e := by rw [lastEns_append]; rfl
  by_cases hone : c.numBlocks = 1
  · -- a single block
    have hBp : c.projDim ≤ c.blockSize := by
      by_contra hlt
      push Not at hlt
      have : 1 < c.numBlocks := by
        unfold Basic.numBlocks; rw [lt_numBatches_iff hB]; omega
      omega
    have hentry : ∀ (i : ℕ) x, feats[i]? = some x → ∀ j < c.projDim,
        matmul feats (c.rng.dense c.kind (blockSeed c.seed 0 e)) i j / Real.sqrt c.projDim = idealEntry c e x j := by
      intro i x hx j hj
      unfold matmul idealEntry
      rw [hx]
      have e1 : j / min c.projDim c.block = 0 := Nat.div_eq_of_lt (lt_of_lt_of_le hj hBp)
      have e2 : j % min c.projDim c.block = j := Nat.mod_eq_of_lt (lt_of_lt_of_le hj hBp)
      rw [e1, e2]; rfl
    by_cases he : e = st.ens
    · have hsw : c.switch st e = (st, .ok ()) := by simp [Basic.switch, he]
      have hp : c.project st feats e = match st.mat with
          | none => (st, .error .attributeError)
          | some M => (st, .ok (c.finish feats (matmul feats M))) := by
        unfold Basic.project; rw [hsw]; simp only [hkm, hki, hone, if_false, if_true]
        cases st.mat <;> rfl
      have hst : (c.project st feats e).1 = st := by
        rw [hp]; cases st.mat <;> rfl
      refine ⟨⟨?_, ?_, ?_, ?_⟩, ?_, ?_⟩
      · rw [hst, hlast, he]
      · rw [hst]; exact hI.states
      · rw [hst]; exact hI.avail
      · intro _
        rw [hst, ← he, lost_project]
        have := hI.mat hone
        rw [← he] at this; exact this
      · intro _ hl
        rw [hp, (hI.mat hone).1 (he ▸ hl)]
      · intro hl
        have hm := (hI.mat hone).2 (fun hl' => hl ⟨hone, he ▸ hl'⟩)
        rw [hp, hm]
        simp only [hideal]
        rw [finish_eq c feats _ (idealEntry c e)]
        rw [← he]; exact hentry
    · have hnl : ¬ Lost c.ens0 h e := fun hl => he (by rw [hI.ens, hl.last])
      have hsw : c.switch st e = ({ c.genStates { st with ens := e } with
          mat := some (c.rng.dense c.kind (blockSeed c.seed 0 e)), avail := some true }, .ok ()) := by
        unfold Basic.switch
        simp only [ne_eq, he, not_false_iff, if_true, hkm, hki, if_false, hone, bind, Except.bind]
        rw [firstState_ok c hB]
        simp only []
        rw [genDense_ok c hk _ _ (by exact hI.avail)]
      have hp : c.project st feats e = ({ c.genStates { st with ens := e } with
          mat := some (c.rng.dense c.kind (blockSeed c.seed 0 e)), avail := some true },
          .ok (c.finish feats (matmul feats (c.rng.dense c.kind (blockSeed c.seed 0 e))))) := by
        unfold Basic.project; rw [hsw]; simp only [hkm, hki, hone, if_false, if_true]
      refine ⟨⟨?_, ?_, ?_, ?_⟩, ?_, ?_⟩
      · rw [hp, hlast]; rfl
      · rw [hp]; rfl
      · rw [hp]; rfl
      · intro _
        rw [hp]
        simp only [Basic.genStates]
        rw [lost_project]
        exact ⟨fun hl => absurd hl hnl, fun _ => trivial⟩
      · intro _ hl; exact absurd hl hnl
      · intro _
        rw [hp]
        simp only [hideal]
        rw [finish_eq c feats _ (idealEntry c e) hentry]
  · -- several blocks
    obtain ⟨st1, hsw, hens, hstates, hav⟩ : ∃ st1, c.switch st e = (st1, .ok ()) ∧ st1.ens = e ∧
        st1.states = (List.range c.numBlocks).map (fun i => blockSeed c.seed i st1.ens) ∧ st1.avail.isSome := by
      by_cases he : e = st.ens
      · exact ⟨st, by simp [Basic.switch, he], he.symm, hI.states, hI.avail⟩
      · refine ⟨c.genStates { st with ens := e }, ?_, rfl, rfl, hI.avail⟩
        unfold Basic.switch
        simp only [ne_eq, he, not_false_iff, if_true, hkm, hki, if_false, hone]
    obtain ⟨st2, sk, h1, h2, h3, h4, h5⟩ := blockLoop_spec c hk hB feats st1 hstates hav
    have hp : c.project st feats e = (st2, .ok (c.finish feats sk)) := by
      unfold Basic.project; rw [hsw]; simp only [hkm, hki, hone, if_false, h1]
    refine ⟨⟨?_, ?_, ?_, fun h => absurd h hone⟩, fun h => absurd h hone, ?_⟩
    · rw [hp, hlast]; exact h2.trans hens
    · rw [hp]; simp only []; rw [h3, hstates, h2]
    · rw [hp]; exact h4
    · intro _
      rw [hp]
      simp only [hideal]
      rw [finish_eq c feats sk (idealEntry c e)]
      intro i x hx j hj
      rw [h5 i j hj, hens]
      unfold matmul idealEntry
      rw [hx]; rfl

lemma dinv_run (c : Basic d) (hk : Dense c) (hB : 0 < c.blockSize) (st0 : BState d) (h0 : c.init = .ok st0)
    (h : List (BOp d)) : DInv c h (c.run st0 h) := by
  have hkm : c.kind ≠ .randomMask := by rcases hk with h | h <;> simp [h]
  have hki : c.kind ≠ .identity := by rcases hk with h | h <;> simp [h]
  induction h using List.reverseRecOn with
  | nil =>
    unfold Basic.init at h0
    have hd : c.kind = .normal ∨ c.kind = .rademacher := hk
    simp only [hB.ne', hkm, hki, if_false, bind, Except.bind, firstState_ok c hB] at h0
    rw [genDense_ok c hk _ _ (by simp [Basic.genStates, hd])] at h0
    injection h0 with h0
    subst h0
    exact ⟨rfl, rfl, rfl, fun _ => ⟨fun hl => absurd hl (lost_nil _ _), fun _ => rfl⟩⟩
  | append_singleton h op ih =>
    rw [show c.run st0 (h ++ [op]) = c.step (c.run st0 h) op by simp [Basic.run]]
    cases op with
    | project f e => exact (project_dense c hk hB h _ ih f e).1
    | free =>
      have hens : (freeMemory (c.run st0 h)).ens = (c.run st0 h).ens := by
        unfold freeMemory; cases (c.run st0 h).mat <;> rfl
      refine ⟨?_, ?_, ?_, ?_⟩
      · show (freeMemory (c.run st0 h)).ens = _
        rw [hens, ih.ens, lastEns_append]; rfl
      · show (freeMemory (c.run st0 h)).states = _
        rw [show c.step (c.run st0 h) .free = freeMemory (c.run st0 h) from rfl, hens, ← ih.states]
        unfold freeMemory; cases (c.run st0 h).mat <;> rfl
      · show (freeMemory (c.run st0 h)).avail.isSome = true
        have := ih.avail
        unfold freeMemory; cases (c.run st0 h).mat <;> simp [this]
      · intro _
        have hm : (freeMemory (c.run st0 h)).mat = none := by
          unfold freeMemory; cases hh : (c.run st0 h).mat <;> simp [hh]
        have hl : Lost c.ens0 (h ++ [.free]) (freeMemory (c.run st0 h)).ens := by
          rw [hens, ih.ens]; exact lost_free _ _
        exact ⟨fun _ => hm, fun hn => absurd hl hn⟩

/-- Invariant of mask and identity projectors. -/
structure MInv (c : Basic d) (st : BState d) : Prop where
  mat : st.mat = none
  mask : c.kind = .randomMask → st.mask = some (maskOf (c.rng.perm (blockSeed c.seed 0 st.ens)) c.projDim)

lemma project_mask (c : Basic d) (hk : c.kind = .randomMask ∨ c.kind = .identity) (hB : 0 < c.blockSize) (st : BState d)
    (hI : MInv c st) (feats : List (Fin d → ℝ)) (e : ℤ) :
    MInv c (c.project st feats e).1 ∧ (c.project st feats e).2 = .ok (feats.map (idealRow c e)) := by
  rcases hk with hk | hk
  · have hideal : idealRow c e = fun x => (maskOf (c.rng.perm (blockSeed c.seed 0 e)) c.projDim).map x := by
      funext x; unfold idealRow; rw [hk]; simp [maskOf, blockSeed]
    obtain ⟨st1, hsw, hm, hmask, hens⟩ : ∃ st1, c.switch st e = (st1, .ok ()) ∧ st1.mat = none ∧
        st1.mask = some (maskOf (c.rng.perm (blockSeed c.seed 0 e)) c.projDim) ∧ st1.ens = e := by
      by_cases he : e = st.ens
      · exact ⟨st, by simp [Basic.switch, he], hI.mat, by rw [hI.mask hk, he], he.symm⟩
      · refine ⟨c.genMask (c.genStates { st with ens := e }) (blockSeed c.seed 0 e), ?_, hI.mat, rfl, rfl⟩
        unfold Basic.switch
        simp only [ne_eq, he, not_false_iff, if_true, hk, firstState_ok c hB]
    have hp : c.project st feats e = (st1, .ok (feats.map fun x =>
        (maskOf (c.rng.perm (blockSeed c.seed 0 e)) c.projDim).map x)) := by
      unfold Basic.project; rw [hsw]; simp only [hk, if_true, hmask]
    rw [hp, hideal]
    exact ⟨⟨hm, fun _ => by rw [hmask, hens]⟩, rfl⟩
  · have hideal : idealRow c e = List.ofFn := by
      funext x; unfold idealRow; rw [hk]
    obtain ⟨st1, hsw, hm⟩ : ∃ st1, c.switch st e = (st1, .ok ()) ∧ st1.mat = none := by
      by_cases he : e = st.ens
      · exact ⟨st, by simp [Basic.switch, he], hI.mat⟩
      · refine ⟨c.genStates { st with ens := e }, ?_, hI.mat⟩
        unfold Basic.switch
        simp [he, hk]
    have hp : c.project st feats e = (st1, .ok (feats.map List.ofFn)) := by
      unfold Basic.project; rw [hsw]; simp [hk]
    rw [hp, hideal]
    exact ⟨⟨hm, fun h => by simp [hk] at h⟩, rfl⟩

lemma minv_run (c : Basic d) (hk : c.kind = .randomMask ∨ c.kind = .identity) (hB : 0 < c.blockSize) (st0 : BState d)
    (h0 : c.init = .ok st0) (h : List (BOp d)) : MInv c (c.run st0 h) := by
  induction h using List.reverseRecOn with
  | nil =>
    unfold Basic.init at h0
    rcases hk with hk | hk
    · simp only [hB.ne', hk, if_false, if_true, bind, Except.bind, firstState_ok c hB, pure, Except.pure] at h0
      injection h0 with h0
      subst h0
      exact ⟨rfl, fun _ => rfl⟩
    · simp only [hB.ne', hk, if_false, if_true] at h0
      injection h0 with h0
      subst h0
      exact ⟨rfl, fun h => by simp [hk] at h⟩
  | append_singleton h op ih =>
    rw [show c.run st0 (h ++ [op]) = c.step (c.run st0 h) op by simp [Basic.run]]
    cases op with
    | project f e => exact (project_mask c hk hB _ ih f e).1
    | free =>
      have : freeMemory (c.run st0 h) = c.run st0 h := by unfold freeMemory; rw [ih.mat]
      show MInv c (freeMemory _)
      rw [this]; exact ih

/-! ## C28 -/

/-- **C28.** After any history of projections (with any ensemble ids and batches) and `free_memory` calls, `project(feats, e)` returns
the ideal projection of ensemble `e`, row by row, or — exactly when the projector is dense, has a single block and its matrix was freed
while `e` was current and nothing forced a regeneration since — raises `AttributeError`. -/
theorem C28_history (c : Basic d) (hk : c.kind = .normal ∨ c.kind = .rademacher ∨ c.kind = .randomMask ∨ c.kind = .identity)
    (hp : 0 < c.projDim) (hb : 0 < c.block) :
    ∃ st0, c.init = .ok st0 ∧ ∀ (h : List (BOp d)) (feats : List (Fin d → ℝ)) (e : ℤ),
      ((c.project (c.run st0 h) feats e).2 = .error .attributeError ↔
        (c.kind = .normal ∨ c.kind = .rademacher) ∧ c.projDim ≤ c.block ∧ Lost c.ens0 h e) ∧
      ((c.project (c.run st0 h) feats e).2 ≠ .error .attributeError →
        (c.project (c.run st0 h) feats e).2 = .ok (feats.map (idealRow c e))) := by
  have hB : 0 < c.blockSize := by unfold Basic.blockSize; omega
  have hone : c.numBlocks = 1 ↔ c.projDim ≤ c.block := by
    have h1 := numBlocks_pos c hB
    have h2 : 1 < c.numBlocks ↔ 1 * c.blockSize < c.projDim := lt_numBatches_iff hB
    have h3 : c.blockSize = min c.projDim c.block := rfl
    omega
  by_cases hd : Dense c
  · obtain ⟨st0, h0⟩ : ∃ st0, c.init = .ok st0 := by
      have hkm : c.kind ≠ .randomMask := by rcases hd with h | h <;> simp [h]
      have hki : c.kind ≠ .identity := by rcases hd with h | h <;> simp [h]
      have hd' : c.kind = .normal ∨ c.kind = .rademacher := hd
      unfold Basic.init
      simp only [hB.ne', hkm, hki, if_false, bind, Except.bind, firstState_ok c hB]
      rw [genDense_ok c hd _ _ (by simp [Basic.genStates, hd'])]
      exact ⟨_, rfl⟩
    refine ⟨st0, h0, fun h feats e => ?_⟩
    obtain ⟨-, h1, h2⟩ := project_dense c hd hB h _ (dinv_run c hd hB st0 h0 h) feats e
    by_cases hl : c.numBlocks = 1 ∧ Lost c.ens0 h e
    · have := h1 hl.1 hl.2
      exact ⟨⟨fun _ => ⟨hd, hone.1 hl.1, hl.2⟩, fun _ => this⟩, fun hn => absurd this hn⟩
    · have := h2 hl
      refine ⟨⟨fun he => ?_, fun hh => absurd ⟨hone.2 hh.2.1, hh.2.2⟩ hl⟩, fun _ => this⟩
      rw [this] at he; cases he
  · have hk' : c.kind = .randomMask ∨ c.kind = .identity := by
      unfold Dense at hd; tauto
    obtain ⟨st0, h0⟩ : ∃ st0, c.init = .ok st0 := by
      unfold Basic.init
      rcases hk' with hk' | hk' <;>
        simp [hB.ne', hk', bind, Except.bind, firstState_ok c hB, pure, Except.pure]
    refine ⟨st0, h0, fun h feats e => ?_⟩
    have := (project_mask c hk' hB _ (minv_run c hk' hB st0 h0 h) feats e).2
    refine ⟨⟨fun he => ?_, fun hh => absurd hh.1 hd⟩, fun _ => this⟩
    rw [this] at he; cases he

/-- **C27** (shared columns). For the dense types, from column `100 * block` on, every column of the projection in ensemble `e` is the column
`100 * block` places earlier of the projection in ensemble `e + 1`, for all inputs and after any two histories: the ensembles are not independent. -/
theorem C27_shared_columns (c : Basic d) (hk : c.kind = .normal ∨ c.kind = .rademacher) (hb : 0 < c.block) (st0 : BState d) (h0 : c.init = .ok st0)
    (h h' : List (BOp d)) (x : Fin d → ℝ) (e : ℤ) (j : ℕ) (hj : 100 * c.block ≤ j) (hjp : j < c.projDim) :
    ∃ u v y, (c.project (c.run st0 h) [x] e).2 = .ok [u] ∧ (c.project (c.run st0 h') [x] (e + 1)).2 = .ok [v] ∧
      u[j]? = some y ∧ v[j - 100 * c.block]? = some y := by
  obtain ⟨st1, h1, hist⟩ := C28_history c (by tauto) (by omega) hb
  rw [h0] at h1
  obtain rfl : st0 = st1 := by injection h1
  have hrow : ∀ e, idealRow c e x = (List.range c.projDim).map (idealEntry c e x) := by
    intro e; unfold idealRow; rcases hk with h | h <;> simp [h]
  have hok : ∀ (h : List (BOp d)) (e : ℤ), (c.project (c.run st0 h) [x] e).2 = .ok [(List.range c.projDim).map (idealEntry c e x)] := by
    intro h e
    obtain ⟨a, b⟩ := hist h [x] e
    rw [b (fun hc => by have := (a.mp hc).2.1; omega)]
    simp [hrow]
  refine ⟨_, _, idealEntry c e x j, hok h e, hok h' (e + 1), by simp [hjp], ?_⟩
  have hB : min c.projDim c.block = c.block := by omega
  have e1 : (j - 100 * c.block) / c.block = j / c.block - 100 := by
    rw [Nat.mul_comm, Nat.sub_mul_div]
  have e2 : (j - 100 * c.block) % c.block = j % c.block := by
    rw [Nat.mul_comm]; exact Nat.sub_mul_mod (by rw [Nat.mul_comm]; exact hj)
  have hle : 100 ≤ j / c.block := (Nat.le_div_iff_mul_le hb).mpr hj
  have e3 : c.seed + 1000 * ((j / c.block - 100 : ℕ) : ℤ) + 100000 * (e + 1) = c.seed + 1000 * ((j / c.block : ℕ) : ℤ) + 100000 * e := by
    push_cast [Nat.cast_sub hle]; ring
  have hen : idealEntry c (e + 1) x (j - 100 * c.block) = idealEntry c e x j := by
    unfold idealEntry
    rw [hB, e1, e2, e3]
  rw [List.getElem?_map, List.getElem?_range (by omega), Option.map_some, hen]

/-- **C28** (rejected arguments). The constructor raises `ZeroDivisionError` for projection dimension 0 and `AttributeError` for the
types that only exist on CUDA. -/
theorem C28_init_errors (c : Basic d) :
    (c.projDim = 0 → c.init = .error .zeroDivisionError) ∧
    (0 < c.projDim → 0 < c.block → (c.kind = .sjlt ∨ c.kind = .grass) → c.init = .error .attributeError) := by
  constructor
  · intro h; simp [Basic.init, Basic.blockSize, h]
  · intro hp hb hk
    have hB : 0 < c.blockSize := by unfold Basic.blockSize; omega
    unfold Basic.init
    rcases hk with hk | hk <;>
      (simp only [hB.ne', hk, bind, Except.bind, firstState_ok c hB, if_false, reduceCtorEq]
       simp [Basic.genDense, Basic.genStates])

/-! ## C29 -/

/-- The projected row is linear in the row. -/
lemma idealRow_linear (c : Basic d) (e : ℤ) (x y : Fin d → ℝ) (r : ℝ) :
    idealRow c e (r • x + y) = List.zipWith (fun a b => r * a + b) (idealRow c e x) (idealRow c e y) := by
  have hmap : ∀ (l : List ℕ) (f g h : ℕ → ℝ), (∀ j, f j = r * g j + h j) →
      l.map f = List.zipWith (fun a b => r * a + b) (l.map g) (l.map h) := by
    intro l f g h hh
    induction l with
    | nil => rfl
    | cons a l ih => simp [hh, ih]
  have hmap' : ∀ (l : List (Fin d)), l.map (r • x + y) = List.zipWith (fun a b => r * a + b) (l.map x) (l.map y) := by
    intro l
    induction l with
    | nil => rfl
    | cons a l ih => simp [ih]
  have hent : ∀ j, idealEntry c e (r • x + y) j = r * idealEntry c e x j + idealEntry c e y j := by
    intro j
    unfold idealEntry
    rw [← mul_div_assoc, ← add_div, Finset.mul_sum, ← Finset.sum_add_distrib]
    congr 1
    apply Finset.sum_congr rfl
    intro a _
    simp only [Pi.add_apply, Pi.smul_apply, smul_eq_mul]; ring
  unfold idealRow
  cases c.kind with
  | identity =>
    simp only []
    apply List.ext_getElem
    · simp
    · intro i h1 h2; simp
  | randomMask => exact hmap' _
  | _ => exact hmap _ _ _ _ hent

/-- **C29.** Whenever a projection succeeds (after any history), it is computed row by row by one linear map that depends only on the
ensemble id: the projection of a concatenation is the concatenation of the projections, and the projection of `r*x+y` is `r` times that
of `x` plus that of `y`. -/
theorem C29_rowwise_linear (c : Basic d) (hk : c.kind = .normal ∨ c.kind = .rademacher ∨ c.kind = .randomMask ∨ c.kind = .identity)
    (hp : 0 < c.projDim) (hb : 0 < c.block) (st0 : BState d) (h0 : c.init = .ok st0) (e : ℤ) :
    ∃ L : (Fin d → ℝ) → List ℝ,
      (∀ x y r, L (r • x + y) = List.zipWith (fun a b => r * a + b) (L x) (L y)) ∧
      ∀ (h : List (BOp d)) (xs ys : List (Fin d → ℝ)) (o : List (List ℝ)),
        (c.project (c.run st0 h) (xs ++ ys) e).2 = .ok o →
          o = xs.map L ++ ys.map L ∧
          (c.project (c.run st0 h) xs e).2 = .ok (xs.map L) ∧
          (c.project (c.run st0 (h ++ [.project xs e])) ys e).2 = .ok (ys.map L) := by
  obtain ⟨st0', h0', H⟩ := C28_history c hk hp hb
  obtain rfl : st0' = st0 := by rw [h0] at h0'; injection h0' with h; exact h.symm
  refine ⟨idealRow c e, fun x y r => idealRow_linear c e x y r, fun h xs ys o ho => ?_⟩
  have hne : ¬ ((c.kind = .normal ∨ c.kind = .rademacher) ∧ c.projDim ≤ c.block ∧ Lost c.ens0 h e) := by
    rw [← (H h (xs ++ ys) e).1, ho]; simp
  refine ⟨?_, ?_, ?_⟩
  · have := (H h (xs ++ ys) e).2 (by rw [ho]; simp)
    rw [ho] at this
    injection this with this
    rw [this, List.map_append]
  · exact (H h xs e).2 (fun hc => hne ((H h xs e).1.1 hc))
  · refine (H (h ++ [.project xs e]) ys e).2 (fun hc => hne ?_)
    have := (H (h ++ [.project xs e]) ys e).1.1 hc
    rw [lost_project] at this
    exact this

/-! ## Examples -/

/-- A two-dimensional projector with three columns in blocks of two. -/
noncomputable def exB : Basic 2 := ⟨3, 7, .normal, 2, 0, ⟨fun _ s a j => s + a.val + 10 * j, fun _ => [1, 0]⟩⟩

example : 0 < exB.projDim ∧ 0 < exB.block ∧ exB.kind = .normal := by simp [exB]

/-- The third column comes from the second block's seed `7 + 1000`. -/
example : idealEntry exB 0 (fun _ => 1) 2 = (1007 + (1007 + 1)) / Real.sqrt 3 := by
  simp [idealEntry, exB, Fin.sum_univ_two]

/-- A single-block history that loses the matrix, and one that regenerates it. -/
example : Lost (d := 2) 0 [.project [] 3, .free, .project [] 3] 3 :=
  ⟨[.project [] 3], [.project [] 3], rfl, rfl, by simp⟩

example : ¬ Lost (d := 2) 0 [.project [] 3, .free, .project [] 4] 4 := by
  rw [show [BOp.project [] 3, .free, .project [] 4] = [BOp.project (d := 2) [] 3, .free] ++ [.project [] 4] from rfl, lost_project]
  intro h
  have := h.last
  simp [lastEns] at this

example : blockSeed 5 3 2 ≠ blockSeed 5 2 3 := by decide

end Verif.Projection
