import Mathlib.Algebra.BigOperators.Ring.Finset
import Mathlib.Algebra.BigOperators.Field
import Mathlib.Algebra.BigOperators.Fin
import Mathlib.Data.Fintype.Perm
import Mathlib.Data.Fintype.Pi
import Mathlib.Tactic.FieldSimp
import Verif.Projection.BasicProps
import Verif.Projection.CudaProps

/-!
# C78, C79: what the random projections do to inner products, averaged over the random draw
-/

namespace Verif.Projection

open Finset

variable {d p : ℕ}

/-- Inner product of two output rows. -/
noncomputable def rowDot (u v : List ℝ) : ℝ := (List.zipWith (· * ·) u v).sum

/-- A sign. -/
noncomputable def sgn (b : Bool) : ℝ := if b then 1 else -1

lemma sgn_mul_self (b : Bool) : sgn b * sgn b = 1 := by cases b <;> simp [sgn]

lemma sgn_not (b : Bool) : sgn (!b) = - sgn b := by cases b <;> simp [sgn]

lemma rowDot_map {ι : Type} (l : List ι) (f g : ι → ℝ) : rowDot (l.map f) (l.map g) = (l.map fun j => f j * g j).sum := by
  unfold rowDot
  induction l with
  | nil => rfl
  | cons a l _ => simp

/-- Averages of products of independent signs: flipping one coordinate is an involution that changes the sign of the product. -/
lemma sum_sgn_mul {ι : Type} [Fintype ι] [DecidableEq ι] (a b : ι) :
    ∑ S : ι → Bool, sgn (S a) * sgn (S b) = if a = b then (2 : ℝ) ^ Fintype.card ι else 0 := by
  split_ifs with h
  · subst h
    simp [sgn_mul_self, Finset.card_univ]
  · have hinv : ∀ S : ι → Bool, Function.update (Function.update S a (!S a)) a (!(Function.update S a (!S a)) a) = S := by
      intro S; simp
    have : ∑ S : ι → Bool, sgn (S a) * sgn (S b) = ∑ S : ι → Bool, -(sgn (S a) * sgn (S b)) := by
      apply Finset.sum_nbij' (fun S => Function.update S a (!S a)) (fun S => Function.update S a (!S a))
      · simp
      · simp
      · intro S _; exact hinv S
      · intro S _; exact hinv S
      · intro S _
        rw [Function.update_self, Function.update_of_ne (Ne.symm h), sgn_not]; ring
    rw [Finset.sum_neg_distrib] at this
    linarith

/-- The random source that produces the sign matrix `S`, cut into blocks of `B` columns with the seeds of ensemble 0. -/
noncomputable def signRng (B : ℕ) (seed : ℤ) (S : Fin d × Fin p → Bool) : Rng d :=
  ⟨fun _ s a j => if h : ((s - seed) / 1000).toNat * B + j < p then sgn (S (a, ⟨_, h⟩)) else 1, fun _ => []⟩

/-- The Rademacher `BasicProjector` whose draw is `S`. -/
noncomputable def signProjector (block : ℕ) (seed : ℤ) (S : Fin d × Fin p → Bool) : Basic d :=
  ⟨p, seed, .rademacher, block, 0, signRng (min p block) seed S⟩

lemma signProjector_entry (block : ℕ) (seed : ℤ) (S : Fin d × Fin p → Bool) (x : Fin d → ℝ) (j : Fin p) :
    idealEntry (signProjector block seed S) 0 x j = (∑ a, x a * sgn (S (a, j))) / Real.sqrt p := by
  unfold idealEntry signProjector signRng
  simp only []
  congr 1
  apply Finset.sum_congr rfl
  intro a _
  have h1 : ((seed + 1000 * ((j / min p block : ℕ) : ℤ) + 100000 * 0 - seed) / 1000).toNat = j / min p block := by
    rw [show seed + 1000 * ((j / min p block : ℕ) : ℤ) + 100000 * 0 - seed = 1000 * ((j / min p block : ℕ) : ℤ) by ring,
      Int.mul_ediv_cancel_left _ (by decide)]
    exact Int.toNat_natCast _
  have h2 : ((seed + 1000 * ((j / min p block : ℕ) : ℤ) + 100000 * 0 - seed) / 1000).toNat * min p block + j % min p block = j := by
    rw [h1]; exact Nat.div_add_mod' _ _
  simp only [h2, j.2, dif_pos]

/-- The average over all sign matrices, for the ideal rows. -/
lemma rademacher_avg (block : ℕ) (seed : ℤ) (hp : 0 < p) (x y : Fin d → ℝ) :
    ∑ S : Fin d × Fin p → Bool, rowDot (idealRow (signProjector block seed S) 0 x) (idealRow (signProjector block seed S) 0 y) =
      2 ^ (d * p) * ∑ a, x a * y a := by
  have hrow : ∀ (S : Fin d × Fin p → Bool),
      rowDot (idealRow (signProjector block seed S) 0 x) (idealRow (signProjector block seed S) 0 y) =
        ∑ j : Fin p, ((∑ a, x a * sgn (S (a, j))) * (∑ b, y b * sgn (S (b, j)))) / p := by
    intro S
    have : ∀ z, idealRow (signProjector block seed S) 0 z = (List.range p).map (idealEntry (signProjector block seed S) 0 z) := by
      intro z; rfl
    rw [this, this, rowDot_map]
    rw [show ((List.range p).map fun j => idealEntry (signProjector block seed S) 0 x j * idealEntry (signProjector block seed S) 0 y j).sum
      = ∑ j ∈ Finset.range p, idealEntry (signProjector block seed S) 0 x j * idealEntry (signProjector block seed S) 0 y j from rfl,
      Finset.sum_range]
    apply Finset.sum_congr rfl
    intro j _
    rw [signProjector_entry, signProjector_entry, div_mul_div_comm, Real.mul_self_sqrt (by positivity)]
  simp only [hrow, Finset.sum_mul_sum, Finset.sum_div]
  rw [Finset.sum_comm]
  have hj : ∀ j : Fin p, ∑ S : Fin d × Fin p → Bool, ∑ a, ∑ b, x a * sgn (S (a, j)) * (y b * sgn (S (b, j))) / (p : ℝ) =
      2 ^ (d * p) * (∑ a, x a * y a) / p := by
    intro j
    rw [Finset.sum_comm]
    have ha : ∀ a : Fin d, ∑ S : Fin d × Fin p → Bool, ∑ b, x a * sgn (S (a, j)) * (y b * sgn (S (b, j))) / (p : ℝ) =
        2 ^ (d * p) * (x a * y a) / p := by
      intro a
      rw [Finset.sum_comm]
      have hb : ∀ b : Fin d, ∑ S : Fin d × Fin p → Bool, x a * sgn (S (a, j)) * (y b * sgn (S (b, j))) / (p : ℝ) =
          x a * y b / p * (if a = b then (2 : ℝ) ^ (d * p) else 0) := by
        intro b
        have := sum_sgn_mul (a, j) (b, j)
        simp only [Prod.mk.injEq, and_true, Fintype.card_prod, Fintype.card_fin] at this
        rw [← this, Finset.mul_sum]
        apply Finset.sum_congr rfl
        intro S _; ring
      simp only [hb, mul_ite, mul_zero, Finset.sum_ite_eq, Finset.mem_univ, if_true]
      ring
    simp only [ha]
    rw [Finset.mul_sum, Finset.sum_div]
  simp only [hj, Finset.sum_const, Finset.card_univ, Fintype.card_fin, nsmul_eq_mul]
  have : (p : ℝ) ≠ 0 := by exact_mod_cast hp.ne'
  field_simp

/-- The inner product of two sparsely projected rows. -/
lemma sjlt_row (x y : Fin d → ℝ) (b : Fin d → Fin p) (S : Fin d → Bool) :
    rowDot (sjRow p (fun i => if h : i < d then b ⟨i, h⟩ else 0) (fun i => if h : i < d then sgn (S ⟨i, h⟩) else 1) (List.ofFn x))
        (sjRow p (fun i => if h : i < d then b ⟨i, h⟩ else 0) (fun i => if h : i < d then sgn (S ⟨i, h⟩) else 1) (List.ofFn y)) =
      ∑ a, ∑ c, (if b a = b c then 1 else 0) * (x a * y c) * (sgn (S a) * sgn (S c)) := by
  have hent : ∀ (b : Fin d → Fin p) (S : Fin d → Bool) (z : Fin d → ℝ) (j : ℕ),
      ((List.range (List.ofFn z).length).map fun i => if (if h : i < d then ((b ⟨i, h⟩ : Fin p) : ℕ) else 0) = j then
        (if h : i < d then sgn (S ⟨i, h⟩) else 1) * (List.ofFn z).getD i 0 else 0).sum =
      ∑ a : Fin d, if ((b a : Fin p) : ℕ) = j then sgn (S a) * z a else 0 := by
    intro b S z j
    rw [List.length_ofFn]
    rw [show ((List.range d).map fun i => if (if h : i < d then ((b ⟨i, h⟩ : Fin p) : ℕ) else 0) = j then
        (if h : i < d then sgn (S ⟨i, h⟩) else 1) * (List.ofFn z).getD i 0 else 0).sum =
      ∑ i ∈ Finset.range d, if (if h : i < d then ((b ⟨i, h⟩ : Fin p) : ℕ) else 0) = j then
        (if h : i < d then sgn (S ⟨i, h⟩) else 1) * (List.ofFn z).getD i 0 else 0 from rfl, Finset.sum_range]
    apply Finset.sum_congr rfl
    intro a _
    simp [List.getD_eq_getElem?_getD]
  unfold sjRow
  simp only [hent]
  rw [rowDot_map]
  rw [show ((List.range p).map fun j => (∑ a : Fin d, if ((b a : Fin p) : ℕ) = j then sgn (S a) * x a else 0) *
      ∑ a : Fin d, if ((b a : Fin p) : ℕ) = j then sgn (S a) * y a else 0).sum = ∑ j ∈ Finset.range p,
      (∑ a : Fin d, if ((b a : Fin p) : ℕ) = j then sgn (S a) * x a else 0) *
      ∑ a : Fin d, if ((b a : Fin p) : ℕ) = j then sgn (S a) * y a else 0 from rfl, Finset.sum_range]
  simp only [Finset.sum_mul_sum, Fin.val_inj]
  rw [Finset.sum_comm]
  apply Finset.sum_congr rfl
  intro a _
  rw [Finset.sum_comm]
  apply Finset.sum_congr rfl
  intro c _
  rw [Finset.sum_eq_single (b a)]
  · by_cases h : b a = b c
    · simp [h]; ring
    · simp [h, Ne.symm h]
  · intro j _ hj
    simp [Ne.symm hj]
  · simp

/-- The average over all bucket assignments and signs, for the ideal rows. -/
lemma sjlt_avg (x y : Fin d → ℝ) :
    ∑ b : Fin d → Fin p, ∑ S : Fin d → Bool,
      rowDot (sjRow p (fun i => if h : i < d then b ⟨i, h⟩ else 0) (fun i => if h : i < d then sgn (S ⟨i, h⟩) else 1) (List.ofFn x))
        (sjRow p (fun i => if h : i < d then b ⟨i, h⟩ else 0) (fun i => if h : i < d then sgn (S ⟨i, h⟩) else 1) (List.ofFn y)) =
      p ^ d * 2 ^ d * ∑ a, x a * y a := by
  simp only [sjlt_row]
  have hS : ∀ b : Fin d → Fin p, ∑ S : Fin d → Bool, ∑ a, ∑ c, (if b a = b c then (1 : ℝ) else 0) * (x a * y c) * (sgn (S a) * sgn (S c)) =
      2 ^ d * ∑ a, x a * y a := by
    intro b
    rw [Finset.sum_comm, Finset.mul_sum]
    apply Finset.sum_congr rfl
    intro a _
    rw [Finset.sum_comm]
    have hc : ∀ c : Fin d, ∑ S : Fin d → Bool, (if b a = b c then (1 : ℝ) else 0) * (x a * y c) * (sgn (S a) * sgn (S c)) =
        (if b a = b c then 1 else 0) * (x a * y c) * (if a = c then (2 : ℝ) ^ d else 0) := by
      intro c
      rw [← Finset.mul_sum, sum_sgn_mul a c]; simp
    simp only [hc, mul_ite, mul_zero, Finset.sum_ite_eq, Finset.mem_univ, if_true]
    ring
  simp only [hS, Finset.sum_const, Finset.card_univ, nsmul_eq_mul, Fintype.card_fun, Fintype.card_fin]
  push_cast
  ring

/-- The average over all permutations, for the ideal rows. -/
lemma mask_avg (block : ℕ) (seed : ℤ) (hp : p ≤ d) (x y : Fin d → ℝ) :
    d * ∑ σ : Equiv.Perm (Fin d),
      rowDot (idealRow ⟨p, seed, .randomMask, block, 0, ⟨fun _ _ _ _ => 0, fun _ => List.ofFn σ⟩⟩ 0 x)
        (idealRow ⟨p, seed, .randomMask, block, 0, ⟨fun _ _ _ _ => 0, fun _ => List.ofFn σ⟩⟩ 0 y) =
      p * ((Nat.factorial d : ℝ) * ∑ a, x a * y a) := by
  have hrow : ∀ σ : Equiv.Perm (Fin d),
      rowDot (idealRow ⟨p, seed, .randomMask, block, 0, ⟨fun _ _ _ _ => 0, fun _ => List.ofFn σ⟩⟩ 0 x)
        (idealRow ⟨p, seed, .randomMask, block, 0, ⟨fun _ _ _ _ => 0, fun _ => List.ofFn σ⟩⟩ 0 y) =
      ∑ i : Fin p, x (σ (Fin.castLE hp i)) * y (σ (Fin.castLE hp i)) := by
    intro σ
    simp only [idealRow]
    rw [rowDot_map, (List.Perm.map _ (List.mergeSort_perm _ _)).sum_eq]
    have : (List.ofFn σ).take p = List.ofFn (fun i : Fin p => σ (Fin.castLE hp i)) := by
      apply List.ext_getElem
      · simp [hp]
      · intro i h1 h2; simp
    rw [this, List.map_ofFn, List.sum_ofFn]
    rfl
  simp only [hrow]
  rw [Finset.sum_comm]
  have hconst : ∀ i : Fin d, (d : ℝ) * ∑ σ : Equiv.Perm (Fin d), x (σ i) * y (σ i) = Nat.factorial d * ∑ a, x a * y a := by
    intro i
    -- all positions have the same sum
    have hsame : ∀ k : Fin d, ∑ σ : Equiv.Perm (Fin d), x (σ k) * y (σ k) = ∑ σ : Equiv.Perm (Fin d), x (σ i) * y (σ i) := by
      intro k
      apply Fintype.sum_equiv (Equiv.mulRight (Equiv.swap i k))
      intro σ; simp
    have h1 : ∑ k : Fin d, ∑ σ : Equiv.Perm (Fin d), x (σ k) * y (σ k) = d * ∑ σ : Equiv.Perm (Fin d), x (σ i) * y (σ i) := by
      simp only [hsame, Finset.sum_const, Finset.card_univ, Fintype.card_fin, nsmul_eq_mul]
    rw [← h1, Finset.sum_comm]
    have h2 : ∀ σ : Equiv.Perm (Fin d), ∑ k, x (σ k) * y (σ k) = ∑ a, x a * y a := fun σ =>
      Equiv.sum_comp σ (fun a => x a * y a)
    simp only [h2, Finset.sum_const, Finset.card_univ, Fintype.card_perm, Fintype.card_fin, nsmul_eq_mul]
  rw [Finset.mul_sum]
  simp only [hconst, Finset.sum_const, Finset.card_univ, Fintype.card_fin, nsmul_eq_mul]

/-- **C78** (Rademacher). The inner product of two rows returned by `BasicProjector.project`, averaged over all `2^(d*p)` sign matrices the
generators can draw, is the inner product of the rows — for every block size, so the block-wise generation and the normalisation by `√p`
are right — after any history of calls (other than a freed single-block matrix, see `C28_history`). -/
theorem C78_rademacher_unbiased (block : ℕ) (hb : 0 < block) (seed : ℤ) (hp : 0 < p) (x y : Fin d → ℝ) :
    ∃ u v : (Fin d × Fin p → Bool) → List ℝ,
      (∀ S, ∃ st0, (signProjector block seed S).init = .ok st0 ∧ ∀ h, ¬ (p ≤ block ∧ Lost 0 h 0) →
        ((signProjector block seed S).project ((signProjector block seed S).run st0 h) [x, y] 0).2 = .ok [u S, v S]) ∧
      ∑ S, rowDot (u S) (v S) = 2 ^ (d * p) * ∑ a, x a * y a := by
  refine ⟨fun S => idealRow (signProjector block seed S) 0 x, fun S => idealRow (signProjector block seed S) 0 y, fun S => ?_,
    rademacher_avg block seed hp x y⟩
  obtain ⟨st0, h0, hh⟩ := C28_history (signProjector block seed S) (Or.inr (Or.inl rfl)) hp hb
  refine ⟨st0, h0, fun h hl => (hh h [x, y] 0).2 fun he => hl ?_⟩
  exact ((hh h [x, y] 0).1.1 he).2

/-- The SJLT projector whose draw is the bucket assignment `b` and the signs `S`. -/
noncomputable def sjProjector (seed mult : ℤ) (b : Fin d → Fin p) (S : Fin d → Bool) : Cuda d :=
  ⟨p, seed, .sjlt, mult, ⟨fun _ _ _ _ => 0, fun _ => [], fun _ i => if h : i < d then b ⟨i, h⟩ else 0,
    fun _ i => if h : i < d then sgn (S ⟨i, h⟩) else 1, fun _ _ _ => 0, fun _ _ _ => 0⟩⟩

/-- **C78** (SJLT). The same for the sparse projection: averaged over all bucket assignments and signs, for every ensemble id `e ≠ -1` and
every history of calls. -/
theorem C78_sjlt_unbiased (seed mult e : ℤ) (he : e ≠ -1) (x y : Fin d → ℝ) :
    ∃ u v : (Fin d → Fin p) → (Fin d → Bool) → List ℝ,
      (∀ b S h, ((sjProjector seed mult b S).project ((sjProjector seed mult b S).run (sjProjector seed mult b S).init h) [x, y] e).2 =
        .ok (.rows [u b S, v b S])) ∧
      ∑ b, ∑ S, rowDot (u b S) (v b S) = p ^ d * 2 ^ d * ∑ a, x a * y a := by
  refine ⟨fun b S => cIdealRow (sjProjector seed mult b S) e x, fun b S => cIdealRow (sjProjector seed mult b S) e y, fun b S h => ?_, ?_⟩
  · exact (C77_cuda_history (sjProjector seed mult b S) (fun hk => by simp [sjProjector] at hk) h [x, y] e).1 (Or.inr he)
  · exact sjlt_avg x y

/-- **C79.** `random_mask` keeps coordinates without rescaling: averaged over all permutations (the draw of `randperm`), the inner product
of two rows returned by `BasicProjector.project`, after any history of calls, is `p/d` times the inner product of the rows (for `p ≤ d`),
unlike the other types. -/
theorem C79_mask_scaled (block : ℕ) (hb : 0 < block) (seed : ℤ) (hp0 : 0 < p) (hp : p ≤ d) (x y : Fin d → ℝ) :
    ∃ u v : Equiv.Perm (Fin d) → List ℝ,
      (∀ σ : Equiv.Perm (Fin d), ∃ st0, Basic.init ⟨p, seed, .randomMask, block, 0, ⟨fun _ _ _ _ => 0, fun _ => List.ofFn σ⟩⟩ = .ok st0 ∧ ∀ h,
        (Basic.project ⟨p, seed, .randomMask, block, 0, ⟨fun _ _ _ _ => 0, fun _ => List.ofFn σ⟩⟩
          (Basic.run ⟨p, seed, .randomMask, block, 0, ⟨fun _ _ _ _ => 0, fun _ => List.ofFn σ⟩⟩ st0 h) [x, y] 0).2 = .ok [u σ, v σ]) ∧
      d * ∑ σ, rowDot (u σ) (v σ) = p * ((Nat.factorial d : ℝ) * ∑ a, x a * y a) := by
  refine ⟨fun σ => idealRow ⟨p, seed, .randomMask, block, 0, ⟨fun _ _ _ _ => 0, fun _ => List.ofFn σ⟩⟩ 0 x,
    fun σ => idealRow ⟨p, seed, .randomMask, block, 0, ⟨fun _ _ _ _ => 0, fun _ => List.ofFn σ⟩⟩ 0 y, fun σ => ?_,
    mask_avg block seed hp x y⟩
  obtain ⟨st0, h0, hh⟩ := C28_history ⟨p, seed, .randomMask, block, 0, ⟨fun _ _ _ _ => 0, fun _ => List.ofFn σ⟩⟩
    (Or.inr (Or.inr (Or.inl rfl))) hp0 hb
  refine ⟨st0, h0, fun h => (hh h [x, y] 0).2 fun he => ?_⟩
  have := ((hh h [x, y] 0).1.1 he).1
  simp at this

/-- Non-trivial instance: two of three coordinates are kept. -/
example : (2 : ℕ) ≤ 3 := by decide

/-- One sign matrix with `d = 2`, `p = 1`: the projection of `(3, 4)` is `3 - 4`. -/
example : idealRow (signProjector (d := 2) (p := 1) 100 5 (fun q => q.1 = 0)) 0 ![3, 4] = [-1] := by
  have h := signProjector_entry (d := 2) (p := 1) 100 5 (fun q => q.1 = 0) ![3, 4] 0
  show (List.range 1).map _ = _
  simp only [List.range_one, List.map_cons, List.map_nil]
  refine (congrArg (fun z => [z]) h).trans ?_
  simp [Fin.sum_univ_two, sgn]; norm_num

end Verif.Projection
