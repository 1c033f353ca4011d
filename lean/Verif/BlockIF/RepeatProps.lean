import Verif.BlockIF.BasisProps

/-!
# Block-projected influence scores of repeated and reordered training sets (property C245)
-/

namespace Verif.BlockIF

open Verif

variable {K : Type} [Field K] [CharZero K] {L : ℕ} {d : Fin L → ℕ}

/-! ### Helper lemmas -/

omit [CharZero K] in
theorem sum_repeat {R : Type} {A : Type} [AddCommMonoid A] (k : ℕ) (S : List R) (f : R → A) :
    (((List.replicate k S).flatten).map f).sum = k • (S.map f).sum := by
  induction k with
  | zero => simp
  | succ k ih => rw [List.replicate_succ, List.flatten_cons, List.map_append, List.sum_append, ih,
      succ_nsmul, add_comm]

theorem meanOuter_repeat {k : ℕ} (hk : 0 < k) (l : Fin L) {S S' : List (Row K d)}
    (h : S'.Perm (List.replicate k S).flatten) : meanOuter l S' = meanOuter l S := by
  unfold meanOuter
  have hl : S'.length = k * S.length := by rw [h.length_eq]; simp
  rw [(h.map _).sum_eq, sum_repeat, hl, ← Nat.cast_smul_eq_nsmul K, smul_smul]
  congr 1
  have : (k : K) ≠ 0 := by exact_mod_cast hk.ne'
  push_cast
  rw [mul_inv, mul_right_comm, inv_mul_cancel₀ this, one_mul]

theorem damped_repeat {k : ℕ} (hk : 0 < k) (δ : K) (l : Fin L) {S S' : List (Row K d)}
    (h : S'.Perm (List.replicate k S).flatten) : damped δ l S' = damped δ l S := by
  unfold damped
  rw [meanOuter_repeat hk l h]

variable [DecidableEq K]

/-! ### C245 -/

/-- **C245.** If the training set is given `k ≥ 1` times over, in whatever order and with whatever
batches, caching succeeds exactly when it did, and every copy of a sample gets the score the sample
had. -/
theorem C245_repeat (h : Hessian) (damping : Option K) {D D' : Data K d} (hD : D.WF) (hD' : D'.WF)
    (hne : D.batches ≠ []) (hne' : D'.batches ≠ []) {k : ℕ} (hk : 0 < k)
    (hp : D'.batches.flatten.Perm (List.replicate k D.batches.flatten).flatten) :
    ((∃ st, cache .efim damping (St.new K d none) D = (st, .ok ())) ↔
      ∃ st, cache .efim damping (St.new K d none) D' = (st, .ok ())) ∧
    ∀ st st', cache h damping (St.new K d none) D = (st, .ok ()) →
      cache h damping (St.new K d none) D' = (st', .ok ()) →
      ∀ train train' test : Data K d, test.batches.flatten ≠ [] → ∑ l, d l ≠ 0 →
      ∃ M M', (attribute' h damping st train test).2 = .ok M ∧
        (attribute' h damping st' train' test).2 = .ok M' ∧
        M.r = D.batches.flatten.length ∧ M'.r = k * M.r ∧ M.c = test.batches.flatten.length ∧
        M'.c = M.c ∧
        ∀ (i i' j : ℕ) (g : Row K d), D.batches.flatten[i]? = some g →
          D'.batches.flatten[i']? = some g → j < M.c → M'.f i' j = M.f i j := by
  constructor
  · rw [C60_succeeds damping hD hne, C60_succeeds damping hD' hne']
    refine forall_congr' fun l => ?_
    rw [damped_repeat hk _ l hp]
    unfold Active
    have : D.batches.flatten = [] ↔ D'.batches.flatten = [] := by
      rw [← List.length_eq_zero_iff, ← List.length_eq_zero_iff, hp.length_eq]
      simp [hk.ne']
    rw [Ne, Ne, Ne, this]
  · intro st st' hok hok' train train' test ht hd
    obtain ⟨M, h1, h2⟩ := C60_entries h damping hD hne hok train test ht hd
    obtain ⟨M', h1', h2'⟩ := C60_entries h damping hD' hne' hok' train' test ht hd
    have hr : M.r = D.batches.flatten.length := by rw [h2.r, List.length_map]
    have hr' : M'.r = k * M.r := by
      rw [h2'.r, List.length_map, hp.length_eq, hr]
      simp
    refine ⟨M, M', h1, h1', hr, hr', h2.c, by rw [h2.c, h2'.c], ?_⟩
    intro i i' j g hi hi' hj
    rw [h2.c] at hj
    rw [h2.f i j _ _ (by rw [List.getElem?_map, hi]; rfl) (List.getElem?_eq_getElem hj),
      h2'.f i' j _ _ (by rw [List.getElem?_map, hi']; rfl) (List.getElem?_eq_getElem hj)]
    have : preconditioned h (damping.getD (1 / 100000)) D'.batches.flatten g =
        preconditioned h (damping.getD (1 / 100000)) D.batches.flatten g := by
      cases h with
      | identity => rfl
      | efim =>
        funext l
        change ((damped _ l _)⁻¹).mulVec _ = ((damped _ l _)⁻¹).mulVec _
        rw [damped_repeat hk _ l hp]
    rw [this]

/-- Samples 1 and 2, and then 2, 1, 1, 2 in batches of three: the same score for sample 2. -/
example : ∃ st st' M M',
    cache .efim (some 1) (St.new ℚ d2 none) (Data.of 2 false axes) = (st, .ok ()) ∧
    cache .efim (some 1) (St.new ℚ d2 none)
      (Data.of 3 false [row2 0 1, row2 1 0, row2 1 0, row2 0 1]) = (st', .ok ()) ∧
    (attribute' .efim (some 1) st (Data.of 2 false []) (Data.of 2 false axes)).2 = .ok M ∧
    (attribute' .efim (some 1) st' (Data.of 2 false []) (Data.of 2 false axes)).2 = .ok M' ∧
    M'.f 3 1 = M.f 1 1 := by
  have h := C245_repeat .efim (some 1) (of_wf (bs := 2) (by decide) false axes)
    (of_wf (bs := 3) (by decide) false [row2 0 1, row2 1 0, row2 1 0, row2 0 1]) (by decide)
    (by decide) (k := 2) (by decide) (by
      rw [of_flatten_all (by decide), of_flatten_all (by decide)]
      exact (List.Perm.swap _ _ _))
  obtain ⟨st, _, _, _, h0, _⟩ := C244_stretched
  obtain ⟨st', h'⟩ := h.1.1 ⟨st, h0⟩
  obtain ⟨M, M', a1, a2, a3, a4, a5, a6, a7⟩ := h.2 st st' h0 h' (Data.of 2 false [])
    (Data.of 2 false []) (Data.of 2 false axes) (by decide) (by decide)
  have hc : M.c = 2 := by rw [a5]; rfl
  exact ⟨st, st', M, M', h0, h', a1, a2, a7 1 3 1 (row2 0 1) rfl rfl (by omega)⟩

end Verif.BlockIF
