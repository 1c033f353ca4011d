import Mathlib.Tactic.Linarith
import Mathlib.Tactic.NormNum
import Mathlib.Tactic.Positivity
import Mathlib.Tactic.FieldSimp
import Mathlib.Tactic.Ring
import Mathlib.Algebra.Order.BigOperators.Group.Finset
import Verif.RPS.Model

/-!
# C50, C51: the line search and the fine-tuning loop of RPS
-/

namespace Verif.RPS

variable {ι : Type} [Fintype ι]

lemma geZero_armijo (a b : Option ℝ) (q : ℝ) : GeZero (armijo a b q) ↔ ∃ x y, a = some x ∧ b = some y ∧ y - q ≤ x := by
  unfold GeZero armijo
  cases a with
  | none => simp
  | some x =>
    cases b with
    | none => simp
    | some y =>
      simp only [Option.map_some, Option.bind_some, Option.some.injEq]
      constructor
      · rintro ⟨z, rfl, h⟩; exact ⟨x, y, rfl, rfl, by linarith⟩
      · rintro ⟨x', y', rfl, rfl, h⟩; exact ⟨_, rfl, by linarith⟩

/-- The step size `10 / 2^k` is rejected: the objective there is a number that misses the sufficient decrease. -/
def Rejected (f : (ι → ℝ) → Option ℝ) (g θ : ι → ℝ) (val : Option ℝ) (t : ℝ) : Prop :=
  ∃ x y, f (θ - t • g) = some x ∧ val = some y ∧ y - t * (∑ i, g i ^ 2) / 2 ≤ x

lemma searchLoop_spec (f : (ι → ℝ) → Option ℝ) (g θ : ι → ℝ) (val : Option ℝ) (fuel : ℕ) : ∀ k ≤ 37, 38 ≤ fuel + k →
    ∃ m, k ≤ m ∧ m ≤ 37 ∧ searchLoop f g θ val fuel (10 / 2 ^ k) = some (10 / 2 ^ m, θ - (10 / 2 ^ m : ℝ) • g) ∧
      (∀ j, k ≤ j → j < m → Rejected f g θ val (10 / 2 ^ j)) ∧
      ((10 / 2 ^ m : ℝ) < 1 / 10 ^ 10 ∨ ¬ Rejected f g θ val (10 / 2 ^ m)) := by
  induction fuel with
  | zero => intro k hk h; omega
  | succ fuel ih =>
    intro k hk h
    unfold searchLoop
    by_cases ht : (10 / 2 ^ k : ℝ) < 1 / 10 ^ 10
    · refine ⟨k, le_rfl, hk, by simp only [ht, if_true], by intro j h1 h2; omega, Or.inl ht⟩
    · by_cases hr : Rejected f g θ val (10 / 2 ^ k)
      · have hk37 : k ≠ 37 := by
          rintro rfl
          apply ht; norm_num
        obtain ⟨m, h1, h2, h3, h4, h5⟩ := ih (k + 1) (by omega) (by omega)
        refine ⟨m, by omega, h2, ?_, ?_, h5⟩
        · have hge : GeZero (armijo (f (θ - (10 / 2 ^ k : ℝ) • g)) val (10 / 2 ^ k * normSq g / 2)) := (geZero_armijo _ _ _).2 hr
          simp only [ht, if_false, hge, if_true]
          rw [← h3]
          congr 1
          rw [pow_succ]; field_simp
        · intro j hj hjm
          rcases Nat.eq_or_lt_of_le hj with rfl | hj
          · exact hr
          · exact h4 j hj hjm
      · have hge : ¬ GeZero (armijo (f (θ - (10 / 2 ^ k : ℝ) • g)) val (10 / 2 ^ k * normSq g / 2)) := fun h => hr ((geZero_armijo _ _ _).1 h)
        refine ⟨k, le_rfl, hk, ?_, by intro j h1 h2; omega, Or.inr hr⟩
        simp only [ht, if_false, hge]

/-- **C50.** For every objective (which may be NaN anywhere), point and gradient the line search terminates after at most 37 halvings of the step
size 10; it returns `θ - t g` with the first step size `t = 10 / 2^k` that is below `1e-10`, or satisfies the sufficient-decrease test
`f(θ - t g) < val - t |g|² / 2`, or makes the test undefined because one of the values is NaN. -/
theorem C50_terminates (f : (ι → ℝ) → Option ℝ) (g θ : ι → ℝ) (val : Option ℝ) (fuel : ℕ) (hf : 38 ≤ fuel) :
    ∃ k ≤ 37, ∃ t : ℝ, t = 10 / 2 ^ k ∧ lineSearch f g θ val fuel = some (t, θ - t • g) ∧
      (∀ j < k, Rejected f g θ val (10 / 2 ^ j)) ∧
      (t < 1 / 10 ^ 10 ∨ f (θ - t • g) = none ∨ val = none ∨
        ∃ x y, f (θ - t • g) = some x ∧ val = some y ∧ x < y - t * (∑ i, g i ^ 2) / 2) := by
  obtain ⟨m, -, h2, h3, h4, h5⟩ := searchLoop_spec f g θ val fuel 0 (by omega) (by omega)
  refine ⟨m, h2, _, rfl, ?_, fun j hj => h4 j (Nat.zero_le _) hj, ?_⟩
  · unfold lineSearch
    rw [← h3]; norm_num
  · rcases h5 with h5 | h5
    · exact Or.inl h5
    · right
      cases hx : f (θ - (10 / 2 ^ m : ℝ) • g) with
      | none => exact Or.inl rfl
      | some x =>
        cases hy : val with
        | none => exact Or.inr (Or.inl rfl)
        | some y =>
          refine Or.inr (Or.inr ⟨x, y, rfl, rfl, ?_⟩)
          by_contra hlt
          exact h5 ⟨x, y, hx, hy, not_lt.1 hlt⟩

/-- **C50** (guaranteed progress). If along the search direction the objective is a number and lies below the quadratic upper bound of an
`M`-smooth function with `0 < M ≤ 5·10⁹`, and the gradient is not zero, the search returns a step that does satisfy the decrease test, and
the step size is at least `min(10, 1/(2M))`. -/
theorem C50_progress (f : (ι → ℝ) → Option ℝ) (g θ : ι → ℝ) (v M : ℝ) (F : ℝ → ℝ) (hF : ∀ t, f (θ - t • g) = some (F t))
    (hM0 : 0 < M) (hM : M ≤ 5 * 10 ^ 9) (hg : 0 < ∑ i, g i ^ 2)
    (hsm : ∀ t, 0 ≤ t → F t ≤ v - t * (∑ i, g i ^ 2) + M * t ^ 2 / 2 * (∑ i, g i ^ 2)) (fuel : ℕ) (hf : 38 ≤ fuel) :
    ∃ t : ℝ, lineSearch f g θ (some v) fuel = some (t, θ - t • g) ∧ F t < v - t * (∑ i, g i ^ 2) / 2 ∧ min 10 (1 / (2 * M)) ≤ t := by
  obtain ⟨k, hk, t, ht, hr, hrej, hend⟩ := C50_terminates f g θ (some v) fuel hf
  have hlow : min 10 (1 / (2 * M)) ≤ t := by
    cases k with
    | zero => rw [ht]; simp
    | succ k =>
      obtain ⟨x, y, hx, hy, hxy⟩ := hrej k (Nat.lt_succ_self k)
      rw [hF] at hx
      injection hx with hx
      injection hy with hy
      subst hy; subst hx
      have hs : (0:ℝ) < 10 / 2 ^ k := by positivity
      have h1 := hsm (10 / 2 ^ k) hs.le
      have ht2 : t = 10 / 2 ^ k / 2 := by rw [ht, pow_succ]; field_simp
      generalize (10 / 2 ^ k : ℝ) = s at *
      generalize (∑ i, g i ^ 2) = N at *
      have h2 : s * N / 2 ≤ M * s ^ 2 / 2 * N := by linarith
      have h3 : (1 - M * s) * (s * N) ≤ 0 := by nlinarith
      have h4 : 1 ≤ M * s := by
        by_contra hlt
        have : 0 < (1 - M * s) * (s * N) := mul_pos (by linarith) (mul_pos hs hg)
        linarith
      refine le_trans (min_le_right _ _) ?_
      rw [ht2, div_le_iff₀ (by positivity)]
      nlinarith
  refine ⟨t, hr, ?_, hlow⟩
  rcases hend with h | h | h | ⟨x, y, hx, hy, hxy⟩
  · exfalso
    have h1 : (1 / 10 ^ 10 : ℝ) ≤ min 10 (1 / (2 * M)) := by
      rw [le_min_iff]
      refine ⟨by norm_num, ?_⟩
      rw [div_le_div_iff₀ (by norm_num) (by positivity)]
      linarith
    linarith
  · rw [hF] at h; cases h
  · cases h
  · rw [hF] at hx
    injection hx with hx
    injection hy with hy
    subst hx; subst hy
    exact hxy

/-- Example for `C50_progress`: `f(x) = x²` at `x = 1` with gradient `2`, smoothness `M = 2`. -/
example : (0 : ℝ) < ∑ i : Fin 1, (fun _ => (2:ℝ)) i ^ 2 ∧ ∀ t : ℝ, 0 ≤ t →
    (1 - t * 2) ^ 2 ≤ 1 - t * (∑ i : Fin 1, (fun _ => (2:ℝ)) i ^ 2) + 2 * t ^ 2 / 2 * (∑ i : Fin 1, (fun _ => (2:ℝ)) i ^ 2) := by
  simp only [Finset.univ_unique, Finset.sum_const, Finset.card_singleton, one_smul]
  refine ⟨by norm_num, fun t _ => by nlinarith⟩

/-! ## C51 -/

section Finetune

variable {V : Type}

/-- The parameter visited in epoch `k`. -/
def visit (next : V → V) (init : V) (k : ℕ) : V := next^[k] init

lemma visit_succ (next : V → V) (init : V) (k : ℕ) : visit next init (k + 1) = next (visit next init k) := by
  unfold visit; rw [Function.iterate_succ_apply']

/-- `θ_j` is the first visited parameter with the smallest mean absolute gradient among epochs `0..E`. -/
def FirstMin (m : V → Option ℝ) (next : V → V) (init : V) (E j : ℕ) (g : ℝ) : Prop :=
  j ≤ E ∧ m (visit next init j) = some g ∧ (∀ i ≤ E, ∀ b, m (visit next init i) = some b → g ≤ b) ∧
    ∀ i < j, ∀ b, m (visit next init i) = some b → g < b

lemma firstMin_extend_ge {m : V → Option ℝ} {next : V → V} {init : V} {E j : ℕ} {g : ℝ} (h : FirstMin m next init E j g)
    (hn : ∀ b, m (visit next init (E + 1)) = some b → g ≤ b) : FirstMin m next init (E + 1) j g := by
  obtain ⟨h1, h2, h3, h4⟩ := h
  refine ⟨by omega, h2, fun i hi b hb => ?_, h4⟩
  rcases Nat.lt_or_eq_of_le hi with hi | rfl
  · exact h3 i (by omega) b hb
  · exact hn b hb

lemma firstMin_extend_lt {m : V → Option ℝ} {next : V → V} {init : V} {E j : ℕ} {g g' : ℝ} (h : FirstMin m next init E j g)
    (hm : m (visit next init (E + 1)) = some g') (hlt : g' < g) : FirstMin m next init (E + 1) (E + 1) g' := by
  obtain ⟨h1, h2, h3, h4⟩ := h
  refine ⟨le_rfl, hm, fun i hi b hb => ?_, fun i hi b hb => lt_of_lt_of_le hlt (h3 i (by omega) b hb)⟩
  rcases Nat.lt_or_eq_of_le hi with hi | rfl
  · exact (lt_of_lt_of_le hlt (h3 i (by omega) b hb)).le
  · rw [hm] at hb; injection hb with hb; exact hb.le

/-- Loop invariant from epoch `e + 1` on. -/
lemma ftLoop_spec (m : V → Option ℝ) (next : V → V) (init : V) (g0 : ℝ) (n : ℕ) : ∀ (e j : ℕ) (g : ℝ), FirstMin m next init e j g →
    (∀ i ≤ e, ∀ b, m (visit next init i) = some b → ¬ b < g0 / 200) →
    ∃ E j', e ≤ E ∧ E ≤ e + n ∧ ftLoop m next n (e + 1) ⟨visit next init (e + 1), g, some g0, some (visit next init j)⟩ = .ok (visit next init j') ∧
      (∃ g', FirstMin m next init E j' g' ∧ (E = e + n ∨ g' < g0 / 200)) ∧
      (∀ i < E, ∀ b, m (visit next init i) = some b → ¬ b < g0 / 200) := by
  induction n with
  | zero =>
    intro e j g hmin hno
    exact ⟨e, j, le_rfl, by omega, rfl, ⟨g, hmin, Or.inl (by omega)⟩, fun i hi => hno i hi.le⟩
  | succ n ih =>
    intro e j g hmin hno
    have hext : ∀ (he1 : ∀ b, m (visit next init (e + 1)) = some b → ¬ b < g0 / 200), ∀ i ≤ e + 1, ∀ b, m (visit next init i) = some b → ¬ b < g0 / 200 := by
      intro he1 i hi b hb
      rcases Nat.lt_or_eq_of_le hi with hi | rfl
      · exact hno i (by omega) b hb
      · exact he1 b hb
    unfold ftLoop
    cases hm : m (visit next init (e + 1)) with
    | none =>
      simp only [← visit_succ]
      obtain ⟨E, j', h1, h2, h3, h4, h5⟩ := ih (e + 1) j g (firstMin_extend_ge hmin (by simp [hm])) (hext (by simp [hm]))
      obtain ⟨g', hg', ho⟩ := h4
      exact ⟨E, j', by omega, by omega, h3, ⟨g', hg', ho.imp_left (by omega)⟩, h5⟩
    | some b =>
      simp only []
      by_cases hlt : b < g
      · simp only [hlt, if_true, Nat.add_eq_zero_iff, one_ne_zero, and_false, if_false]
        by_cases hstop : b < g0 / 200
        · simp only [hstop, if_true]
          refine ⟨e + 1, e + 1, by omega, by omega, rfl, ⟨b, firstMin_extend_lt hmin hm hlt, Or.inr hstop⟩, fun i hi => hno i (by omega)⟩
        · simp only [hstop, if_false, ← visit_succ]
          obtain ⟨E, j', h1, h2, h3, h4, h5⟩ := ih (e + 1) (e + 1) b (firstMin_extend_lt hmin hm hlt)
            (hext (by intro b' hb'; rw [hm] at hb'; injection hb' with hb'; rw [← hb']; exact hstop))
          obtain ⟨g', hg', ho⟩ := h4
          exact ⟨E, j', by omega, by omega, h3, ⟨g', hg', ho.imp_left (by omega)⟩, h5⟩
      · simp only [hlt, if_false, ← visit_succ]
        have hnl : ∀ b', m (visit next init (e + 1)) = some b' → g ≤ b' := by
          intro b' hb'; rw [hm] at hb'; injection hb' with hb'; rw [← hb']; exact not_lt.1 hlt
        obtain ⟨hj, hmj, -, -⟩ := id hmin
        obtain ⟨E, j', h1, h2, h3, h4, h5⟩ := ih (e + 1) j g (firstMin_extend_ge hmin hnl)
          (hext (fun b' hb' hh => hno j hj g hmj (lt_of_le_of_lt (hnl b' hb') hh)))
        obtain ⟨g', hg', ho⟩ := h4
        exact ⟨E, j', by omega, by omega, h3, ⟨g', hg', ho.imp_left (by omega)⟩, h5⟩

/-- Without a usable first gradient the loop cannot succeed: the first later improvement reads the unbound `init_grad`. -/
lemma ftLoop_unbound (m : V → Option ℝ) (next : V → V) (n : ℕ) : ∀ (e : ℕ) (θ : V) (b : ℝ),
    ftLoop m next n (e + 1) ⟨θ, b, none, none⟩ = .error .unboundLocalError := by
  induction n with
  | zero => intro e θ b; rfl
  | succ n ih =>
    intro e θ b
    unfold ftLoop
    cases hm : m θ with
    | none => exact ih _ _ _
    | some g =>
      simp only []
      by_cases hlt : g < b
      · simp [hlt]
      · simp only [hlt, if_false]; exact ih _ _ _

/-- **C51.** Let the first visited gradient be the number `g₀ < 10000` and at least one epoch be requested. Then the loop executes epochs `0..E`, where
`E` is the first epoch whose mean absolute gradient is below `g₀/200` (or the last epoch), and returns the first visited parameter with
the smallest mean absolute gradient among them. -/
theorem C51_best (m : V → Option ℝ) (next : V → V) (n : ℕ) (hn : 0 < n) (init : V) (g0 : ℝ) (h0 : m init = some g0) (hg0 : g0 < 10000)
    (hpos : 0 ≤ g0) :
    ∃ E < n, ∃ j g, finetune m next n init = .ok (visit next init j) ∧ FirstMin m next init E j g ∧ (E = n - 1 ∨ g < g0 / 200) ∧
      ∀ i < E, ∀ b, m (visit next init i) = some b → ¬ b < g0 / 200 := by
  obtain ⟨n, rfl⟩ : ∃ k, n = k + 1 := ⟨n - 1, by omega⟩
  have hno : ¬ g0 < g0 / 200 := by linarith
  have h0' : m (visit next init 0) = some g0 := h0
  have hmin : FirstMin m next init 0 0 g0 := by
    refine ⟨le_rfl, h0', fun i hi b hb => ?_, fun i hi => by omega⟩
    obtain rfl : i = 0 := by omega
    rw [h0'] at hb; injection hb with hb; exact hb.le
  obtain ⟨E, j, h1, h2, h3, ⟨g, h4, h5⟩, h6⟩ := ftLoop_spec m next init g0 n 0 0 g0 hmin (by
    intro i hi b hb
    obtain rfl : i = 0 := by omega
    rw [h0'] at hb; injection hb with hb; rw [← hb]; exact hno)
  refine ⟨E, by omega, j, g, ?_, h4, h5.imp_left (by omega), h6⟩
  refine Eq.trans ?_ h3
  conv_lhs => unfold finetune ftLoop
  simp only [h0, hg0, if_true, hno, if_false]
  rfl

/-- **C51** (failure). The call raises `UnboundLocalError` exactly if no epoch is requested, or the first gradient is NaN or at least 10000 — even
when later epochs would have smaller gradients; there are no other exceptions. -/
theorem C51_fails_iff (m : V → Option ℝ) (hm : ∀ v g, m v = some g → 0 ≤ g) (next : V → V) (n : ℕ) (init : V) :
    (finetune m next n init = .error .unboundLocalError ↔ n = 0 ∨ ∀ g, m init = some g → 10000 ≤ g) ∧
    ∀ e, finetune m next n init = .error e → e = .unboundLocalError := by
  have key : (n = 0 ∨ ∀ g, m init = some g → 10000 ≤ g) → finetune m next n init = .error .unboundLocalError := by
    rintro (rfl | h)
    · rfl
    · cases n with
      | zero => rfl
      | succ n =>
        unfold finetune ftLoop
        cases hi : m init with
        | none => exact ftLoop_unbound m next n 0 _ _
        | some g =>
          simp only [not_lt.2 (h g hi), if_false]
          exact ftLoop_unbound m next n 0 _ _
  have ok : ¬ (n = 0 ∨ ∀ g, m init = some g → 10000 ≤ g) → ∃ v, finetune m next n init = .ok v := by
    intro h
    push Not at h
    obtain ⟨hn, g, hg, hlt⟩ := h
    obtain ⟨E, -, j, g', h, -⟩ := C51_best m next n (Nat.pos_of_ne_zero hn) init g hg hlt (hm _ _ hg)
    exact ⟨_, h⟩
  refine ⟨⟨fun h => ?_, key⟩, fun e he => ?_⟩
  · by_contra hc
    obtain ⟨v, hv⟩ := ok hc
    rw [hv] at h; cases h
  · by_cases hc : n = 0 ∨ ∀ g, m init = some g → 10000 ≤ g
    · rw [key hc] at he; injection he with he; exact he.symm
    · obtain ⟨v, hv⟩ := ok hc
      rw [hv] at he; cases he

/-- Example: gradients 5, 2, 3 at the parameters 0, 1, 2: the best of the three epochs is returned. -/
example : ∃ E < 3, ∃ j g, finetune (fun v : ℕ => some (if v = 0 then (5:ℝ) else if v = 1 then 2 else 3)) (· + 1) 3 0 = .ok j ∧
    FirstMin (fun v : ℕ => some (if v = 0 then (5:ℝ) else if v = 1 then 2 else 3)) (· + 1) 0 E j g ∧ (E = 2 ∨ g < 5 / 200) := by
  obtain ⟨E, h1, j, g, h2, h3, h4, -⟩ := C51_best (fun v : ℕ => some (if v = 0 then (5:ℝ) else if v = 1 then 2 else 3)) (· + 1) 3 (by norm_num)
    0 5 (by simp) (by norm_num) (by norm_num)
  have : ∀ k, visit (· + 1) 0 k = k := by
    intro k; induction k with
    | zero => rfl
    | succ k ih => rw [visit_succ, ih]
  rw [this] at h2
  exact ⟨E, h1, j, g, h2, h3, h4⟩

end Finetune

end Verif.RPS
