import Verif.KNN.RoundModel
import Verif.KNN.SignProps
import Verif.TracIn.RoundProps
import Verif.Metric.FloatGTProps
import Mathlib.Analysis.Complex.ExponentialBounds

/-! # C219: KNN-Shapley values in floating point -/

namespace Verif.KNNRound

open Verif.TracInRound Verif.KNN

/-! ## Specification -/

/-- `nn` lists `N` different samples. -/
def Listing (N : ℕ) (nn : ℕ → ℕ) : Prop := ∀ a < N, ∀ b < N, nn a = nn b → a = b

/-- How often matching and not matching alternate from rank `i` on to the farthest of the `N` samples. -/
def switches (N : ℕ) (nn : ℕ → ℕ) (m : ℕ → Bool) (i : ℕ) : ℕ :=
  ((List.range (N - 1)).filter fun r : ℕ => decide (i ≤ r) && (m (nn r) != m (nn (r + 1)))).length

/-! ## Rounding -/

theorem float32_eq_roundTo (x : ℝ) : float32 x = roundTo 23 (-126) x := rfl

theorem roundTo_zero (p : ℕ) (e : ℤ) : roundTo p e 0 = 0 := by simp [roundTo, roundEven]

theorem float32_zero : float32 0 = 0 := roundTo_zero _ _

theorem float64_zero : float64 0 = 0 := roundTo_zero _ _

theorem roundTo_rounds (p : ℕ) (e : ℤ) : Rounds (2 ^ (-(p : ℤ) - 1)) (2 ^ (e - p - 1)) (roundTo p e) := by
  intro x
  by_cases hx : x = 0
  · subst hx
    rw [roundTo_zero]
    simp
    positivity
  have hp : (0 : ℝ) < 2 ^ place p e x := zpow_pos (by norm_num) _
  have h1 : |roundTo p e x - x| ≤ 2 ^ (place p e x - 1) := by
    have hx : roundTo p e x - x = (roundEven (x / 2 ^ place p e x) - x / 2 ^ place p e x) * 2 ^ place p e x := by
      unfold roundTo
      field_simp
    rw [hx, abs_mul, abs_of_pos hp, zpow_sub_one₀ (by norm_num)]
    have := mul_le_mul_of_nonneg_right (roundEven_near (x / 2 ^ place p e x)) hp.le
    linarith
  refine h1.trans ?_
  rcases le_total (Int.log 2 |x|) e with h | h
  · have h2 : place p e x - 1 = e - p - 1 := by unfold place; rw [max_eq_right h]
    rw [h2]
    have : (0 : ℝ) ≤ 2 ^ (-(p : ℤ) - 1) * |x| := by positivity
    linarith
  · have h2 : place p e x - 1 = (-(p : ℤ) - 1) + Int.log 2 |x| := by unfold place; rw [max_eq_left h]; ring
    rw [h2, zpow_add₀ (by norm_num)]
    have h0 : (0 : ℝ) ≤ 2 ^ (e - p - 1) := by positivity
    have hl : ((2 : ℕ) : ℝ) ^ Int.log 2 |x| ≤ |x| := Int.zpow_log_le_self (by norm_num) (abs_pos.2 hx)
    push_cast at hl
    have := mul_le_mul_of_nonneg_left hl (by positivity : (0 : ℝ) ≤ 2 ^ (-(p : ℤ) - 1))
    linarith

theorem roundTo_fix (p : ℕ) (e : ℤ) (x : ℝ) (z : ℤ) (h : x = z * 2 ^ place p e x) : roundTo p e x = x := by
  unfold roundTo
  have hp : (2 : ℝ) ^ place p e x ≠ 0 := zpow_ne_zero _ (by norm_num)
  have : x / 2 ^ place p e x = z := by rw [div_eq_iff hp]; exact h
  rw [this, roundEven_int, ← h]

/-- A multiple of a power of two of at least the last place is not changed. -/
theorem roundTo_fix_le (p : ℕ) (e : ℤ) (x : ℝ) (z k : ℤ) (h : x = z * 2 ^ k) (hk : place p e x ≤ k) : roundTo p e x = x := by
  obtain ⟨n, hn⟩ := Int.eq_ofNat_of_zero_le (sub_nonneg.2 hk)
  refine roundTo_fix p e x (z * 2 ^ n) ?_
  have e1 : k = (n : ℤ) + place p e x := by omega
  conv_lhs => rw [h, e1, zpow_add₀ (by norm_num)]
  push_cast
  rw [zpow_natCast]
  ring

theorem place_le (p : ℕ) (e k : ℤ) (x : ℝ) (h0 : x ≠ 0) (hx : |x| < 2 ^ (k + p + 1)) (he : e ≤ k + p) : place p e x ≤ k := by
  have h2 : Int.log 2 |x| < k + p + 1 := by
    rw [← Int.lt_zpow_iff_log_lt (by norm_num) (abs_pos.2 h0)]
    exact_mod_cast hx
  unfold place
  omega

theorem le_place (p : ℕ) (e : ℤ) (x : ℝ) : e ≤ place p e x + p := by
  unfold place
  omega

/-- The exponent of a number between two powers of two. -/
theorem place_eq (p : ℕ) (e E : ℤ) (x : ℝ) (hE : e ≤ E) (h : 2 ^ E ≤ |x|) (h' : |x| < 2 ^ (E + 1)) : place p e x = E - p := by
  have hx : 0 < |x| := lt_of_lt_of_le (zpow_pos (by norm_num) _) h
  have h1 : E ≤ Int.log 2 |x| := by
    rw [← Int.zpow_le_iff_le_log (by norm_num) hx]
    exact_mod_cast h
  have h2 : Int.log 2 |x| < E + 1 := by
    rw [← Int.lt_zpow_iff_log_lt (by norm_num) hx]
    exact_mod_cast h'
  unfold place
  omega

theorem roundEven_eq (t : ℝ) (n : ℤ) (h : |t - n| < 1 / 2) : roundEven t = n := by
  have h1 := abs_le.1 (roundEven_near t)
  have h2 := abs_lt.1 h
  have h3 : ((roundEven t - n : ℤ) : ℝ) < 1 := by push_cast; linarith
  have h4 : ((-1 : ℤ) : ℝ) < ((roundEven t - n : ℤ) : ℝ) := by push_cast; linarith
  have h5 : roundEven t - n < 1 := by exact_mod_cast h3
  have h6 : -1 < roundEven t - n := by exact_mod_cast h4
  omega

/-- Half-way cases go to the even neighbour. -/
theorem roundEven_tie (n : ℤ) (h : n % 2 = 0) : roundEven (n + 1 / 2) = n := by
  have h1 : ⌊(n : ℝ) + 1 / 2⌋ = n := by
    rw [Int.floor_eq_iff]
    constructor <;> linarith
  have h2 : Int.fract ((n : ℝ) + 1 / 2) = 1 / 2 := by
    rw [Int.fract, h1]
    ring
  unfold roundEven
  rw [h1, h2, if_neg (lt_irrefl _), if_neg (lt_irrefl _), if_pos h]

/-- Evaluation at a number between two powers of two. -/
theorem roundTo_eval (p : ℕ) (e E : ℤ) (x : ℝ) (n : ℤ) (hE : e ≤ E) (h : 2 ^ E ≤ |x|) (h' : |x| < 2 ^ (E + 1))
    (hn : roundEven (x / 2 ^ (E - p)) = n) : roundTo p e x = n * 2 ^ (E - p) := by
  unfold roundTo
  rw [place_eq p e E x hE h h', hn]

theorem roundTo_int (p : ℕ) (e : ℤ) (he : e ≤ p) (z : ℤ) (hz : |(z : ℝ)| ≤ 2 ^ p) : roundTo p e z = z := by
  by_cases h0 : (z : ℝ) = 0
  · rw [h0, roundTo_zero]
  · refine roundTo_fix_le p e z z 0 (by simp) (place_le p e 0 _ h0 ?_ (by omega))
    refine lt_of_le_of_lt hz ?_
    rw [← zpow_natCast]
    exact zpow_lt_zpow_right₀ (by norm_num) (by omega)

/-- A number below `2 ^ E` is rounded to at most `2 ^ E`. -/
theorem roundTo_idem (p : ℕ) (e : ℤ) (x : ℝ) : roundTo p e (roundTo p e x) = roundTo p e x := by
  by_cases hx : x = 0
  · rw [hx, roundTo_zero, roundTo_zero]
  by_cases hy : roundTo p e x = 0
  · rw [hy, roundTo_zero]
  set k := place p e x with hk
  have hp : (0 : ℝ) < 2 ^ k := zpow_pos (by norm_num) _
  have he : e ≤ k + p := le_place p e x
  have hv : roundTo p e x = roundEven (x / 2 ^ k) * 2 ^ k := rfl
  set z := roundEven (x / 2 ^ k) with hz
  have hlt : |x| < 2 ^ (k + p + 1) := by
    have h1 : Int.log 2 |x| < k + p + 1 := by rw [hk]; unfold place; omega
    rw [← Int.lt_zpow_iff_log_lt (by norm_num) (abs_pos.2 hx)] at h1
    exact_mod_cast h1
  have ht : |x / 2 ^ k| < 2 ^ (p + 1) := by
    rw [abs_div, abs_of_pos hp, div_lt_iff₀ hp]
    refine lt_of_lt_of_eq hlt ?_
    rw [← zpow_natCast, ← zpow_add₀ (by norm_num)]
    congr 1
    push_cast
    ring
  have hzle : |z| ≤ 2 ^ (p + 1) := by
    have h1 := abs_le.1 (roundEven_near (x / 2 ^ k))
    have h2 := abs_lt.1 ht
    have h3 : ((z : ℤ) : ℝ) < ((2 ^ (p + 1) + 1 : ℤ) : ℝ) := by push_cast; rw [hz]; linarith
    have h4 : ((-(2 ^ (p + 1) + 1) : ℤ) : ℝ) < ((z : ℤ) : ℝ) := by push_cast; rw [hz]; linarith
    have h5 : z < 2 ^ (p + 1) + 1 := by exact_mod_cast h3
    have h6 : -(2 ^ (p + 1) + 1) < z := by exact_mod_cast h4
    rw [abs_le]
    constructor <;> linarith
  rcases hzle.lt_or_eq with h | h
  · refine roundTo_fix_le p e _ z k hv (place_le p e k _ hy ?_ he)
    rw [hv, abs_mul, abs_of_pos hp, show k + (p : ℤ) + 1 = ((p + 1 : ℕ) : ℤ) + k by push_cast; ring,
      zpow_add₀ (by norm_num), zpow_natCast]
    refine mul_lt_mul_of_pos_right ?_ hp
    exact_mod_cast h
  · have hab : |(z : ℝ)| = 2 ^ (p + 1) := by exact_mod_cast h
    obtain ⟨w, hw⟩ : ∃ w : ℤ, (z : ℝ) = w * 2 ^ (p + 1) := by
      rcases (abs_eq (by positivity)).1 hab with h | h
      · exact ⟨1, by rw [h]; simp⟩
      · exact ⟨-1, by rw [h]; simp⟩
    refine roundTo_fix_le p e _ w (k + p + 1) ?_ (place_le p e _ _ hy ?_ (by omega))
    · rw [hv, hw, show k + (p : ℤ) + 1 = ((p + 1 : ℕ) : ℤ) + k by push_cast; ring, zpow_add₀ (by norm_num), zpow_natCast]
      ring
    · rw [hv, abs_mul, abs_of_pos hp, hab, ← zpow_natCast, ← zpow_add₀ (by norm_num)]
      exact zpow_lt_zpow_right₀ (by norm_num) (by push_cast; omega)

theorem roundTo_nonneg (p : ℕ) (e : ℤ) {x : ℝ} (h : 0 ≤ x) : 0 ≤ roundTo p e x := by
  unfold roundTo
  have h1 : (0 : ℝ) ≤ x / 2 ^ place p e x := by positivity
  have h2 := FloatGT.roundEven_mono h1
  have h3 : roundEven (0 : ℝ) = 0 := by simpa using roundEven_int 0
  rw [h3] at h2
  have h4 : (0 : ℝ) ≤ roundEven (x / 2 ^ place p e x) := by exact_mod_cast h2
  positivity

theorem roundTo_nonpos (p : ℕ) (e : ℤ) {x : ℝ} (h : x ≤ 0) : roundTo p e x ≤ 0 := by
  unfold roundTo
  have hp : (0 : ℝ) < 2 ^ place p e x := zpow_pos (by norm_num) _
  have h1 : x / 2 ^ place p e x ≤ 0 := div_nonpos_of_nonpos_of_nonneg h hp.le
  have h2 := FloatGT.roundEven_mono h1
  have h3 : roundEven (0 : ℝ) = 0 := by simpa using roundEven_int 0
  rw [h3] at h2
  have h4 : (roundEven (x / 2 ^ place p e x) : ℝ) ≤ 0 := by exact_mod_cast h2
  exact mul_nonpos_of_nonpos_of_nonneg h4 hp.le

theorem float32_idem (x : ℝ) : float32 (float32 x) = float32 x := roundTo_idem 23 (-126) x

theorem float32_nat (n : ℕ) (hn : n ≤ 2 ^ 24) : float32 n = n := by
  have := C203_float32_integers (n : ℤ) (by
    push_cast
    rw [abs_of_nonneg (by positivity)]
    exact_mod_cast hn)
  exact_mod_cast this

theorem float64_nat (n : ℕ) (hn : n ≤ 2 ^ 52) : float64 n = n := by
  have := roundTo_int 52 (-1022) (by norm_num) (n : ℤ) (by
    push_cast
    rw [abs_of_nonneg (by positivity)]
    exact_mod_cast hn)
  exact_mod_cast this

/-! ## Relative errors -/

/-- `y` is `X` up to a relative error of `a`. -/
def Near (a y X : ℝ) : Prop := |y - X| ≤ a * |X|

theorem Near.scale {a y X : ℝ} (h : Near a y X) (c : ℝ) : Near a (y * c) (X * c) := by
  unfold Near at *
  rw [← sub_mul, abs_mul, abs_mul, ← mul_assoc]
  exact mul_le_mul_of_nonneg_right h (abs_nonneg c)

theorem Near.mul {a b y X z Z : ℝ} (ha : 0 ≤ a) (h : Near a y X) (h' : Near b z Z) : Near (a + b + a * b) (y * z) (X * Z) := by
  unfold Near at *
  have e : y * z - X * Z = (y - X) * (z - Z) + (y - X) * Z + X * (z - Z) := by ring
  rw [e]
  have h1 := abs_add_le ((y - X) * (z - Z) + (y - X) * Z) (X * (z - Z))
  have h2 := abs_add_le ((y - X) * (z - Z)) ((y - X) * Z)
  simp only [abs_mul] at *
  have h3 : |y - X| * |z - Z| ≤ (a * |X|) * (b * |Z|) := mul_le_mul h h' (abs_nonneg _) (by positivity)
  have h4 : |y - X| * |Z| ≤ a * |X| * |Z| := mul_le_mul_of_nonneg_right h (abs_nonneg _)
  have h5 : |X| * |z - Z| ≤ |X| * (b * |Z|) := mul_le_mul_of_nonneg_left h' (abs_nonneg _)
  nlinarith

theorem Near.round {u η w a y X : ℝ} {fl : ℝ → ℝ} (hf : Rounds u η fl) (hu : 0 ≤ u) (hX : 2 ^ (-24 : ℤ) ≤ |X|) (h : Near a y X)
    (hw : u * (1 + a) + η * 2 ^ 24 ≤ w) (hη : 0 ≤ η) : Near (a + w) (fl y) X := by
  unfold Near at *
  have h1 := hf y
  have h2 : |fl y - X| ≤ |fl y - y| + |y - X| := abs_sub_le _ _ _
  have h3 : |y| ≤ (1 + a) * |X| := by
    have := abs_sub_abs_le_abs_sub y X
    linarith
  have h4 : u * |y| ≤ u * ((1 + a) * |X|) := mul_le_mul_of_nonneg_left h3 hu
  have h5 : η ≤ η * 2 ^ 24 * |X| := by
    have : η * (2 ^ 24 * 2 ^ (-24 : ℤ)) ≤ η * (2 ^ 24 * |X|) := by gcongr
    have e : (2 : ℝ) ^ 24 * 2 ^ (-24 : ℤ) = 1 := by norm_num
    rw [e] at this
    linarith
  have h6 := mul_le_mul_of_nonneg_right hw (abs_nonneg X)
  nlinarith

theorem Near.refl {X : ℝ} : Near 0 X X := by simp [Near]

theorem Near.weaken {a b y X : ℝ} (h : Near a y X) (hab : a ≤ b) : Near b y X := by
  unfold Near at *
  exact h.trans (mul_le_mul_of_nonneg_right hab (abs_nonneg X))

/-- The unit of float32. -/
noncomputable def unit : ℝ := 2 ^ (-24 : ℤ)

theorem unit_eq : unit = 1 / 16777216 := by unfold unit; norm_num

theorem Near.single {a y X : ℝ} (hX : 2 ^ (-24 : ℤ) ≤ |X|) (h : Near a y X) (ha : a ≤ 4 * unit) :
    Near (a + 1.01 * unit) (float32 y) X := by
  refine h.round C203_float32 (by positivity) hX ?_ (by positivity)
  have : (2 : ℝ) ^ (-150 : ℤ) * 2 ^ 24 ≤ 2 ^ (-60 : ℤ) := by norm_num
  have h1 : (2 : ℝ) ^ (-24 : ℤ) * (1 + a) ≤ 2 ^ (-24 : ℤ) * (1 + 4 * unit) := by gcongr
  rw [unit_eq] at *
  norm_num at *
  linarith

theorem Near.double {a y X : ℝ} (hX : 2 ^ (-24 : ℤ) ≤ |X|) (h : Near a y X) (ha : a ≤ 4 * unit) :
    Near (a + 0.01 * unit) (float64 y) X := by
  have hd : Rounds (2 ^ (-53 : ℤ)) (2 ^ (-1075 : ℤ)) float64 := roundTo_rounds 52 (-1022)
  refine h.round hd (by positivity) hX ?_ (by positivity)
  have : (2 : ℝ) ^ (-1075 : ℤ) * 2 ^ 24 ≤ 2 ^ (-60 : ℤ) := by
    rw [← zpow_natCast, ← zpow_add₀ (by norm_num)]
    exact zpow_le_zpow_right₀ (by norm_num) (by norm_num)
  have h1 : (2 : ℝ) ^ (-53 : ℤ) * (1 + a) ≤ 2 ^ (-53 : ℤ) * (1 + 4 * unit) := by gcongr
  generalize (2 : ℝ) ^ (-1075 : ℤ) * 2 ^ 24 = t at this ⊢
  rw [unit_eq] at *
  norm_num at *
  linarith

/-! ## The terms -/

theorem change_same (K i : ℕ) (a : Bool) : change K i a a = 0 := by
  simp [change, float32_zero, float64_zero]

theorem small_le {n : ℕ} (hn : 0 < n) (h : n ≤ 2 ^ 24) : (2 : ℝ) ^ (-24 : ℤ) ≤ 1 / n := by
  rw [zpow_neg, ← one_div]
  have h' : (n : ℝ) ≤ 2 ^ (24 : ℤ) := by exact_mod_cast h
  exact one_div_le_one_div_of_le (by exact_mod_cast hn) h'

theorem change_nonneg (K i : ℕ) : 0 ≤ change K i true false := by
  have h0 : (0 : ℝ) ≤ float32 (i + 1 : ℕ) := roundTo_nonneg _ _ (by positivity)
  have h1 : (0 : ℝ) ≤ float64 ((bit true - bit false) / K) := roundTo_nonneg _ _ (by simp [bit])
  have h2 : (0 : ℝ) ≤ float64 K := roundTo_nonneg _ _ (by positivity)
  unfold change
  simp only
  split_ifs
  · exact roundTo_nonneg _ _ (div_nonneg (roundTo_nonneg _ _ (mul_nonneg (roundTo_nonneg _ _ h1) h0)) h0)
  · exact roundTo_nonneg _ _ (mul_nonneg (roundTo_nonneg _ _ (by positivity)) (roundTo_nonneg _ _ (roundTo_nonneg _ _ (mul_nonneg h1 h2))))

theorem change_nonpos (K i : ℕ) : change K i false true ≤ 0 := by
  have h0 : (0 : ℝ) ≤ float32 (i + 1 : ℕ) := roundTo_nonneg _ _ (by positivity)
  have h1 : float64 ((bit false - bit true) / K) ≤ 0 :=
    roundTo_nonpos _ _ (div_nonpos_of_nonpos_of_nonneg (by simp [bit]) (by positivity))
  have h2 : (0 : ℝ) ≤ float64 K := roundTo_nonneg _ _ (by positivity)
  unfold change
  simp only
  split_ifs
  · exact roundTo_nonpos _ _ (div_nonpos_of_nonpos_of_nonneg
      (roundTo_nonpos _ _ (mul_nonpos_of_nonpos_of_nonneg (roundTo_nonpos _ _ h1) h0)) h0)
  · exact roundTo_nonpos _ _ (mul_nonpos_of_nonneg_of_nonpos (roundTo_nonneg _ _ (by positivity))
      (roundTo_nonpos _ _ (roundTo_nonpos _ _ (mul_nonpos_of_nonpos_of_nonneg h1 h2))))

/-- The exact term. -/
noncomputable def term (K i : ℕ) (a b : Bool) : ℝ := (bit a - bit b) / K * (min K (i + 1) : ℕ) / (i + 1 : ℕ)

theorem bit_abs {a b : Bool} (h : a ≠ b) : |bit a - bit b| = 1 := by
  cases a <;> cases b <;> simp_all [bit]

theorem change_near (K i : ℕ) (hK : 0 < K) (hK' : K ≤ 2 ^ 24) (hi : i + 1 ≤ 2 ^ 24) (a b : Bool) :
    Near (3.1 * unit) (change K i a b) (term K i a b) := by
  by_cases hab : a = b
  · subst hab
    rw [change_same]
    simp [term, Near]
  have hu : 0 < unit := by rw [unit_eq]; norm_num
  have hX := bit_abs hab
  have hKr : (0 : ℝ) < K := by exact_mod_cast hK
  have hir : (0 : ℝ) < (i + 1 : ℕ) := by positivity
  have s1 : (2 : ℝ) ^ (-24 : ℤ) ≤ |(bit a - bit b) / K| := by
    rw [abs_div, hX, abs_of_pos hKr]
    exact small_le hK hK'
  have h1 : Near (0.01 * unit) (float64 ((bit a - bit b) / K)) ((bit a - bit b) / K) :=
    (Near.double s1 Near.refl (by linarith)).weaken (by linarith)
  unfold change
  simp only
  split_ifs with hb
  · rw [float32_nat _ hi]
    have e : term K i a b = (bit a - bit b) / K := by
      unfold term
      rw [min_eq_right hb.le]
      field_simp
    rw [e]
    have h2 := Near.single s1 h1 (by linarith)
    have h3 := h2.scale ((i + 1 : ℕ) : ℝ)
    have s2 : (2 : ℝ) ^ (-24 : ℤ) ≤ |(bit a - bit b) / K * (i + 1 : ℕ)| := by
      rw [abs_mul, abs_of_pos hir]
      have : (1 : ℝ) ≤ (i + 1 : ℕ) := by exact_mod_cast (by omega : 1 ≤ i + 1)
      have h0 := abs_nonneg ((bit a - bit b) / (K : ℝ))
      nlinarith
    have h4 := Near.single s2 h3 (by linarith)
    have h5 := h4.scale (((i + 1 : ℕ) : ℝ)⁻¹)
    rw [mul_inv_cancel_right₀ hir.ne'] at h5
    have h6 := Near.single s1 h5 (by linarith)
    rw [← div_eq_mul_inv] at h6
    exact h6.weaken (by linarith)
  · rw [float32_nat _ hi, float64_nat _ (hK'.trans (by norm_num))]
    have e : term K i a b = 1 / (i + 1 : ℕ) * (bit a - bit b) := by
      unfold term
      rw [min_eq_left (not_lt.1 hb)]
      field_simp
    have h2 := h1.scale (K : ℝ)
    rw [div_mul_cancel₀ _ hKr.ne'] at h2
    have s2 : (2 : ℝ) ^ (-24 : ℤ) ≤ |bit a - bit b| := by rw [hX]; norm_num
    have h3 := Near.double s2 h2 (by linarith)
    have h4 := Near.single s2 h3 (by linarith)
    have s3 : (2 : ℝ) ^ (-24 : ℤ) ≤ |1 / ((i + 1 : ℕ) : ℝ)| := by
      rw [abs_of_pos (by positivity)]
      exact small_le (by omega) hi
    have h5 : Near (1.01 * unit) (float32 (1 / ((i + 1 : ℕ) : ℝ))) (1 / (i + 1 : ℕ)) :=
      (Near.single s3 Near.refl (by linarith)).weaken (by linarith)
    have h6 := Near.mul (by linarith) h5 h4
    rw [← e] at h6
    have s4 : (2 : ℝ) ^ (-24 : ℤ) ≤ |term K i a b| := by
      rw [e, abs_mul, hX, mul_one]
      exact s3
    have h7 := Near.single s4 h6 (by rw [unit_eq]; norm_num)
    exact h7.weaken (by rw [unit_eq]; norm_num)

theorem term_le (K i : ℕ) (hK : 0 < K) (a b : Bool) : |term K i a b| ≤ 1 / K := by
  have hKr : (0 : ℝ) < K := by exact_mod_cast hK
  have hir : (0 : ℝ) < (i + 1 : ℕ) := by positivity
  by_cases hab : a = b
  · subst hab
    simp [term]
  unfold term
  rw [abs_div, abs_mul, abs_div, bit_abs hab, abs_of_pos hKr, abs_of_pos hir, abs_of_nonneg (by positivity), mul_div_assoc]
  refine mul_le_of_le_one_right (by positivity) ?_
  rw [div_le_one hir]
  exact_mod_cast min_le_right _ _

/-! ## The row -/

theorem foldl_row32 (N K : ℕ) (nn : ℕ → ℕ) (m : ℕ → Bool) (hinj : Listing N nn) (g : ℕ → ℝ)
    (hg : ∀ i, i + 1 < N → g i = float32 (g (i + 1) + change K i (m (nn i)) (m (nn (i + 1))))) :
    ∀ k, k + 1 ≤ N → ∀ s : ℕ → ℝ, (∀ i, k ≤ i → i < N → s (nn i) = g i) →
      ∀ i < N, ((List.range k).reverse.foldl (stepRow32 K nn m) s) (nn i) = g i := by
  intro k
  induction k with
  | zero => intro _ s hs i hi; exact hs i (Nat.zero_le _) hi
  | succ k ih =>
    intro hk s hs i hi
    rw [List.range_succ, List.reverse_append]
    simp only [List.reverse_cons, List.reverse_nil, List.nil_append, List.cons_append, List.foldl_cons]
    apply ih (by omega) _ _ i hi
    intro i' h1 h2
    unfold stepRow32
    rcases eq_or_ne i' k with rfl | h
    · rw [Function.update_self, hs _ le_rfl (by omega), ← hg _ (by omega)]
    · rw [Function.update_of_ne, hs _ (by omega) h2]
      intro e; exact h (hinj _ h2 _ (by omega) e)

/-- The value at distance `k` from the farthest sample. -/
noncomputable def back (lists : Bool) (N K : ℕ) (nn : ℕ → ℕ) (m : ℕ → Bool) : ℕ → ℝ
  | 0 => farthest lists N (m (nn (N - 1)))
  | k + 1 => float32 (back lists N K nn m k + change K (N - 1 - (k + 1)) (m (nn (N - 1 - (k + 1)))) (m (nn (N - 1 - (k + 1) + 1))))

theorem row_back (lists : Bool) (N K : ℕ) (hN : 0 < N) (nn : ℕ → ℕ) (m : ℕ → Bool) (hinj : Listing N nn) (i : ℕ) (hi : i < N) :
    knnRow32 lists N K nn m (nn i) = back lists N K nn m (N - 1 - i) := by
  unfold knnRow32
  refine foldl_row32 N K nn m hinj (fun i => back lists N K nn m (N - 1 - i)) ?_ (N - 1) (by omega) _ ?_ i hi
  · intro i hi
    rw [show N - 1 - i = (N - 1 - (i + 1)) + 1 by omega, back, show N - 1 - (N - 1 - (i + 1) + 1) = i by omega]
  · intro i' h1 h2
    obtain rfl : i' = N - 1 := by omega
    simp [back]

theorem row_last (lists : Bool) (N K : ℕ) (hN : 0 < N) (nn : ℕ → ℕ) (m : ℕ → Bool) (hinj : Listing N nn) :
    knnRow32 lists N K nn m (nn (N - 1)) = farthest lists N (m (nn (N - 1))) := by
  rw [row_back lists N K hN nn m hinj _ (by omega), Nat.sub_self, back]

theorem row_step (lists : Bool) (N K : ℕ) (nn : ℕ → ℕ) (m : ℕ → Bool) (hinj : Listing N nn) (i : ℕ) (hi : i + 1 < N) :
    knnRow32 lists N K nn m (nn i) =
      float32 (knnRow32 lists N K nn m (nn (i + 1)) + change K i (m (nn i)) (m (nn (i + 1)))) := by
  rw [row_back lists N K (by omega) nn m hinj i (by omega), row_back lists N K (by omega) nn m hinj (i + 1) hi,
    show N - 1 - i = (N - 1 - (i + 1)) + 1 by omega, back, show N - 1 - (N - 1 - (i + 1) + 1) = i by omega]

theorem farthest_float (lists : Bool) (N : ℕ) (b : Bool) : float32 (farthest lists N b) = farthest lists N b := by
  unfold farthest
  split_ifs <;> rw [float32_idem]

/-- Every value of the row is a float32 number. -/
theorem row_float (lists : Bool) (N K : ℕ) (nn : ℕ → ℕ) (m : ℕ → Bool) (hinj : Listing N nn) (i : ℕ) (hi : i < N) :
    float32 (knnRow32 lists N K nn m (nn i)) = knnRow32 lists N K nn m (nn i) := by
  rcases Nat.lt_or_ge (i + 1) N with h | h
  · rw [row_step lists N K nn m hinj i h, float32_idem]
  · obtain rfl : i = N - 1 := by omega
    rw [row_last lists N K (by omega) nn m hinj, farthest_float]

theorem switches_last (N : ℕ) (nn : ℕ → ℕ) (m : ℕ → Bool) : switches N nn m (N - 1) = 0 := by
  unfold switches
  rw [List.length_eq_zero_iff, List.filter_eq_nil_iff]
  intro r hr
  have : ¬ (N - 1 ≤ r) := by have := List.mem_range.1 hr; omega
  simp [this]

theorem switches_step (N : ℕ) (nn : ℕ → ℕ) (m : ℕ → Bool) (i : ℕ) (hi : i + 1 < N) :
    switches N nn m i = switches N nn m (i + 1) + if m (nn i) = m (nn (i + 1)) then 0 else 1 := by
  have key : ∀ n, i < n → ((List.range n).filter fun r : ℕ => decide (i ≤ r) && (m (nn r) != m (nn (r + 1)))).length =
      ((List.range n).filter fun r : ℕ => decide (i + 1 ≤ r) && (m (nn r) != m (nn (r + 1)))).length +
        if m (nn i) = m (nn (i + 1)) then 0 else 1 := by
    intro n
    induction n with
    | zero => intro h; omega
    | succ n ih =>
      intro h
      rw [List.range_succ, List.filter_append, List.filter_append, List.length_append, List.length_append]
      rcases Nat.lt_or_ge i n with h' | h'
      · rw [ih h']
        have e1 : decide (i ≤ n) = true := by simpa using h'.le
        have e2 : decide (i + 1 ≤ n) = true := by simpa using h'
        simp only [List.filter_cons, e1, e2, List.filter_nil]
        omega
      · obtain rfl : i = n := by omega
        have e : ∀ j, i ≤ j → ((List.range i).filter fun r : ℕ => decide (j ≤ r) && (m (nn r) != m (nn (r + 1)))).length = 0 := by
          intro j hj
          rw [List.length_eq_zero_iff, List.filter_eq_nil_iff]
          intro r hr
          have : ¬ (j ≤ r) := by have := List.mem_range.1 hr; omega
          simp [this]
        rw [e _ le_rfl, e _ (Nat.le_succ _)]
        by_cases hm : m (nn i) = m (nn (i + 1)) <;> simp [hm]
  exact key (N - 1) (by omega)

theorem switches_le (N : ℕ) (nn : ℕ → ℕ) (m : ℕ → Bool) (i : ℕ) : switches N nn m i ≤ N - 1 := by
  unfold switches
  refine (List.length_filter_le _ _).trans ?_
  rw [List.length_range]

/-! ## Error bound -/

theorem bit_cast (b : Bool) : ((ind b : ℚ) : ℝ) = bit b := by cases b <;> simp [ind, bit]

/-- The exact row by ranks. -/
theorem exact_ranks (N K : ℕ) (hK : 0 < K) (hKN : K ≤ N) (nn : ℕ → ℕ) (m : ℕ → Bool) (hinj : Listing N nn) :
    ((knnRow N K nn m (nn (N - 1)) : ℚ) : ℝ) = bit (m (nn (N - 1))) / N ∧
    (∀ i, i + 1 < N → ((knnRow N K nn m (nn i) : ℚ) : ℝ) =
      (knnRow N K nn m (nn (i + 1)) : ℚ) + term K i (m (nn i)) (m (nn (i + 1)))) ∧
    ∀ i < N, |((knnRow N K nn m (nn i) : ℚ) : ℝ)| ≤ 1 / K ∧
      (m (nn i) = true → 1 / (N : ℝ) ≤ (knnRow N K nn m (nn i) : ℚ)) ∧
      (m (nn i) = false → ((knnRow N K nn m (nn i) : ℚ) : ℝ) ≤ 0) := by
  have hN : 0 < N := by omega
  have key := knnRow_eq N K hN nn m hinj (gVal N K (fun k => m (nn k))) (gVal_last N K hN hK _)
    (fun i hi => gVal_step N K _ i hi)
  refine ⟨?_, ?_, ?_⟩
  · rw [key (N - 1) (by omega), gVal_last N K hN hK, Rat.cast_div, bit_cast, Rat.cast_natCast]
  · intro i hi
    rw [key i (by omega), key (i + 1) hi, gVal_step N K _ i hi]
    unfold term
    push_cast [bit_cast]
    rfl
  · intro i hi
    rw [key i hi]
    obtain ⟨b1, b2⟩ := bounds N K hK hKN (fun k => m (nn k)) (N - 1 - i) i (by omega)
    have hw := wt_le K i hK
    have hw' := wt_pos K i hK
    have hNq : (0 : ℚ) < 1 / N := by
      have : (0 : ℚ) < N := by exact_mod_cast hN
      positivity
    refine ⟨?_, fun h => ?_, fun h => ?_⟩
    · have : |gVal N K (fun k => m (nn k)) i| ≤ 1 / K := by
        rw [abs_le]
        cases h : m (nn i)
        · obtain ⟨h1, h2⟩ := b2 h
          constructor <;> linarith
        · obtain ⟨h1, h2⟩ := b1 h
          constructor <;> linarith
      have := (Rat.cast_le (K := ℝ)).2 this
      push_cast at this
      exact this
    · have := (Rat.cast_le (K := ℝ)).2 (b1 h).1
      push_cast at this
      exact this
    · exact_mod_cast (b2 h).2

theorem farthest_near (lists : Bool) (N : ℕ) (hN : 0 < N) (hN' : N ≤ 2 ^ 24) (b : Bool) :
    Near (2 * unit) (farthest lists N b) (bit b / N) := by
  have hu : 0 < unit := by rw [unit_eq]; norm_num
  cases b
  · have : farthest lists N false = 0 := by cases lists <;> simp [farthest, bit, float32_zero, float64_zero]
    rw [this]
    simp [Near, bit]
  · have s : (2 : ℝ) ^ (-24 : ℤ) ≤ |bit true / N| := by
      rw [abs_of_nonneg (by simp [bit])]
      exact small_le hN hN'
    unfold farthest
    rw [float32_nat N hN']
    cases lists
    · exact (Near.single s Near.refl (by linarith)).weaken (by linarith)
    · exact (Near.single s (Near.double s Near.refl (by linarith)) (by linarith)).weaken (by linarith)

/-- Rounding the reciprocal of a whole number first to double and then to single precision is rounding once. -/
theorem reciprocal_twice (N : ℕ) (hN : 0 < N) (hN' : N ≤ 2 ^ 24) : float32 (float64 (1 / N)) = float32 (1 / N) := by
  obtain ⟨p, hp1, hp2⟩ : ∃ p : ℕ, N ≤ 2 ^ p ∧ 2 ^ p < 2 * N := by
    refine ⟨Nat.clog 2 N, Nat.le_pow_clog (by norm_num) N, ?_⟩
    rcases Nat.lt_or_ge N 2 with h | h
    · obtain rfl : N = 1 := by omega
      simp
    · have := Nat.pow_pred_clog_lt_self (b := 2) (by norm_num) (by omega : 1 < N)
      have hpos : 0 < Nat.clog 2 N := Nat.clog_pos (by norm_num) h
      obtain ⟨c, hc⟩ := Nat.exists_eq_succ_of_ne_zero hpos.ne'
      rw [hc] at this ⊢
      simp only [Nat.pred_succ, Nat.succ_eq_add_one] at *
      rw [pow_succ]
      omega
  have hp : p ≤ 24 := by
    by_contra hc
    have : 2 ^ 25 ≤ 2 ^ p := Nat.pow_le_pow_right (by norm_num) (by omega)
    omega
  have hNr : (0 : ℝ) < N := by exact_mod_cast hN
  have hpw : (0 : ℝ) < 2 ^ p := by positivity
  have l1 : (N : ℝ) ≤ 2 ^ p := by exact_mod_cast hp1
  have l2 : (2 : ℝ) ^ p + 1 ≤ 2 * N := by exact_mod_cast hp2
  have l3 : (2 : ℝ) ^ p ≤ 2 ^ 24 := pow_le_pow_right₀ (by norm_num) hp
  set x : ℝ := 1 / N with hx
  set y := float64 x with hy
  have hx0 : 0 < x := by positivity
  have hxN : x * N = 1 := by rw [hx]; field_simp
  -- the double-precision value is close
  have near : |y - x| ≤ 2 ^ (-52 : ℤ) * x := by
    have hd : Rounds (2 ^ (-53 : ℤ)) (2 ^ (-1075 : ℤ)) float64 := roundTo_rounds 52 (-1022)
    have := hd x
    rw [abs_of_pos hx0] at this
    have h1 : (2 : ℝ) ^ (-24 : ℤ) ≤ x := small_le hN hN'
    have h2 : (2 : ℝ) ^ (-1075 : ℤ) ≤ 2 ^ (-53 : ℤ) * 2 ^ (-24 : ℤ) := by
      rw [← zpow_add₀ (by norm_num)]
      exact zpow_le_zpow_right₀ (by norm_num) (by norm_num)
    have h3 : (2 : ℝ) ^ (-53 : ℤ) * 2 ^ (-24 : ℤ) ≤ 2 ^ (-53 : ℤ) * x := by gcongr
    have h4 : (2 : ℝ) ^ (-52 : ℤ) = 2 * 2 ^ (-53 : ℤ) := by norm_num
    rw [h4]
    linarith
  have e1 : (2 : ℝ) ^ (-(p : ℤ)) = 1 / 2 ^ p := by rw [zpow_neg, zpow_natCast, one_div]
  have e2 : (2 : ℝ) ^ (-(p : ℤ) + 1) = 2 / 2 ^ p := by rw [zpow_add₀ (by norm_num), e1]; ring
  have lo : (2 : ℝ) ^ (-(p : ℤ)) ≤ x := by
    rw [e1, hx]
    exact one_div_le_one_div_of_le hNr l1
  have up : x < 2 ^ (-(p : ℤ) + 1) := by
    rw [e2, hx, div_lt_div_iff₀ hNr hpw]
    linarith
  by_cases hNp : N = 2 ^ p
  · have hxp : x = ((1 : ℤ) : ℝ) * 2 ^ (-(p : ℤ)) := by rw [e1, hx, hNp]; simp
    have : y = x := by
      refine roundTo_fix_le 52 (-1022) x 1 _ hxp (place_le 52 (-1022) _ x hx0.ne' ?_ (by omega))
      rw [abs_of_pos hx0, hxp, Int.cast_one, one_mul]
      exact zpow_lt_zpow_right₀ (by norm_num) (by omega)
    rw [this]
  have l4 : (N : ℝ) + 1 ≤ 2 ^ p := by exact_mod_cast (by omega : N + 1 ≤ 2 ^ p)
  have near' := abs_le.1 near
  have hyN : |y * N - 1| ≤ 2 ^ (-52 : ℤ) := by
    rw [← hxN, ← sub_mul, abs_mul, abs_of_pos hNr]
    have := mul_le_mul_of_nonneg_right near hNr.le
    rwa [mul_assoc, hxN, mul_one] at this
  have hyN' := abs_le.1 hyN
  have hs : (2 : ℝ) ^ p * 2 ^ (-52 : ℤ) ≤ 1 / 2 := by
    have : (2 : ℝ) ^ p * 2 ^ (-52 : ℤ) ≤ 2 ^ 24 * 2 ^ (-52 : ℤ) := by gcongr
    refine this.trans ?_
    norm_num
  obtain ⟨ε, hε⟩ : ∃ ε : ℝ, (2 : ℝ) ^ (-52 : ℤ) = ε := ⟨_, rfl⟩
  rw [hε] at near near' hyN hyN' hs
  have lo' : (2 : ℝ) ^ (-(p : ℤ)) ≤ y := by
    rw [e1, div_le_iff₀ hpw]
    by_contra hc
    have h1 : y * N < N / 2 ^ p := by
      rw [lt_div_iff₀ hpw]
      nlinarith
    have h2 : (N : ℝ) / 2 ^ p ≤ 1 - ε := by
      rw [div_le_iff₀ hpw]
      nlinarith
    linarith [hyN'.1]
  have up' : y < 2 ^ (-(p : ℤ) + 1) := by
    rw [e2, lt_div_iff₀ hpw]
    by_contra hc
    have h1 : 2 * (N : ℝ) / 2 ^ p ≤ y * N := by
      rw [div_le_iff₀ hpw]
      nlinarith
    have h2 : 1 + ε < 2 * (N : ℝ) / 2 ^ p := by
      rw [lt_div_iff₀ hpw]
      nlinarith
    linarith [hyN'.2]
  set k : ℤ := -(p : ℤ) - (23 : ℕ) with hk
  have key : roundEven (y / 2 ^ k) = roundEven (x / 2 ^ k) := by
    have ek : ∀ v : ℝ, v / 2 ^ k * N = v * N * 2 ^ (23 + p) := by
      intro v
      have : (2 : ℝ) ^ k = (2 ^ (23 + p))⁻¹ := by
        rw [hk, ← zpow_natCast, ← zpow_neg]
        congr 1
        push_cast
        ring
      rw [this, div_inv_eq_mul]
      ring
    have hn := roundEven_near (x / 2 ^ k)
    have ekx := ek x
    have eky := ek y
    rw [hxN, one_mul] at ekx
    generalize roundEven (x / 2 ^ k) = n at *
    have c1 : 2 * |2 ^ (23 + p) - n * (N : ℤ)| ≤ N := by
      have h1 := mul_le_mul_of_nonneg_right hn hNr.le
      rw [← abs_of_pos hNr, ← abs_mul, sub_mul, abs_of_pos hNr, ekx, abs_sub_comm] at h1
      have h2 : ((2 * |2 ^ (23 + p) - n * (N : ℤ)| : ℤ) : ℝ) ≤ ((N : ℤ) : ℝ) := by
        push_cast
        linarith
      exact_mod_cast h2
    have c2 : 2 * |2 ^ (23 + p) - n * (N : ℤ)| ≠ N := by
      intro h
      obtain ⟨w, hw, ho⟩ : ∃ w : ℤ, w * N = 2 ^ (24 + p) ∧ w % 2 = 1 := by
        have e : (2 : ℤ) ^ (24 + p) = 2 * 2 ^ (23 + p) := by rw [show 24 + p = (23 + p) + 1 by omega, pow_succ]; ring
        rcases abs_cases ((2 : ℤ) ^ (23 + p) - n * (N : ℤ)) with ⟨h1, -⟩ | ⟨h1, -⟩
        · refine ⟨2 * n + 1, ?_, by omega⟩
          rw [h1] at h
          rw [e]
          linarith
        · refine ⟨2 * n - 1, ?_, by omega⟩
          rw [h1] at h
          rw [e]
          linarith
      have hd : w.natAbs ∣ 2 ^ (24 + p) := by
        have : w ∣ 2 ^ (24 + p) := ⟨N, hw.symm⟩
        have := Int.natAbs_dvd_natAbs.2 this
        rwa [Int.natAbs_pow] at this
      obtain ⟨j, -, hj⟩ := (Nat.dvd_prime_pow Nat.prime_two).1 hd
      have hj0 : j = 0 := by
        by_contra hc
        obtain ⟨j', rfl⟩ := Nat.exists_eq_succ_of_ne_zero hc
        rw [Nat.pow_succ] at hj
        omega
      rw [hj0] at hj
      have hN2 : N = 2 ^ (24 + p) := by
        have := congrArg Int.natAbs hw
        rw [Int.natAbs_mul, hj, Int.natAbs_pow] at this
        simpa using this
      have : 2 ^ p < 2 ^ (24 + p) := Nat.pow_lt_pow_right (by norm_num) (by omega)
      omega
    have c3 : 2 * |2 ^ (23 + p) - n * (N : ℤ)| + 1 ≤ N := by omega
    have c4 : 2 * |(2 : ℝ) ^ (23 + p) - n * N| + 1 ≤ N := by exact_mod_cast c3
    refine roundEven_eq _ _ ?_
    have d1 : |y / 2 ^ k - n| * N < 1 / 2 * N := by
      have h1 : |y / 2 ^ k - n| * N = |y / 2 ^ k * N - n * N| := by
        rw [← sub_mul, abs_mul, abs_of_pos hNr]
      have h2 : |y * N * 2 ^ (23 + p) - n * N| ≤ |y * N * 2 ^ (23 + p) - 2 ^ (23 + p)| + |(2 : ℝ) ^ (23 + p) - n * N| :=
        abs_sub_le _ _ _
      have h3 : |y * N * 2 ^ (23 + p) - 2 ^ (23 + p)| ≤ ε * 2 ^ (23 + p) := by
        have : y * N * 2 ^ (23 + p) - 2 ^ (23 + p) = (y * N - 1) * 2 ^ (23 + p) := by ring
        rw [this, abs_mul, abs_of_pos (by positivity : (0 : ℝ) < 2 ^ (23 + p))]
        gcongr
      have h4 : ε * 2 ^ (23 + p) ≤ 1 / 32 := by
        have : ε * 2 ^ (23 + p) ≤ ε * 2 ^ (23 + 24) := by
          rw [← hε]
          gcongr
          norm_num
        refine this.trans ?_
        rw [← hε]
        norm_num
      rw [h1, eky]
      linarith
    exact lt_of_mul_lt_mul_right d1 hNr.le
  rw [float32_eq_roundTo, float32_eq_roundTo,
    roundTo_eval 23 (-126) (-(p : ℤ)) y _ (by omega) (by rwa [abs_of_pos (lt_of_lt_of_le (by positivity) lo')])
      (by rwa [abs_of_pos (lt_of_lt_of_le (by positivity) lo')]) key,
    roundTo_eval 23 (-126) (-(p : ℤ)) x _ (by omega) (by rwa [abs_of_pos hx0]) (by rwa [abs_of_pos hx0]) rfl]

theorem growth (c : ℕ) (hc : c ≤ 2 ^ 24) : (1 + unit) ^ c ≤ 2.72 := by
  have h1 : (1 + unit) ^ c ≤ (Real.exp unit) ^ c := by
    have : 0 ≤ 1 + unit := by rw [unit_eq]; norm_num
    gcongr
    linarith [Real.add_one_le_exp unit]
  rw [← Real.exp_nat_mul] at h1
  have h2 : (c : ℝ) * unit ≤ 1 := by
    have : (c : ℝ) ≤ 2 ^ 24 := by exact_mod_cast hc
    rw [unit_eq]
    linarith
  have h3 := Real.exp_le_exp.2 h2
  have h4 := Real.exp_one_lt_d9
  linarith

theorem error_ranks (lists : Bool) (N K : ℕ) (hK : 0 < K) (hKN : K ≤ N) (hN' : N ≤ 2 ^ 24) (nn : ℕ → ℕ) (m : ℕ → Bool)
    (hinj : Listing N nn) (k : ℕ) : ∀ i, i + k = N - 1 →
    |knnRow32 lists N K nn m (nn i) - (knnRow N K nn m (nn i) : ℚ)| ≤
      (switches N nn m i + 1) * (4.2 * unit) * (1 + unit) ^ switches N nn m i * (1 / K) := by
  obtain ⟨e1, e2, e3⟩ := exact_ranks N K hK hKN nn m hinj
  have hu : 0 < unit := by rw [unit_eq]; norm_num
  have hKr : (0 : ℝ) < K := by exact_mod_cast hK
  have hx : (0 : ℝ) < 1 / K := by positivity
  induction k with
  | zero =>
    intro i hi
    obtain rfl : i = N - 1 := by omega
    rw [switches_last, row_last lists N K (by omega) nn m hinj, e1]
    have h := farthest_near lists N (by omega) hN' (m (nn (N - 1)))
    unfold Near at h
    have h2 : |bit (m (nn (N - 1))) / (N : ℝ)| ≤ 1 / K := by rw [← e1]; exact (e3 _ (by omega)).1
    have h3 : 2 * unit * |bit (m (nn (N - 1))) / (N : ℝ)| ≤ 2 * unit * (1 / K) := by gcongr
    have h4 : 0 < unit * (1 / (K : ℝ)) := by positivity
    norm_num
    norm_num at h h3 h4
    linarith
  | succ k ih =>
    intro i hi
    have h := ih (i + 1) (by omega)
    have hi' : i + 1 < N := by omega
    by_cases hm : m (nn i) = m (nn (i + 1))
    · have s1 : switches N nn m i = switches N nn m (i + 1) := by rw [switches_step N nn m i hi', if_pos hm, Nat.add_zero]
      have r1 : knnRow32 lists N K nn m (nn i) = knnRow32 lists N K nn m (nn (i + 1)) := by
        rw [row_step lists N K nn m hinj i hi', hm, change_same, add_zero, row_float lists N K nn m hinj _ hi']
      have r2 : ((knnRow N K nn m (nn i) : ℚ) : ℝ) = (knnRow N K nn m (nn (i + 1)) : ℚ) := by
        rw [e2 i hi', hm]
        simp [term]
      rw [s1, r1, r2]
      exact h
    · have s1 : switches N nn m i = switches N nn m (i + 1) + 1 := by rw [switches_step N nn m i hi', if_neg hm]
      have c1 := change_near K i hK (hKN.trans hN') (by omega) (m (nn i)) (m (nn (i + 1)))
      have c2 := term_le K i hK (m (nn i)) (m (nn (i + 1)))
      have c3 := (e3 i (by omega)).1
      have c4 := e2 i hi'
      rw [row_step lists N K nn m hinj i hi', s1]
      generalize knnRow32 lists N K nn m (nn (i + 1)) = v at *
      generalize ((knnRow N K nn m (nn (i + 1)) : ℚ) : ℝ) = w at *
      generalize ((knnRow N K nn m (nn i) : ℚ) : ℝ) = w' at *
      generalize change K i (m (nn i)) (m (nn (i + 1))) = d at *
      generalize term K i (m (nn i)) (m (nn (i + 1))) = t at *
      generalize switches N nn m (i + 1) = c at *
      unfold Near at c1
      have f1 := C203_float32 (v + d)
      have hη : (2 : ℝ) ^ (-150 : ℤ) ≤ 0.01 * unit * (1 / K) := by
        have := small_le hK (hKN.trans hN')
        rw [unit_eq]
        have h2 : (2 : ℝ) ^ (-150 : ℤ) ≤ 0.01 * (1 / 16777216) * 2 ^ (-24 : ℤ) := by norm_num
        linarith
      change |float32 (v + d) - (v + d)| ≤ unit * |v + d| + 2 ^ (-150 : ℤ) at f1
      have g1 : |float32 (v + d) - w'| ≤ |float32 (v + d) - (v + d)| + |v + d - w'| := abs_sub_le _ _ _
      have g2 : |v + d - w'| ≤ |v - w| + |d - t| := by
        rw [c4, show v + d - (w + t) = (v - w) + (d - t) by ring]
        exact abs_add_le _ _
      have g3 : |v + d| ≤ |v + d - w'| + |w'| := by
        have := abs_sub_abs_le_abs_sub (v + d) w'
        linarith
      have g4 : |d - t| ≤ 3.1 * unit * (1 / K) := c1.trans (by gcongr)
      have g5 : unit * |v + d| ≤ unit * (|v - w| + 3.1 * unit * (1 / K) + 1 / K) := by
        gcongr
        linarith
      have h1 : (1 : ℝ) ≤ (1 + unit) ^ c := one_le_pow₀ (by linarith)
      have g6 : (1 + unit) * |v - w| ≤ (1 + unit) * ((c + 1) * (4.2 * unit) * (1 + unit) ^ c * (1 / K)) := by gcongr
      have g7 : 3.1 * unit * unit ≤ 0.01 * unit := by rw [unit_eq]; norm_num
      have g8 : 3.1 * unit * unit * (1 / (K : ℝ)) ≤ 0.01 * unit * (1 / K) := by gcongr
      have g9 : 4.2 * unit * (1 / (K : ℝ)) ≤ 4.2 * unit * ((1 + unit) ^ c * (1 + unit)) * (1 / K) := by
        have : (1 : ℝ) ≤ (1 + unit) ^ c * (1 + unit) := by nlinarith
        have := mul_le_mul_of_nonneg_left this (by positivity : (0 : ℝ) ≤ 4.2 * unit * (1 / K))
        linarith
      have e : ((c + 1 : ℕ) + 1 : ℝ) * (4.2 * unit) * (1 + unit) ^ (c + 1) * (1 / K) =
          (1 + unit) * ((c + 1) * (4.2 * unit) * (1 + unit) ^ c * (1 / K)) + 4.2 * unit * ((1 + unit) ^ c * (1 + unit)) * (1 / K) := by
        push_cast
        ring
      rw [e]
      have g10 : 0 < unit * (1 / (K : ℝ)) := by positivity
      generalize (1 + unit) * ((c + 1 : ℝ) * (4.2 * unit) * (1 + unit) ^ c * (1 / K)) = A at *
      generalize 4.2 * unit * ((1 + unit) ^ c * (1 + unit)) * (1 / (K : ℝ)) = B at *
      generalize (2 : ℝ) ^ (-150 : ℤ) = η at *
      generalize 1 / (K : ℝ) = x at *
      have g11 : unit * (|v - w| + 3.1 * unit * x + x) = unit * |v - w| + 3.1 * unit * unit * x + unit * x := by ring
      have g12 : (1 + unit) * |v - w| = |v - w| + unit * |v - w| := by ring
      rw [g11] at g5
      rw [g12] at g6
      have g13 : |float32 (v + d) - w'| ≤ A + 4.12 * (unit * x) := by linarith
      linarith

/-! ## Properties -/

/-- **C219** (error). For `1 ≤ K ≤ N ≤ 2²⁴` the stored value of a sample differs from the exact one by at most `2⁻²⁰ / K` for
every switch between matching and not matching labels at or behind its rank, plus `2⁻²⁰ / K`; whether the labels are lists or
tensors. -/
theorem C219_error (lists : Bool) (N K : ℕ) (hK : 1 ≤ K) (hKN : K ≤ N) (hN : N ≤ 2 ^ 24) (nn : ℕ → ℕ) (m : ℕ → Bool)
    (hnn : Listing N nn) (i : ℕ) (hi : i < N) :
    |knnRow32 lists N K nn m (nn i) - (knnRow N K nn m (nn i) : ℚ)| ≤ (switches N nn m i + 1) * (2 ^ (-20 : ℤ) / K) := by
  refine (error_ranks lists N K hK hKN hN nn m hnn (N - 1 - i) i (by omega)).trans ?_
  have hg := growth (switches N nn m i) ((switches_le N nn m i).trans (by omega))
  have hKr : (0 : ℝ) < K := by exact_mod_cast hK
  have hu : 0 < unit := by rw [unit_eq]; norm_num
  have h1 : 4.2 * unit * (1 + unit) ^ switches N nn m i ≤ 2 ^ (-20 : ℤ) := by
    have : 4.2 * unit * (1 + unit) ^ switches N nn m i ≤ 4.2 * unit * 2.72 := by gcongr
    refine this.trans ?_
    rw [unit_eq]
    norm_num
  have h2 := mul_le_mul_of_nonneg_left h1 (by positivity : (0 : ℝ) ≤ (switches N nn m i + 1) * (1 / K))
  calc _ = ((switches N nn m i : ℝ) + 1) * (1 / K) * (4.2 * unit * (1 + unit) ^ switches N nn m i) := by ring
    _ ≤ _ := h2
    _ = _ := by ring

/-- **C219** (positive values). A sample with the test sample's label has a positive stored value as long as the switches are
few compared with `K / N`; one with another label exceeds zero by no more than the error. -/
theorem C219_sign (lists : Bool) (N K : ℕ) (hK : 1 ≤ K) (hKN : K ≤ N) (hN : N ≤ 2 ^ 24) (nn : ℕ → ℕ) (m : ℕ → Bool)
    (hnn : Listing N nn) (i : ℕ) (hi : i < N) :
    (m (nn i) = true → (switches N nn m i + 1) * N < 2 ^ 20 * K → 0 < knnRow32 lists N K nn m (nn i)) ∧
      (m (nn i) = false → knnRow32 lists N K nn m (nn i) ≤ (switches N nn m i + 1) * (2 ^ (-20 : ℤ) / K)) := by
  have h := abs_le.1 (C219_error lists N K hK hKN hN nn m hnn i hi)
  obtain ⟨-, -, e3⟩ := exact_ranks N K hK hKN nn m hnn
  have hKr : (0 : ℝ) < K := by exact_mod_cast hK
  have hNr : (0 : ℝ) < N := by exact_mod_cast (by omega : 0 < N)
  refine ⟨fun hm hc => ?_, fun hm => ?_⟩
  · have h1 := (e3 i hi).2.1 hm
    have h2 : ((switches N nn m i : ℝ) + 1) * N < 2 ^ 20 * K := by exact_mod_cast hc
    have h3 : ((switches N nn m i : ℝ) + 1) * (2 ^ (-20 : ℤ) / K) < 1 / N := by
      rw [lt_div_iff₀ hNr, show ((switches N nn m i : ℝ) + 1) * (2 ^ (-20 : ℤ) / K) * N =
        (switches N nn m i + 1) * N * 2 ^ (-20 : ℤ) / K by ring, div_lt_one hKr]
      norm_num at h2 ⊢
      linarith
    linarith [h.1]
  · linarith [(e3 i hi).2.2 hm, h.2]

/-- **C219** (neighbours). Samples that follow each other in the order of the distances and both match, or both do not match,
get the same number bit for bit; at a switch the matching one gets at least as much. -/
theorem C219_neighbours (lists : Bool) (N K : ℕ) (nn : ℕ → ℕ) (m : ℕ → Bool) (hnn : Listing N nn) (i : ℕ) (hi : i + 1 < N) :
    (m (nn i) = m (nn (i + 1)) → knnRow32 lists N K nn m (nn i) = knnRow32 lists N K nn m (nn (i + 1))) ∧
    (m (nn i) = true → knnRow32 lists N K nn m (nn (i + 1)) ≤ knnRow32 lists N K nn m (nn i)) ∧
    (m (nn i) = false → knnRow32 lists N K nn m (nn i) ≤ knnRow32 lists N K nn m (nn (i + 1))) := by
  have hf := row_float lists N K nn m hnn (i + 1) hi
  have same : m (nn i) = m (nn (i + 1)) → knnRow32 lists N K nn m (nn i) = knnRow32 lists N K nn m (nn (i + 1)) := by
    intro h
    rw [row_step lists N K nn m hnn i hi, h, change_same, add_zero, hf]
  refine ⟨same, fun h => ?_, fun h => ?_⟩
  · cases h' : m (nn (i + 1))
    · rw [row_step lists N K nn m hnn i hi, h, h']
      conv_lhs => rw [← hf]
      exact FloatGT.C207_monotone (by linarith [change_nonneg K i])
    · exact (same (h.trans h'.symm)).ge
  · cases h' : m (nn (i + 1))
    · exact (same (h.trans h'.symm)).le
    · rw [row_step lists N K nn m hnn i hi, h, h']
      conv_rhs => rw [← hf]
      exact FloatGT.C207_monotone (by linarith [change_nonpos K i])

/-- **C219** (lists and tensors). Up to `2²⁴` training samples the table does not depend on whether the labels are passed as
lists or as tensors, although the quotient for the farthest sample is formed in double precision in one case only. -/
theorem C219_labels (N K : ℕ) (hN : 0 < N) (hN' : N ≤ 2 ^ 24) (nn : ℕ → ℕ) (m : ℕ → Bool) :
    knnRow32 true N K nn m = knnRow32 false N K nn m := by
  have h : farthest true N (m (nn (N - 1))) = farthest false N (m (nn (N - 1))) := by
    unfold farthest
    rw [float32_nat N hN']
    cases m (nn (N - 1))
    · simp [bit, float64_zero]
    · simpa [bit] using reciprocal_twice N hN hN'
  unfold knnRow32
  rw [h]

theorem eleventh : float32 (1 / 11) = 12201612 * 2 ^ (-27 : ℤ) := by
  have := roundTo_eval 23 (-126) (-4) (1 / 11) 12201612 (by norm_num) (by norm_num [abs_of_pos]) (by norm_num [abs_of_pos])
    (roundEven_eq _ _ (by norm_num [abs_of_pos, abs_of_neg]))
  rw [float32_eq_roundTo, this]
  norm_num

theorem eleventh64 : float64 (1 / 11) = 6550690367084358 * 2 ^ (-56 : ℤ) := by
  have := roundTo_eval 52 (-1022) (-4) (1 / 11) 6550690367084358 (by norm_num) (by norm_num [abs_of_pos]) (by norm_num [abs_of_pos])
    (roundEven_eq _ _ (by norm_num [abs_of_pos, abs_of_neg]))
  rw [float64, this]
  norm_num

theorem eleventh32 : float32 (6550690367084358 * 2 ^ (-56 : ℤ)) = 12201612 * 2 ^ (-27 : ℤ) := by
  have := roundTo_eval 23 (-126) (-4) (6550690367084358 * 2 ^ (-56 : ℤ)) 12201612 (by norm_num) (by norm_num [abs_of_pos])
    (by norm_num [abs_of_pos]) (roundEven_eq _ _ (by norm_num [abs_of_pos, abs_of_neg]))
  rw [float32_eq_roundTo, this]
  norm_num

theorem seven_elevenths : float32 (12201612 * 2 ^ (-27 : ℤ) * 7) = 10676410 * 2 ^ (-24 : ℤ) := by
  have e : ((12201612 * 2 ^ (-27 : ℤ) * 7 : ℝ)) / 2 ^ ((-1 : ℤ) - (23 : ℕ)) = ((10676410 : ℤ) : ℝ) + 1 / 2 := by norm_num
  have := roundTo_eval 23 (-126) (-1) (12201612 * 2 ^ (-27 : ℤ) * 7) 10676410 (by norm_num) (by norm_num [abs_of_pos])
    (by norm_num [abs_of_pos]) (by rw [e]; exact roundEven_tie _ (by norm_num))
  rw [float32_eq_roundTo, this]
  norm_num

theorem back_eleventh : float32 (10676410 * 2 ^ (-24 : ℤ) / 7) = 12201611 * 2 ^ (-27 : ℤ) := by
  have := roundTo_eval 23 (-126) (-4) (10676410 * 2 ^ (-24 : ℤ) / 7) 12201611 (by norm_num) (by norm_num [abs_of_pos])
    (by norm_num [abs_of_pos]) (roundEven_eq _ _ (by norm_num [abs_of_pos, abs_of_neg]))
  rw [float32_eq_roundTo, this]
  norm_num

theorem roundTo_neg (p : ℕ) (e : ℤ) (x : ℝ) : roundTo p e (-x) = -roundTo p e x := by
  unfold roundTo
  have h : place p e (-x) = place p e x := by simp [place]
  rw [h, neg_div, FloatGT.roundEven_neg]
  push_cast
  ring

/-- **C219** (sign in floating point). A sample without the test sample's label can get a positive stored value where the exact
value is zero: eleven samples, `K = 11`, the four farthest match. -/
theorem C219_positive (lists : Bool) :
    knnRow 11 11 id (fun r : ℕ => decide (7 ≤ r)) 6 = 0 ∧
      knnRow32 lists 11 11 id (fun r : ℕ => decide (7 ≤ r)) 6 = 2 ^ (-27 : ℤ) := by
  have hl : Listing 11 id := fun a _ b _ h => h
  have n := fun (i : ℕ) (h : i + 1 < 11) => C219_neighbours lists 11 11 id (fun r : ℕ => decide (7 ≤ r)) hl i h
  refine ⟨by decide +kernel, ?_⟩
  have h7 : knnRow32 lists 11 11 id (fun r : ℕ => decide (7 ≤ r)) 7 = 12201612 * 2 ^ (-27 : ℤ) := by
    have a1 := (n 7 (by norm_num)).1 rfl
    have a2 := (n 8 (by norm_num)).1 rfl
    have a3 := (n 9 (by norm_num)).1 rfl
    have a4 := row_last lists 11 11 (by norm_num) id (fun r : ℕ => decide (7 ≤ r)) hl
    simp only [id] at a1 a2 a3 a4
    rw [a1, a2, a3]
    refine a4.trans ?_
    unfold farthest
    rw [float32_nat 11 (by norm_num)]
    cases lists
    · simpa [bit] using eleventh
    · have := eleventh32
      rw [← eleventh64] at this
      simpa [bit] using this
  have hs := row_step lists 11 11 id (fun r : ℕ => decide (7 ≤ r)) hl 6 (by norm_num)
  have hc : change 11 6 false true = -(12201611 * 2 ^ (-27 : ℤ)) := by
    have e : ((bit false - bit true) / ((11 : ℕ) : ℝ)) = -(1 / 11) := by simp [bit]; norm_num
    unfold change
    simp only
    rw [if_pos (by norm_num), e, float32_nat (6 + 1) (by norm_num), float64, roundTo_neg, ← float64, eleventh64, FloatGT.float32_neg,
      eleventh32]
    have e7 : (((6 + 1 : ℕ) : ℕ) : ℝ) = 7 := by norm_num
    rw [e7, neg_mul, FloatGT.float32_neg, seven_elevenths, neg_div, FloatGT.float32_neg, back_eleventh]
  simp only [id] at hs
  rw [hs]
  have d6 : decide (7 ≤ 6) = false := rfl
  have d7 : decide (7 ≤ 6 + 1) = true := rfl
  rw [d6, d7, hc, show 6 + 1 = 7 from rfl, h7]
  have e : (12201612 * 2 ^ (-27 : ℤ) + -(12201611 * 2 ^ (-27 : ℤ)) : ℝ) = 2 ^ (-27 : ℤ) := by ring
  rw [e]
  have h1 : (2 : ℝ) ^ (-27 : ℤ) = ((1 : ℤ) : ℝ) * 2 ^ (-27 : ℤ) := by norm_num
  refine roundTo_fix_le 23 (-126) _ 1 (-27) h1 (place_le 23 (-126) (-27) _ (by positivity) ?_ (by norm_num))
  rw [abs_of_pos (by positivity)]
  exact zpow_lt_zpow_right₀ (by norm_num) (by norm_num)

/-- The hypotheses are met by the row of `C219_positive`: one switch, so the error is at most `2⁻¹⁹ / 11`. -/
example : |knnRow32 true 11 11 id (fun r : ℕ => decide (7 ≤ r)) 0 - (knnRow 11 11 id (fun r : ℕ => decide (7 ≤ r)) 0 : ℚ)| ≤
    2 ^ (-19 : ℤ) / 11 := by
  have h := C219_error true 11 11 (by norm_num) le_rfl (by norm_num) id (fun r : ℕ => decide (7 ≤ r)) (fun a _ b _ h => h) 0 (by norm_num)
  have e : switches 11 id (fun r : ℕ => decide (7 ≤ r)) 0 = 1 := by decide
  rw [e] at h
  refine h.trans ?_
  norm_num

example : 0 < knnRow32 false 11 11 id (fun r : ℕ => decide (7 ≤ r)) 9 :=
  (C219_sign false 11 11 (by norm_num) le_rfl (by norm_num) id (fun r : ℕ => decide (7 ≤ r)) (fun a _ b _ h => h) 9 (by norm_num)).1
    rfl (by decide)

end Verif.KNNRound
