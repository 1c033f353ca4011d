import Verif.Attr.RelatifProps
import Verif.Attr.ArnoldiModel
import Verif.Hessian.ArnoldiProps
import Verif.Projection.ArnoldiProjProps

/-!
# C127: the Arnoldi influence-function attributor
-/

namespace Verif.Attr

open Matrix Verif.Hessian Verif.Projection

variable {X C : Type} {p : Nat}

lemma foldlM_congr_mem {α β : Type} (f g : β → α → Except Err β) (l : List α) (h : ∀ a ∈ l, ∀ b, f b a = g b a) (b : β) :
    l.foldlM f b = l.foldlM g b := by
  induction l generalizing b with
  | nil => rfl
  | cons a l ih =>
    rw [List.foldlM_cons, List.foldlM_cons, h a (by simp)]
    congr 1
    funext b'
    exact ih (fun a' ha' => h a' (by simp [ha'])) b'

lemma foldl_append (l : List (List X)) (b : List X) : l.foldl (fun acc b => acc ++ b) b = b ++ l.flatten := by
  induction l generalizing b with
  | nil => simp
  | cons a l ih => simp [ih]

lemma drawn_flatten (ratio : ℚ) (full : Loader X) (hb : 0 < full.bs) :
    (drawn ratio full).flatten = full.data.take ((⌈(full.nb : ℚ) * ratio⌉).toNat * full.bs) := by
  unfold drawn
  rw [← List.map_take, List.take_range]
  show ((List.range _).map (batchAt full.bs full.data)).flatten = _
  rw [flatten_range_batchAt]
  rcases le_total (⌈(full.nb : ℚ) * ratio⌉).toNat full.nb with h | h
  · rw [min_eq_left h]
  · rw [min_eq_right h]
    have hn : full.data.length ≤ full.nb * full.bs := by
      by_contra hc
      have := (lt_numBatches_iff (n := full.data.length) (b := full.nb) hb).2 (by omega)
      exact absurd this (by simp [Loader.nb])
    rw [List.take_of_length_le hn, List.take_of_length_le (hn.trans (Nat.mul_le_mul_right _ h))]

lemma drawn_nil (ratio : ℚ) (full : Loader X) (hb : 0 < full.bs) : drawn ratio full = [] ↔ full.data = [] ∨ ratio ≤ 0 := by
  unfold drawn
  rw [List.take_eq_nil_iff]
  have h1 : ((List.range full.nb).map full.batch = []) ↔ full.data = [] := by
    rw [List.map_eq_nil_iff, List.range_eq_nil]
    constructor
    · intro h
      by_contra hne
      exact (nb_pos hb hne).ne' h
    · intro h
      simp [Loader.nb, numBatches, h]
      omega
  rw [h1]
  constructor
  · rintro (h | h)
    · by_cases hd : full.data = []
      · exact Or.inl hd
      · right
        have hn : (0 : ℚ) < full.nb := by exact_mod_cast nb_pos hb hd
        have h2 : ⌈(full.nb : ℚ) * ratio⌉ ≤ 0 := Int.toNat_eq_zero.1 h
        rw [Int.ceil_le] at h2
        push_cast at h2
        by_contra hr
        push Not at hr
        nlinarith
    · exact Or.inl h
  · rintro (h | h)
    · exact Or.inr h
    · left
      rw [Int.toNat_eq_zero, Int.ceil_le]
      push_cast
      have hn : (0 : ℚ) ≤ full.nb := by positivity
      nlinarith

/-- **C127** (caching). `cache` succeeds exactly for list batches, a non-empty loader and a positive ratio; every projector is then
built on the first `ceil(#batches * ratio)` batches taken as one batch. Otherwise it raises and leaves the attributor without
projectors. -/
theorem C127_cache (ratio : ℚ) (k : Nat) (kind : Kind) (full : Loader X) (st : ASt X) (hb : 0 < full.bs) :
    ((acache ratio k kind full st).2 = .ok () ↔ kind = .list ∧ full.data ≠ [] ∧ 0 < ratio) ∧
    ((acache ratio k kind full st).2 = .error .indexError ↔ full.data = [] ∨ ratio ≤ 0) ∧
    ((acache ratio k kind full st).2 = .error .typeError ↔ kind = .tuple ∧ full.data ≠ [] ∧ 0 < ratio) ∧
    ((acache ratio k kind full st).2 = .error .keyError ↔ kind = .dict ∧ full.data ≠ [] ∧ 0 < ratio) ∧
    ((acache ratio k kind full st).1.full = some full) ∧
    (acache ratio k kind full st).1.projs = some (if kind = .list ∧ full.data ≠ [] ∧ 0 < ratio then
      List.replicate k (full.data.take ((⌈(full.nb : ℚ) * ratio⌉).toNat * full.bs)) else []) := by
  have hnil := drawn_nil ratio full hb
  have hfl := drawn_flatten ratio full hb
  unfold acache
  cases hd : drawn ratio full with
  | nil =>
    have := hnil.1 hd
    have hno : ¬ (full.data ≠ [] ∧ 0 < ratio) := by
      rintro ⟨h1, h2⟩
      rcases this with h | h
      · exact h1 h
      · exact absurd h2 (not_lt.2 h)
    simp only [this, hno, and_false, if_false, reduceCtorEq, iff_self, true_and]
    simp
  | cons b bs =>
    have hn : ¬ (full.data = [] ∨ ratio ≤ 0) := by rw [← hnil, hd]; simp
    have hyes : full.data ≠ [] ∧ 0 < ratio := by push Not at hn; exact hn
    rw [hd, List.flatten_cons] at hfl
    cases kind <;> simp [hyes, foldl_append, ← hfl]

/-- The loop with all projectors built on the same samples is the loop of the base class. -/
lemma aattribute_eq (g : ACfg X C p) (ckpts : List C) (full : Option (Loader X)) (data : List X) (m : Option String) (tr te : Loader X) :
    (aattribute g ckpts ⟨full, some (List.replicate ckpts.length data)⟩ m tr te).2
      = (attribute' (g.sub data) ckpts full m tr te).2 := by
  simp only [aattribute, attribute', attributeLoop]
  apply foldlM_congr_mem
  rintro ⟨c, i⟩ hci M
  have hi : i < ckpts.length := by
    have := List.mem_zipIdx hci
    omega
  have hget : (List.replicate ckpts.length data)[i]? = some data := by simp [hi]
  simp only [hget]
  congr 1
  by_cases hn : tr.nb = 0
  · simp [trainLoop, hn]
  · rw [if_neg hn]
    split <;> rename_i hs
    · obtain ⟨k, hk⟩ := Nat.exists_eq_succ_of_ne_zero hn
      rw [trainLoop, hk, List.range_succ_eq_map, List.foldlM_cons, if_pos hs]
      rfl
    · rfl

/-- **C127** (batching does not matter). With a ratio of at least 1 the scores after caching do not depend on how the cached loader was
batched, nor on anything cached before. -/
theorem C127_batch_independent (g : ACfg X C p) (ckpts : List C) (r r' : ℚ) (hr : 1 ≤ r) (hr' : 1 ≤ r') (xs : List X) (hx : xs ≠ [])
    (b b' : Nat) (hb : 0 < b) (hb' : 0 < b') (s s' : Bool) (st st' : ASt X) (m m' : Option String) (tr te : Loader X) :
    (aattribute g ckpts (acache r ckpts.length .list ⟨xs, b, s⟩ st).1 m tr te).2
      = (aattribute g ckpts (acache r' ckpts.length .list ⟨xs, b', s'⟩ st').1 m' tr te).2 := by
  have all : ∀ (r : ℚ) (_ : 1 ≤ r) (b : Nat) (_ : 0 < b) (s : Bool) (st : ASt X),
      (acache r ckpts.length .list ⟨xs, b, s⟩ st).1 = ⟨some ⟨xs, b, s⟩, some (List.replicate ckpts.length xs)⟩ := by
    intro r hr b hb s st
    obtain ⟨-, -, -, -, h1, h2⟩ := C127_cache r ckpts.length .list ⟨xs, b, s⟩ st hb
    rw [if_pos ⟨rfl, hx, by linarith⟩] at h2
    have hl : xs.length ≤ (⌈((Loader.nb ⟨xs, b, s⟩ : ℕ) : ℚ) * r⌉).toNat * b := by
      have h3 : (Loader.nb ⟨xs, b, s⟩) ≤ (⌈((Loader.nb ⟨xs, b, s⟩ : ℕ) : ℚ) * r⌉).toNat := by
        rw [Int.le_toNat (by positivity)]
        rw [Int.le_ceil_iff]
        push_cast
        have : (0 : ℚ) ≤ (Loader.nb ⟨xs, b, s⟩ : ℕ) := by positivity
        nlinarith
      refine le_trans ?_ (Nat.mul_le_mul_right b h3)
      by_contra hc
      have := (lt_numBatches_iff (n := xs.length) (b := Loader.nb ⟨xs, b, s⟩) hb).2 (by omega)
      exact absurd this (by simp [Loader.nb])
    simp only [List.take_of_length_le hl] at h2
    generalize (acache r ckpts.length .list ⟨xs, b, s⟩ st).1 = a at h1 h2
    cases a
    simp_all
  rw [all r hr b hb s st, all r' hr' b' hb' s' st', aattribute_eq, aattribute_eq]
  have hign : ∀ (full : Loader X) (m : Option String), attribute' (g.sub xs) ckpts (some full) m tr te
      = attribute' (g.sub xs) ckpts (some full) none tr te := by
    intro full m
    cases m with
    | none => rfl
    | some m => exact C126_ignored _ _ _ _ _ _ _ _ _
  rw [hign, hign _ m']
  rfl

lemma getD_project_dot : ∀ (d : Nat) (l m : List (Option ℝ)) (z : ℝ), l.length ≤ d → optDot l m = some z →
    ∑ k : Fin d, (l.getD k.1 none).getD 0 * (m.getD k.1 none).getD 0 = z := by
  intro d
  induction d with
  | zero =>
    intro l m z hl h
    have : l = [] := by simpa using hl
    subst this
    cases m with
    | nil => simpa [optDot] using h
    | cons a m => simp [optDot] at h
  | succ d ih =>
    intro l m z hl h
    rw [Fin.sum_univ_succ]
    match l, m, h with
    | [], [], h =>
      have : (0 : ℝ) = z := by simpa [optDot] using h
      rw [← this]; simp
    | some a :: l, some b :: m, h =>
      simp only [optDot, Option.map_eq_some_iff] at h
      obtain ⟨w, hw, rfl⟩ := h
      have := ih l m w (by simpa using hl) hw
      simp only [Fin.val_zero, List.getD_cons_zero, Option.getD_some, Fin.val_succ, List.getD_cons_succ, this]
    | some a :: l, none :: m, h => simp [optDot] at h
    | none :: l, b :: m, h => simp [optDot] at h
    | some a :: l, [], h => simp [optDot] at h
    | none :: l, [], h => simp [optDot] at h
    | [], a :: m, h => simp [optDot] at h

/-- **C127** (scores). Cache the training set `xs` in any batching with a ratio of at least 1. Suppose that for each checkpoint the
Hessian of the loss on all of `xs` is symmetric, the Arnoldi run (with norm constant 1) reaches the full dimension, the eigenvalues are
positive and `proj_dim` keeps them all. Then the score of a pair is the mean over the checkpoints of `g_i · z`, where `z` is any
solution of `(H + λI) z = g_j`. -/
theorem C127_scores (g : ACfg X C p) (ckpts : List C) (r : ℚ) (hr : 1 ≤ r) (full tr te : Loader X) (hx : full.data ≠ []) (hb : 0 < full.bs)
    (h1 : 0 < tr.bs) (h2 : 0 < te.bs) (s1 : tr.supported = true) (s2 : te.supported = true) (st : ASt X) (m : Option String)
    (hsym : ∀ c ∈ ckpts, (g.hess c full.data)ᵀ = g.hess c full.data) (hc : g.normConst = 1) (hp : 0 < g.projDim) (hpd : p ≤ g.projDim)
    (out : C → Arn p)
    (harn : ∀ c ∈ ckpts, arnoldi (g.hess c full.data + g.reg • (1 : Matrix (Fin p) (Fin p) ℝ)) g.start g.maxIter 1 g.tol = .ok (some (out c)))
    (hfull : ∀ c ∈ ckpts, (out c).cols.length = p)
    (heig : ∀ c ∈ ckpts, EighContract (out c).cols.length (out c).sym (g.eigh (out c)))
    (hpos : ∀ c ∈ ckpts, ∀ e ∈ g.eigh (out c), 0 < e.1) :
    ∃ M, (aattribute g ckpts (acache r ckpts.length .list full st).1 m tr te).2 = .ok M ∧ M.r = tr.data.length ∧ M.c = te.data.length ∧
      ∀ i (hi : i < tr.data.length) j (hj : j < te.data.length) (z : C → Fin p → ℝ),
        (∀ c ∈ ckpts, (g.hess c full.data + g.reg • (1 : Matrix (Fin p) (Fin p) ℝ)) *ᵥ z c = g.gTest c te.data[j]) →
        M.f i j = (ckpts.map fun c => g.gTrain c tr.data[i] ⬝ᵥ z c).sum / ckpts.length := by
  have hbi := C127_batch_independent g ckpts r 1 hr le_rfl full.data hx full.bs full.bs hb hb full.supported true st ⟨none, none⟩ m none tr te
  have e0 : (aattribute g ckpts (acache 1 ckpts.length .list ⟨full.data, full.bs, true⟩ ⟨none, none⟩).1 none tr te).2
      = (attribute' (g.sub full.data) ckpts (some ⟨full.data, full.bs, true⟩) none tr te).2 := by
    rw [← aattribute_eq]
    obtain ⟨-, -, -, -, q1, q2⟩ := C127_cache 1 ckpts.length .list ⟨full.data, full.bs, true⟩ ⟨none, none⟩ hb
    rw [if_pos ⟨rfl, hx, by norm_num⟩] at q2
    have hl : full.data.length ≤ (⌈((Loader.nb ⟨full.data, full.bs, true⟩ : ℕ) : ℚ) * 1⌉).toNat * full.bs := by
      rw [mul_one, Int.ceil_natCast, Int.toNat_natCast]
      by_contra hc
      have := (lt_numBatches_iff (n := full.data.length) (b := Loader.nb ⟨full.data, full.bs, true⟩) hb).2 (by omega)
      exact absurd this (by simp [Loader.nb])
    simp only [List.take_of_length_le hl] at q2
    generalize (acache 1 ckpts.length .list ⟨full.data, full.bs, true⟩ ⟨none, none⟩).1 = a at q1 q2
    cases a
    simp_all
  obtain ⟨M, e, hMr, hMc, f⟩ := C05_attribute_entry (g.sub full.data) ckpts (some ⟨full.data, full.bs, true⟩) none tr te h1 h2 s1 s2 (by simp)
  refine ⟨M, by rw [show full = ⟨full.data, full.bs, full.supported⟩ from rfl, hbi, e0]; exact e, hMr, hMc, fun i hi j hj z hz => ?_⟩
  rw [f i hi j hj]
  congr 2
  apply List.map_congr_left
  intro c hcm
  have hsel : lastK g.projDim (g.eigh (out c)) = g.eigh (out c) := by
    unfold lastK
    rw [if_neg hp.ne', (heig c hcm).len, hfull c hcm, Nat.sub_eq_zero_of_le hpd, List.drop_zero]
  set A := g.hess c full.data + g.reg • (1 : Matrix (Fin p) (Fin p) ℝ) with hA
  have hAs : Aᵀ = A := by rw [hA, transpose_add, hsym c hcm, transpose_smul, transpose_one]
  obtain ⟨w, hw, hdot⟩ := C80_inner_products (out c) g.projDim g.tol (g.eigh (out c)) (by rw [hsel]; exact hpos c hcm)
    (g.gTrain c tr.data[i]) (g.gTest c te.data[j])
  obtain ⟨w', hw', hAw⟩ := C26_exact_full A hAs g.start g.maxIter g.tol (out c) (harn c hcm) (hfull c hcm) g.projDim (g.eigh (out c))
    (heig c hcm) (Or.inr (by rw [hfull c hcm]; exact hpd)) (fun e he => (hpos c hcm e he).ne') (g.gTrain c tr.data[i])
  rw [hw] at hw'
  obtain rfl := Option.some.inj hw'
  have hlen : ((eigenspace (out c) g.projDim g.tol (g.eigh (out c))).project (g.gTrain c tr.data[i])).length ≤ g.projDim := by
    rw [(C80_columns (out c) g.projDim hp g.tol (g.eigh (out c)) _).1]
    exact min_le_left _ _
  have hproj : ∀ v, g.project c full.data v = fun k => (((eigenspace (out c) g.projDim g.tol (g.eigh (out c))).project v).getD k.1 none).getD 0 := by
    intro v
    unfold ACfg.project
    rw [hc, harn c hcm]
  simp only [score, ACfg.sub, plainSub, hproj]
  rw [getD_project_dot _ _ _ _ hlen hdot, ← hz c hcm, ← hAw, dot_sym hAs]

/-- **C127** (without a usable cache). With at least one checkpoint and a non-empty supported training loader, `attribute` raises
`ValueError` before any `cache`, and `IndexError` after a `cache` that failed, even if an earlier one had succeeded. -/
theorem C127_uncached (g : ACfg X C p) (c : C) (ckpts : List C) (m : Option String) (tr te : Loader X) (h1 : 0 < tr.bs) (hne : tr.data ≠ [])
    (s1 : tr.supported = true) :
    (∀ full, (aattribute g (c :: ckpts) ⟨full, none⟩ m tr te).2 = .error .valueError) ∧
    ∀ (r : ℚ) (k : Nat) (kind : Kind) (full : Loader X) (st : ASt X), 0 < full.bs → (acache r k kind full st).2 ≠ .ok () →
      (aattribute g (c :: ckpts) (acache r k kind full st).1 m tr te).2 = .error .indexError := by
  have hn := nb_pos h1 hne
  constructor
  · intro full
    simp [aattribute, List.zipIdx_cons, List.foldlM_cons, hn.ne', s1, bind, Except.bind]
  · intro r k kind full st hb hno
    obtain ⟨q0, -, -, -, q1, q2⟩ := C127_cache r k kind full st hb
    rw [if_neg (fun h => hno (q0.2 h))] at q2
    simp [aattribute, List.zipIdx_cons, List.foldlM_cons, hn.ne', s1, bind, Except.bind, q2]

/-- **C127** (`attribute` leaves the cache alone).  After `cache`, successful or not, `attribute` does not change the state of the
attributor, so calls of `attribute` do not influence each other. -/
theorem C127_stable (g : ACfg X C p) (ckpts : List C) (r : ℚ) (k : Nat) (kind : Kind) (full : Loader X) (st : ASt X) (m : Option String)
    (tr te : Loader X) (hb : 0 < full.bs) :
    (aattribute g ckpts (acache r k kind full st).1 m tr te).1 = (acache r k kind full st).1 ∧
    (aattribute g ckpts (acache r k kind full st).1 m tr te).1.full = some full := by
  obtain ⟨-, -, -, -, q1, -⟩ := C127_cache r k kind full st hb
  generalize (acache r k kind full st).1 = s at q1
  obtain ⟨f, ps⟩ := s
  cases q1
  exact ⟨rfl, rfl⟩

/-- **C127** (ratio). The number of samples the Hessian is taken over with a ratio `0 < r ≤ 1` is `min(n, ceil(r * #batches) * bs)`: it
depends on the batch size and is at least `r * n`; one batch always means all samples. -/
theorem C127_ratio (r : ℚ) (h0 : 0 < r) (k : Nat) (full : Loader X) (st : ASt X) (hb : 0 < full.bs) (hne : full.data ≠ []) :
    ∃ data : List X, (acache r k .list full st).1.projs = some (List.replicate k data) ∧ data <+: full.data ∧
      data.length = min full.data.length ((⌈(full.nb : ℚ) * r⌉).toNat * full.bs) ∧ (r ≤ 1 → r * full.data.length ≤ data.length) ∧
      (full.data.length ≤ full.bs → data = full.data) := by
  obtain ⟨-, -, -, -, -, q2⟩ := C127_cache r k .list full st hb
  rw [if_pos ⟨rfl, hne, h0⟩] at q2
  have hn : full.data.length ≤ full.nb * full.bs := by
    by_contra hc
    have := (lt_numBatches_iff (n := full.data.length) (b := full.nb) hb).2 (by omega)
    exact absurd this (by simp [Loader.nb])
  have hnb := nb_pos hb hne
  have hceil : ((full.nb : ℚ) * r) ≤ ((⌈(full.nb : ℚ) * r⌉).toNat : ℕ) := by
    have h1 := Int.le_ceil ((full.nb : ℚ) * r)
    have h2 : (⌈(full.nb : ℚ) * r⌉ : ℚ) ≤ ((⌈(full.nb : ℚ) * r⌉).toNat : ℕ) := by exact_mod_cast Int.self_le_toNat _
    linarith
  refine ⟨_, q2, List.take_prefix _ _, by rw [List.length_take, min_comm], ?_, ?_⟩
  · intro h1
    rw [List.length_take]
    have hq : (full.data.length : ℚ) ≤ full.nb * full.bs := by exact_mod_cast hn
    have hbq : (0 : ℚ) ≤ full.bs := by positivity
    rw [Nat.cast_min, le_min_iff]
    constructor
    · push_cast
      nlinarith [mul_le_mul_of_nonneg_left hq h0.le, mul_le_mul_of_nonneg_right hceil hbq]
    · nlinarith [(Nat.cast_nonneg full.data.length : (0 : ℚ) ≤ full.data.length)]
  · intro hle
    apply List.take_of_length_le
    have : 1 ≤ (⌈(full.nb : ℚ) * r⌉).toNat := by
      have hpos : (0 : ℚ) < full.nb * r := mul_pos (by exact_mod_cast hnb) h0
      have : 0 < ⌈(full.nb : ℚ) * r⌉ := Int.ceil_pos.2 hpos
      omega
    calc _ ≤ full.bs := hle
      _ ≤ _ := Nat.le_mul_of_pos_left _ this

/-- Five samples in batches of two, ratio 1/2: two of three batches, four samples. -/
example : (acache (1 / 2) 2 .list ⟨[1, 2, 3, 4, 5], 2, true⟩ ⟨none, none⟩).1.projs = some [[1, 2, 3, 4], [1, 2, 3, 4]] := by
  obtain ⟨-, -, -, -, -, h⟩ := C127_cache (1 / 2) 2 .list (⟨[1, 2, 3, 4, 5], 2, true⟩ : Loader ℕ) ⟨none, none⟩ (by norm_num)
  rw [h, if_pos ⟨rfl, by simp, by norm_num⟩]
  have : ⌈(((⟨[1, 2, 3, 4, 5], 2, true⟩ : Loader ℕ).nb : ℕ) : ℚ) * (1 / 2)⌉ = 2 := by
    rw [Int.ceil_eq_iff]
    norm_num [Loader.nb, numBatches]
  rw [this]
  rfl

/-- One parameter and the loss with Hessian `1` plus regularisation `1`: the score of gradients 3 and 4 is `3 * 4 / 2`. -/
example : ∃ M, (aattribute (p := 1) ⟨fun (_ : Unit) (x : ℝ) _ => x, fun _ x _ => x, fun _ _ => 1, ![1], fun _ => [(2, fun _ => 1)], 1, 2, 1,
      1 / 10, 1⟩ [()] (acache 1 1 .list ⟨[7, 8], 1, true⟩ ⟨none, none⟩).1 none ⟨[3], 1, true⟩ ⟨[4], 1, true⟩).2 = .ok M ∧ M.f 0 0 = 6 := by
  have harn : arnoldi ((1 : Matrix (Fin 1) (Fin 1) ℝ) + (1 : ℝ) • 1) ![1] 2 1 (1 / 10) = .ok (some ⟨[![1], ![0]], [[2, 0]], true⟩) := by
    have hq : (1 / nrm (![1] : V 1)) • (![1] : V 1) = ![1] := by simp [nrm]
    have hA : ((1 : Matrix (Fin 1) (Fin 1) ℝ) + (1 : ℝ) • 1) *ᵥ ![1] = ![2] := by
      rw [one_smul, add_mulVec, one_mulVec]; ext i; fin_cases i; norm_num
    have hg : gsLoop 1 [(![1] : V 1)] ![2] = ([2], ![0]) := by
      simp [gsLoop]
      ext i; fin_cases i; rfl
    unfold arnoldi
    simp only [hq]
    rw [if_neg (by norm_num), if_neg (by simp [nrm])]
    simp only [show min (1 + 1) 2 - 1 = 0 + 1 from rfl, arnLoop, hA, hg]
    rw [if_pos (by simp [nrm])]
    rfl
  obtain ⟨M, e, -, -, f⟩ := C127_scores (p := 1) ⟨fun (_ : Unit) (x : ℝ) _ => x, fun _ x _ => x, fun _ _ => 1, ![1],
    fun _ => [(2, fun _ => 1)], 1, 2, 1, 1 / 10, 1⟩ [()] 1 le_rfl ⟨[7, 8], 1, true⟩ ⟨[3], 1, true⟩ ⟨[4], 1, true⟩ (by simp) (by norm_num)
    (by norm_num) (by norm_num) rfl rfl ⟨none, none⟩ none (by intro c _; simp) rfl (by norm_num) le_rfl
    (fun _ => ⟨[![1], ![0]], [[2, 0]], true⟩) (fun _ _ => harn) (fun _ _ => rfl)
    (fun _ _ => ⟨rfl, by simp [Arn.sym, Arn.entry], by simp⟩) (by simp)
  refine ⟨M, e, ?_⟩
  rw [f 0 (by simp) 0 (by simp) (fun _ _ => 2) (by
    intro c _
    ext i
    simp [add_mulVec]; norm_num)]
  simp [dotProduct]; norm_num

end Verif.Attr
