import Verif.EKFAC.ModulesModel
import Verif.EKFAC.Props
import Mathlib.Tactic.Linarith
import Mathlib.Tactic.Ring
import Mathlib.Tactic.FieldSimp
import Mathlib.LinearAlgebra.Matrix.Trace
import Mathlib.Algebra.BigOperators.Fin
import Mathlib.Algebra.Order.Field.Basic
import Mathlib.Algebra.Order.BigOperators.Ring.Finset

/-! # C184: EK-FAC with several modules -/

namespace Verif.EKFAC

open Matrix

variable {R : Type}

/-! ## Specification -/

/-- The number of parameters of a module. -/
def Lin.numel (m : Lin) : ℕ := m.q * m.p + if m.bias then m.q else 0

/-- The score of one module in closed form: both gradient blocks, laid out as matrices, are turned into the eigenbasis, and their products divided by the damped
eigenvalues. -/
def blockScore [Field R] {q c : ℕ} (s : Stats R q c) (damping : R) (g h : Matrix (Fin q) (Fin c) R) : R :=
  ∑ i, ∑ j, (s.qs * g * s.qaᵀ) i j * (s.qs * h * s.qaᵀ) i j / (s.lam i j + damping)

/-! ## Lemmas -/

lemma Lin.params_sum (m : Lin) : (m.params.map Prod.snd).sum = m.numel := by
  unfold Lin.params Lin.numel
  split_ifs <;> simp

lemma slices_none (ks : List (Param × ℕ)) (v : List R) (k : Param) (h : ∀ x ∈ ks, x.1 ≠ k) : slices ks v k = none := by
  induction ks generalizing v with
  | nil => rfl
  | cons a ks ih =>
    obtain ⟨k0, n⟩ := a
    have := h (k0, n) List.mem_cons_self
    simp only [slices]
    rw [ih _ fun x hx => h x (List.mem_cons_of_mem _ hx)]
    simp only
    rw [if_neg fun e => this e.symm]

lemma slices_append (ks ls : List (Param × ℕ)) (u v : List R) (hu : u.length = (ks.map Prod.snd).sum) (k : Param) :
    slices (ks ++ ls) (u ++ v) k = match slices ls v k with | some x => some x | none => slices ks u k := by
  induction ks generalizing u with
  | nil =>
    simp only [List.map_nil, List.sum_nil, List.length_eq_zero_iff] at hu
    subst hu
    simp only [List.nil_append, slices]
    cases slices ls v k <;> rfl
  | cons a ks ih =>
    obtain ⟨k0, n⟩ := a
    simp only [List.map_cons, List.sum_cons] at hu
    have hn : n ≤ u.length := by omega
    simp only [List.cons_append, slices]
    rw [List.drop_append_of_le_length hn, ih (u.drop n) (by rw [List.length_drop]; omega), List.take_append_of_le_length hn]
    cases slices ls v k <;> rfl

lemma Lin.params_name (m : Lin) (x : Param × ℕ) (hx : x ∈ m.params) : x.1.1 = m.name := by
  unfold Lin.params at hx
  split_ifs at hx
  · simp at hx; rcases hx with rfl | rfl <;> rfl
  · simp at hx; subst hx; rfl

lemma mem_params (mods : List Lin) (x : Param × ℕ) (hx : x ∈ mods.flatMap Lin.params) : x.1.1 ∈ mods.map Lin.name := by
  obtain ⟨m, hm, hx⟩ := List.mem_flatMap.1 hx
  rw [m.params_name x hx]
  exact List.mem_map_of_mem hm

lemma flatMap_length (mods : List Lin) (rep : Lin → List R) (h : ∀ m ∈ mods, (rep m).length = m.numel) :
    (mods.flatMap rep).length = ((mods.flatMap Lin.params).map Prod.snd).sum := by
  induction mods with
  | nil => rfl
  | cons m mods ih =>
    rw [List.flatMap_cons, List.flatMap_cons, List.map_append, List.sum_append, List.length_append, Lin.params_sum, h m List.mem_cons_self,
      ih fun x hx => h x (List.mem_cons_of_mem _ hx)]

/-- The slices of a module are the two parts of its block. -/
lemma slices_mod (mods : List Lin) (hnd : (mods.map Lin.name).Nodup) (rep : Lin → List R) (h : ∀ m ∈ mods, (rep m).length = m.numel) (m : Lin) (hm : m ∈ mods) :
    slices (mods.flatMap Lin.params) (mods.flatMap rep) (m.name, false) = some ((rep m).take (m.q * m.p)) ∧
    (m.bias = true → slices (mods.flatMap Lin.params) (mods.flatMap rep) (m.name, true) = some ((rep m).drop (m.q * m.p))) := by
  induction mods with
  | nil => cases hm
  | cons a mods ih =>
    rw [List.map_cons, List.nodup_cons] at hnd
    have hla : (rep a).length = (a.params.map Prod.snd).sum := by rw [Lin.params_sum, h a List.mem_cons_self]
    simp only [List.flatMap_cons]
    rcases List.mem_cons.1 hm with rfl | hm'
    · have hno : ∀ b, slices (mods.flatMap Lin.params) (mods.flatMap rep) (m.name, b) = none := fun b =>
        slices_none _ _ _ fun x hx e => hnd.1 (by have := mem_params mods x hx; rw [e] at this; exact this)
      have hlm : (rep m).length = m.numel := h m List.mem_cons_self
      constructor
      · rw [slices_append _ _ _ _ hla, hno]
        unfold Lin.params
        split_ifs with hb <;> simp [slices]
      · intro hb
        rw [slices_append _ _ _ _ hla, hno]
        unfold Lin.params
        rw [if_pos hb]
        simp only [slices]
        unfold Lin.numel at hlm
        rw [if_pos hb] at hlm
        simp only [if_true]
        rw [List.take_of_length_le (by rw [List.length_drop]; omega)]
    · obtain ⟨i1, i2⟩ := ih hnd.2 (fun x hx => h x (List.mem_cons_of_mem _ hx)) hm'
      constructor
      · rw [slices_append _ _ _ _ hla, i1]
      · intro hb
        rw [slices_append _ _ _ _ hla, i2 hb]

section
variable [Field R] [DecidableEq R]

lemma moduleStep_block (cached : (m : Lin) → Option (Stats R m.q m.cols)) (damping : R) (mods : List Lin) (hnd : (mods.map Lin.name).Nodup) (rep : Lin → List R)
    (h : ∀ m ∈ mods, (rep m).length = m.numel) (m : Lin) (hm : m ∈ mods) (s : Stats R m.q m.cols) (hs : cached m = some s) :
    moduleStep cached damping (slices (mods.flatMap Lin.params) (mods.flatMap rep)) m =
      .ok ((ifvp s.qa s.qs s.lam damping (toMat m.q m.cols (rep m))).map fun x => flat (fun i j => x i j)) := by
  obtain ⟨e1, e2⟩ := slices_mod mods hnd rep h m hm
  unfold moduleStep
  rw [e1]
  by_cases hb : m.bias = true
  · rw [if_pos hb, e2 hb]
    simp only [hs, List.take_append_drop]
  · rw [if_neg hb]
    have : (rep m).take (m.q * m.p) = rep m := by
      apply List.take_of_length_le
      rw [h m hm]
      simp [Lin.numel, hb]
    simp only [hs, this, List.append_nil]

omit [Field R] [DecidableEq R] in
lemma Lin.numel_eq (m : Lin) : m.numel = m.q * m.cols := by
  unfold Lin.numel Lin.cols
  split_ifs <;> ring

omit [DecidableEq R] in
lemma flat_toMat (q c : ℕ) (v : List R) (hv : v.length = q * c) : v = flat (fun i j => toMat q c v i j) := by
  apply List.ext_getElem
  · rw [flat_length, hv]
  · intro n h1 h2
    have hc : 0 < c := by
      rcases Nat.eq_zero_or_pos c with rfl | h
      · rw [Nat.mul_zero] at hv; omega
      · exact h
    have hi : n / c < q := by rw [Nat.div_lt_iff_lt_mul hc]; omega
    have hj : n % c < c := Nat.mod_lt _ hc
    have e := flat_getElem (fun i j => toMat q c v i j) ⟨n / c, hi⟩ ⟨n % c, hj⟩
    have hn : n / c * c + n % c = n := Nat.div_add_mod' n c
    simp only [hn] at e
    rw [List.getElem?_eq_getElem h2] at e
    simp only [Option.some.injEq] at e
    rw [e]
    simp [toMat, hn, h1]

omit [DecidableEq R] in
lemma flat_dot {q c : ℕ} (w x : Fin q → Fin c → R) : (List.zipWith (· * ·) (flat w) (flat x)).sum = ∑ i, ∑ j, w i j * x i j := by
  have key : ∀ l : List (Fin q), (List.zipWith (· * ·) (l.flatMap fun i => List.ofFn (w i)) (l.flatMap fun i => List.ofFn (x i))).sum =
      (l.map fun i => ∑ j, w i j * x i j).sum := by
    intro l
    induction l with
    | nil => rfl
    | cons a l ih =>
      rw [List.flatMap_cons, List.flatMap_cons, List.zipWith_append (by simp), List.sum_append, ih, List.map_cons, List.sum_cons]
      congr 1
      rw [← List.sum_ofFn]
      congr 1
      apply List.ext_getElem <;> simp
  unfold flat
  rw [key, ← List.ofFn_eq_map, List.sum_ofFn]

omit [DecidableEq R] in
lemma frob {q c : ℕ} (a b : Matrix (Fin q) (Fin c) R) : ∑ i, ∑ j, a i j * b i j = (aᵀ * b).trace := by
  simp only [Matrix.trace, Matrix.diag, Matrix.mul_apply, Matrix.transpose_apply]
  exact Finset.sum_comm

lemma block_dot {q c : ℕ} (s : Stats R q c) (damping : R) (hd : ∀ i j, s.lam i j + damping ≠ 0) (u v : List R) (hu : u.length = q * c) :
    ∃ t, ((ifvp s.qa s.qs s.lam damping (toMat q c v)).map fun x => flat (fun i j => x i j)) = some t ∧ t.length = q * c ∧
      (List.zipWith (· * ·) u t).sum = blockScore s damping (toMat q c u) (toMat q c v) := by
  have hne : ¬ ∃ i j, s.lam i j + damping = 0 := by push Not; exact hd
  unfold ifvp
  rw [if_neg hne]
  refine ⟨_, rfl, flat_length _, ?_⟩
  conv_lhs => rw [flat_toMat q c u hu]
  rw [flat_dot, frob]
  unfold blockScore
  simp only [mul_div_assoc]
  have := frob (s.qs * toMat q c u * s.qaᵀ) (Matrix.of fun i j => (s.qs * toMat q c v * s.qaᵀ) i j / (s.lam i j + damping))
  simp only [Matrix.of_apply] at this
  rw [this]
  rw [Matrix.transpose_mul, Matrix.transpose_mul, Matrix.transpose_transpose]
  simp only [← Matrix.mul_assoc]
  rw [Matrix.trace_mul_comm]
  simp only [← Matrix.mul_assoc]

omit [DecidableEq R] in
lemma cat_ok (mods : List Lin) (F : Lin → Option (List R)) (g : Lin → List R) (sc : Lin → R)
    (h : ∀ m ∈ mods, ∃ t, F m = some t ∧ t.length = (g m).length ∧ (List.zipWith (· * ·) (g m) t).sum = sc m) :
    ∃ t, catParts (mods.map F) = some t ∧ (List.zipWith (· * ·) (mods.flatMap g) t).sum = (mods.map sc).sum := by
  induction mods with
  | nil => exact ⟨[], rfl, rfl⟩
  | cons m mods ih =>
    obtain ⟨t, e1, e2, e3⟩ := h m List.mem_cons_self
    obtain ⟨t', f1, f2⟩ := ih fun x hx => h x (List.mem_cons_of_mem _ hx)
    refine ⟨t ++ t', by simp only [List.map_cons, catParts, e1, f1], ?_⟩
    rw [List.flatMap_cons, List.zipWith_append e2.symm, List.sum_append, e3, f2, List.map_cons, List.sum_cons]

lemma mapM_ok {α β : Type} (f : α → Except Err β) (g : α → β) (l : List α) (h : ∀ a ∈ l, f a = .ok (g a)) : l.mapM f = .ok (l.map g) := by
  induction l with
  | nil => rfl
  | cons a l ih =>
    rw [List.mapM_cons, h a List.mem_cons_self, ih fun x hx => h x (List.mem_cons_of_mem _ hx)]
    rfl

lemma mapM_key {α β : Type} (f : α → Except Err β) (l : List α) (h : ∀ a ∈ l, ∀ e, f a = .error e → e = .keyError) (hex : ∃ a ∈ l, ∃ e, f a = .error e) :
    l.mapM f = .error .keyError := by
  induction l with
  | nil => obtain ⟨a, ha, -⟩ := hex; cases ha
  | cons a l ih =>
    rw [List.mapM_cons]
    cases hf : f a with
    | error e => rw [h a List.mem_cons_self e hf]; rfl
    | ok b =>
      obtain ⟨x, hx, e, he⟩ := hex
      rcases List.mem_cons.1 hx with rfl | hx
      · rw [hf] at he; cases he
      · have := ih (fun y hy => h y (List.mem_cons_of_mem _ hy)) ⟨x, hx, e, he⟩
        rw [this]
        rfl

/-! ## C184 -/

/-- **C184.** The score with a list of modules is the sum of the scores of the modules; the gradients are given block by block in the order of the request. -/
theorem C184_sum (trainable : Param → Bool) (cached : (m : Lin) → Option (Stats R m.q m.cols)) (damping : R) (mods : List Lin) (hnd : (mods.map Lin.name).Nodup)
    (htr : ∀ m ∈ mods, ∀ x ∈ m.params, trainable x.1 = true) (s : (m : Lin) → Stats R m.q m.cols) (hs : ∀ m ∈ mods, cached m = some (s m))
    (hd : ∀ m ∈ mods, ∀ i j, (s m).lam i j + damping ≠ 0) (g h : Lin → List R) (hg : ∀ m ∈ mods, (g m).length = m.numel) (hh : ∀ m ∈ mods, (h m).length = m.numel) :
    score trainable cached damping mods (mods.flatMap g) (mods.flatMap h) =
      .ok (some (mods.map fun m => blockScore (s m) damping (toMat m.q m.cols (g m)) (toMat m.q m.cols (h m))).sum) := by
  have hall : ((mods.flatMap Lin.params).all fun k => trainable k.1) = true := by
    rw [List.all_eq_true]
    intro x hx
    obtain ⟨m, hm, hx⟩ := List.mem_flatMap.1 hx
    exact htr m hm x hx
  have hmap := mapM_ok (moduleStep cached damping (slices (mods.flatMap Lin.params) (mods.flatMap h)))
    (fun m => (ifvp (s m).qa (s m).qs (s m).lam damping (toMat m.q m.cols (h m))).map fun x => flat (fun i j => x i j)) mods
    (fun m hm => moduleStep_block cached damping mods hnd h hh m hm (s m) (hs m hm))
  obtain ⟨t, e1, e2⟩ := cat_ok mods (fun m => (ifvp (s m).qa (s m).qs (s m).lam damping (toMat m.q m.cols (h m))).map fun x => flat (fun i j => x i j)) g
    (fun m => blockScore (s m) damping (toMat m.q m.cols (g m)) (toMat m.q m.cols (h m)))
    (fun m hm => by
      obtain ⟨t, a1, a2, a3⟩ := block_dot (s m) damping (hd m hm) (g m) (h m) (by rw [hg m hm, Lin.numel_eq])
      exact ⟨t, a1, by rw [a2, hg m hm, Lin.numel_eq], a3⟩)
  unfold score transformRow
  simp only [hall, if_true]
  rw [hmap]
  show Except.ok ((catParts _).map _) = _
  rw [e1, Option.map_some, e2]

/-- **C184** (finite scores). One eigenvalue of one module that the damping brings to 0 makes the test row, and with it all its scores, non-finite. -/
theorem C184_finite (trainable : Param → Bool) (cached : (m : Lin) → Option (Stats R m.q m.cols)) (damping : R) (mods : List Lin) (hnd : (mods.map Lin.name).Nodup)
    (htr : ∀ m ∈ mods, ∀ x ∈ m.params, trainable x.1 = true) (s : (m : Lin) → Stats R m.q m.cols) (hs : ∀ m ∈ mods, cached m = some (s m))
    (hd : ∃ m ∈ mods, ∃ i j, (s m).lam i j + damping = 0) (u : List R) (h : Lin → List R) (hh : ∀ m ∈ mods, (h m).length = m.numel) :
    score trainable cached damping mods u (mods.flatMap h) = .ok none := by
  have hall : ((mods.flatMap Lin.params).all fun k => trainable k.1) = true := by
    rw [List.all_eq_true]
    intro x hx
    obtain ⟨m, hm, hx⟩ := List.mem_flatMap.1 hx
    exact htr m hm x hx
  have hmap := mapM_ok (moduleStep cached damping (slices (mods.flatMap Lin.params) (mods.flatMap h)))
    (fun m => (ifvp (s m).qa (s m).qs (s m).lam damping (toMat m.q m.cols (h m))).map fun x => flat (fun i j => x i j)) mods
    (fun m hm => moduleStep_block cached damping mods hnd h hh m hm (s m) (hs m hm))
  have hcat : ∀ (l : List Lin) (F : Lin → Option (List R)), (∃ m ∈ l, F m = none) → catParts (l.map F) = none := by
    intro l F
    induction l with
    | nil => rintro ⟨m, hm, -⟩; simp at hm
    | cons a l ih =>
      rintro ⟨m, hm, hF⟩
      rcases List.mem_cons.1 hm with rfl | hm
      · simp only [List.map_cons, catParts, hF]
      · simp only [List.map_cons, catParts, ih ⟨m, hm, hF⟩]
        cases F a <;> rfl
  unfold score transformRow
  simp only [hall, if_true]
  rw [hmap]
  show Except.ok ((catParts _).map _) = _
  obtain ⟨m, hm, hz⟩ := hd
  rw [hcat mods _ ⟨m, hm, by simp [ifvp, hz]⟩]
  rfl

/-- **C184.** A module one of whose parameters does not require gradients, or for which `cache` stored nothing (a layer the model does not run), makes `attribute` raise
`KeyError`, also if the other modules are fine. -/
theorem C184_keyError (trainable : Param → Bool) (cached : (m : Lin) → Option (Stats R m.q m.cols)) (damping : R) (mods : List Lin) (u v : List R)
    (hbad : ∃ m ∈ mods, (∃ x ∈ m.params, trainable x.1 = false) ∨ cached m = none) :
    score trainable cached damping mods u v = .error .keyError := by
  unfold score transformRow
  by_cases hall : ((mods.flatMap Lin.params).all fun k => trainable k.1) = true
  · simp only [hall, if_true]
    obtain ⟨m, hm, hb | hb⟩ := hbad
    · obtain ⟨x, hx, hf⟩ := hb
      have := (List.all_eq_true.1 hall) x (List.mem_flatMap.2 ⟨m, hm, hx⟩)
      rw [hf] at this; cases this
    · rw [mapM_key (moduleStep cached damping (slices (mods.flatMap Lin.params) v)) mods ?_ ⟨m, hm, .keyError, ?_⟩]
      · rfl
      · intro a _ e he
        unfold moduleStep at he
        split at he
        · split at he
          · cases he; rfl
          · cases he
        · cases he; rfl
      · unfold moduleStep
        rw [hb]
        split <;> rfl
  · simp only [hall]
    rfl

/-- **C184.** The order in which modules are requested does not matter. -/
theorem C184_order (trainable : Param → Bool) (cached : (m : Lin) → Option (Stats R m.q m.cols)) (damping : R) (mods mods' : List Lin) (hp : mods.Perm mods')
    (hnd : (mods.map Lin.name).Nodup)
    (htr : ∀ m ∈ mods, ∀ x ∈ m.params, trainable x.1 = true) (s : (m : Lin) → Stats R m.q m.cols) (hs : ∀ m ∈ mods, cached m = some (s m))
    (hd : ∀ m ∈ mods, ∀ i j, (s m).lam i j + damping ≠ 0) (g h : Lin → List R) (hg : ∀ m ∈ mods, (g m).length = m.numel) (hh : ∀ m ∈ mods, (h m).length = m.numel) :
    score trainable cached damping mods' (mods'.flatMap g) (mods'.flatMap h) = score trainable cached damping mods (mods.flatMap g) (mods.flatMap h) := by
  have hmem : ∀ m, m ∈ mods' → m ∈ mods := fun m hm => hp.mem_iff.2 hm
  rw [C184_sum trainable cached damping mods hnd htr s hs hd g h hg hh,
    C184_sum trainable cached damping mods' ((hp.map _).nodup_iff.1 hnd) (fun m hm => htr m (hmem m hm)) s (fun m hm => hs m (hmem m hm)) (fun m hm => hd m (hmem m hm)) g h
      (fun m hm => hg m (hmem m hm)) (fun m hm => hh m (hmem m hm)), (hp.map _).sum_eq]

end

section
variable [Field R] [LinearOrder R] [IsStrictOrderedRing R]

lemma cs_add {a b c a' b' c' : R} (ha : 0 ≤ a) (hb : 0 ≤ b) (ha' : 0 ≤ a') (hb' : 0 ≤ b') (h : c ^ 2 ≤ a * b) (h' : c' ^ 2 ≤ a' * b') :
    (c + c') ^ 2 ≤ (a + a') * (b + b') := by
  have h1 : (c * c') ^ 2 ≤ (a * b') * (a' * b) := by
    calc (c * c') ^ 2 = c ^ 2 * c' ^ 2 := by ring
      _ ≤ (a * b) * (a' * b') := mul_le_mul h h' (sq_nonneg _) (mul_nonneg ha hb)
      _ = (a * b') * (a' * b) := by ring
  have h2 : 2 * (c * c') ≤ a * b' + a' * b := by
    by_contra hc
    push Not at hc
    have hs : 0 ≤ a * b' + a' * b := add_nonneg (mul_nonneg ha hb') (mul_nonneg ha' hb)
    have : (a * b' + a' * b) ^ 2 < (2 * (c * c')) ^ 2 := by
      apply pow_lt_pow_left₀ hc hs (by norm_num)
    nlinarith [sq_nonneg (a * b' - a' * b)]
  nlinarith

lemma blockScore_cs {q c : ℕ} (s : Stats R q c) (damping : R) (hd : ∀ i j, 0 < s.lam i j + damping) (g h : Matrix (Fin q) (Fin c) R) :
    0 ≤ blockScore s damping g g ∧ blockScore s damping g h ^ 2 ≤ blockScore s damping g g * blockScore s damping h h := by
  have nn : ∀ g : Matrix (Fin q) (Fin c) R, ∀ i j, 0 ≤ (s.qs * g * s.qaᵀ) i j * (s.qs * g * s.qaᵀ) i j / (s.lam i j + damping) := fun g i j =>
    div_nonneg (mul_self_nonneg _) (hd i j).le
  constructor
  · exact Finset.sum_nonneg fun i _ => Finset.sum_nonneg fun j _ => nn g i j
  · unfold blockScore
    simp only [← Fintype.sum_prod_type' (fun i j => (_ : R))]
    apply Finset.sum_sq_le_sum_mul_sum_of_sq_le_mul
    · intro x _; exact nn g x.1 x.2
    · intro x _; exact nn h x.1 x.2
    · intro x _
      have := (hd x.1 x.2).ne'
      apply le_of_eq
      field_simp

/-- **C184.** With positive damped eigenvalues: scores are symmetric in the two gradients, the score of a gradient with itself is not negative, and no score exceeds the
geometric mean of the two self scores. -/
theorem C184_symmetric (trainable : Param → Bool) (cached : (m : Lin) → Option (Stats R m.q m.cols)) (damping : R) (mods : List Lin) (hnd : (mods.map Lin.name).Nodup)
    (htr : ∀ m ∈ mods, ∀ x ∈ m.params, trainable x.1 = true) (s : (m : Lin) → Stats R m.q m.cols) (hs : ∀ m ∈ mods, cached m = some (s m))
    (hd : ∀ m ∈ mods, ∀ i j, 0 < (s m).lam i j + damping) (g h : Lin → List R) (hg : ∀ m ∈ mods, (g m).length = m.numel) (hh : ∀ m ∈ mods, (h m).length = m.numel) :
    ∃ gg gh hh' : R, score trainable cached damping mods (mods.flatMap g) (mods.flatMap g) = .ok (some gg) ∧
      score trainable cached damping mods (mods.flatMap g) (mods.flatMap h) = .ok (some gh) ∧
      score trainable cached damping mods (mods.flatMap h) (mods.flatMap g) = .ok (some gh) ∧
      score trainable cached damping mods (mods.flatMap h) (mods.flatMap h) = .ok (some hh') ∧ 0 ≤ gg ∧ 0 ≤ hh' ∧ gh ^ 2 ≤ gg * hh' := by
  have hd' : ∀ m ∈ mods, ∀ i j, (s m).lam i j + damping ≠ 0 := fun m hm i j => (hd m hm i j).ne'
  refine ⟨_, _, _, C184_sum trainable cached damping mods hnd htr s hs hd' g g hg hg, C184_sum trainable cached damping mods hnd htr s hs hd' g h hg hh, ?_,
    C184_sum trainable cached damping mods hnd htr s hs hd' h h hh hh, ?_⟩
  · rw [C184_sum trainable cached damping mods hnd htr s hs hd' h g hh hg]
    congr 4
    funext m
    unfold blockScore
    refine Finset.sum_congr rfl fun i _ => Finset.sum_congr rfl fun j _ => ?_
    congr 1
    exact mul_comm _ _
  · clear hnd htr hs hd' hg hh
    induction mods with
    | nil => simp
    | cons m mods ih =>
      obtain ⟨i1, i2, i3⟩ := ih fun x hx => hd x (List.mem_cons_of_mem _ hx)
      have b1 := blockScore_cs (s m) damping (hd m List.mem_cons_self) (toMat m.q m.cols (g m)) (toMat m.q m.cols (h m))
      have b2 := blockScore_cs (s m) damping (hd m List.mem_cons_self) (toMat m.q m.cols (h m)) (toMat m.q m.cols (g m))
      simp only [List.map_cons, List.sum_cons]
      exact ⟨add_nonneg b1.1 i1, add_nonneg b2.1 i2, cs_add b1.1 b2.1 i1 i2 b1.2 i3⟩

end

/-! ## Non-vacuity -/

/-- Two layers, one with a bias, requested in both orders: the score is `2·3/2 + (1·4 + 1·1 + 1·1 + 1·1)/2 = 13/2` either way. -/
def exMods : List Lin := [⟨"fc1", 1, 1, false⟩, ⟨"fc2", 2, 1, true⟩]

/-- Statistics of the example: identity bases, eigenvalues one. -/
def exStats (m : Lin) : Stats ℚ m.q m.cols := ⟨1, 1, fun _ _ => 1⟩

example : score (R := ℚ) (fun _ => true) (fun m => some (exStats m)) 1 exMods [2, 1, 1, 1, 1] [3, 4, 1, 1, 1] = .ok (some (13 / 2)) ∧
    score (R := ℚ) (fun _ => true) (fun m => some (exStats m)) 1 exMods.reverse [1, 1, 1, 1, 2] [4, 1, 1, 1, 3] = .ok (some (13 / 2)) := by
  have h := C184_sum (R := ℚ) (fun _ => true) (fun m => some (exStats m)) 1 exMods (by decide) (fun _ _ _ _ => rfl) exStats (fun _ _ => rfl)
    (fun _ _ _ _ => by norm_num [exStats]) (fun m => if m.name = "fc1" then [2] else [1, 1, 1, 1]) (fun m => if m.name = "fc1" then [3] else [4, 1, 1, 1])
    (by decide) (by decide)
  have h' := C184_order (R := ℚ) (fun _ => true) (fun m => some (exStats m)) 1 exMods exMods.reverse (List.reverse_perm _).symm (by decide) (fun _ _ _ _ => rfl) exStats
    (fun _ _ => rfl) (fun _ _ _ _ => by norm_num [exStats]) (fun m => if m.name = "fc1" then [2] else [1, 1, 1, 1]) (fun m => if m.name = "fc1" then [3] else [4, 1, 1, 1])
    (by decide) (by decide)
  have e : (exMods.map fun m => blockScore (exStats m) 1 (toMat m.q m.cols (if m.name = "fc1" then [2] else [1, 1, 1, 1]))
      (toMat m.q m.cols (if m.name = "fc1" then [3] else [4, 1, 1, 1]))).sum = 13 / 2 := by
    show blockScore (R := ℚ) (q := 1) (c := 1) ⟨1, 1, fun _ _ => 1⟩ 1 (toMat 1 1 [2]) (toMat 1 1 [3]) +
      (blockScore (R := ℚ) (q := 2) (c := 2) ⟨1, 1, fun _ _ => 1⟩ 1 (toMat 2 2 [1, 1, 1, 1]) (toMat 2 2 [4, 1, 1, 1]) + 0) = 13 / 2
    simp [blockScore, toMat, Fin.sum_univ_two]
    norm_num
  rw [e] at h
  exact ⟨h, h'.trans h⟩

end Verif.EKFAC
