import Verif.BlockIF.IFProps

/-!
# Block-projected scores for part of the layers (property C248)
-/

namespace Verif.BlockIF

open Verif

variable {K : Type} [Field K] {L A B : ℕ} {d : Fin L → ℕ}

/-! ### Specification -/

/-- The compressed gradient of the chosen layers. -/
def only (φ : Fin A → Fin L) (g : Row K d) : Row K (fun a => d (φ a)) := fun a => g (φ a)

/-- The same loader for an attributor with the chosen layers. -/
def Data.only (φ : Fin A → Fin L) (D : Data K d) : Data K (fun a => d (φ a)) :=
  ⟨D.spec, D.batches.map (List.map (Verif.BlockIF.only φ))⟩

/-! ### Helper lemmas -/

omit [Field K] in
theorem only_wf {D : Data K d} (h : D.WF) (φ : Fin A → Fin L) : (D.only φ).WF := by
  refine ⟨h.real, by simpa [Data.only] using h.length, ?_⟩
  intro k b hb
  simp only [Data.only, List.getElem?_map, Option.map_eq_some_iff] at hb
  obtain ⟨b0, h0, rfl⟩ := hb
  rw [List.length_map]
  exact h.sizes k b0 h0

omit [Field K] in
theorem only_flatten (φ : Fin A → Fin L) (D : Data K d) :
    (D.only φ).batches.flatten = D.batches.flatten.map (only φ) := by
  simp [Data.only, List.map_flatten]

omit [Field K] in
theorem only_ne {D : Data K d} (h : D.batches ≠ []) (φ : Fin A → Fin L) :
    (D.only φ).batches ≠ [] := by simpa [Data.only] using h

theorem damped_only (δ : K) (φ : Fin A → Fin L) (a : Fin A) (samples : List (Row K d)) :
    damped δ a (samples.map (only φ)) = damped δ (φ a) samples := by
  unfold damped meanOuter
  rw [List.length_map, List.map_map]
  rfl

theorem preconditioned_only (h : Hessian) (δ : K) (φ : Fin A → Fin L) (samples : List (Row K d))
    (g : Row K d) (a : Fin A) :
    preconditioned h δ (samples.map (only φ)) (only φ g) a =
      preconditioned h δ samples g (φ a) := by
  cases h with
  | identity => rfl
  | efim =>
    change ((damped δ a (samples.map (only φ)))⁻¹).mulVec _ = _
    rw [damped_only]
    rfl

variable [DecidableEq K]

theorem succeeds_only (damping : Option K) {D : Data K d} (hD : D.WF) (hne : D.batches ≠ [])
    (φ : Fin A → Fin L) :
    (∃ st, cache .efim damping (St.new K (fun a => d (φ a)) none) (D.only φ) = (st, .ok ())) ↔
      ∀ a, Active (φ a) D.batches.flatten →
        (damped (damping.getD (1 / 100000)) (φ a) D.batches.flatten).det ≠ 0 := by
  rw [C60_succeeds damping (only_wf hD φ) (only_ne hne φ), only_flatten]
  refine forall_congr' fun a => ?_
  rw [damped_only]
  unfold Active
  simp

theorem entries_only (h : Hessian) (damping : Option K) {D : Data K d} (hD : D.WF)
    (hne : D.batches ≠ []) (φ : Fin A → Fin L) {st : St K (fun a => d (φ a))}
    (hok : cache h damping (St.new K (fun a => d (φ a)) none) (D.only φ) = (st, .ok ()))
    (train : Data K (fun a => d (φ a))) (test : Data K d) (ht : test.batches.flatten ≠ [])
    (hd : ∑ a, d (φ a) ≠ 0) :
    ∃ M, (attribute' h damping st train (test.only φ)).2 = .ok M ∧
      M.r = D.batches.flatten.length ∧ M.c = test.batches.flatten.length ∧
      ∀ i j (hi : i < D.batches.flatten.length) (hj : j < test.batches.flatten.length),
        M.f i j = ∑ a, ∑ k, preconditioned h (damping.getD (1 / 100000)) D.batches.flatten
          D.batches.flatten[i] (φ a) k * test.batches.flatten[j] (φ a) k := by
  obtain ⟨M, h1, h2⟩ := C60_entries h damping (only_wf hD φ) (only_ne hne φ) hok train
    (test.only φ) (by rw [only_flatten]; simpa using ht) hd
  rw [only_flatten, only_flatten, List.map_map] at h2
  refine ⟨M, h1, by rw [h2.r, List.length_map], by rw [h2.c, List.length_map], ?_⟩
  intro i j hi hj
  rw [h2.f i j _ _ (by rw [List.getElem?_map, List.getElem?_eq_getElem hi]; rfl)
    (by rw [List.getElem?_map, List.getElem?_eq_getElem hj]; rfl)]
  refine Finset.sum_congr rfl fun a _ => Finset.sum_congr rfl fun k _ => ?_
  rw [Function.comp, preconditioned_only]
  rfl

/-! ### C248 -/

/-- **C248.** If the layers are divided between two attributors (`φ` and `ψ` choose them, in whatever
order), caching with all layers succeeds exactly when both succeed, and the scores with all layers are
the sums of the two attributors' scores. -/
theorem C248_layers (h : Hessian) (damping : Option K) {D : Data K d} (hD : D.WF)
    (hne : D.batches ≠ []) (φ : Fin A → Fin L) (ψ : Fin B → Fin L)
    (hb : Function.Bijective (Sum.elim φ ψ)) :
    ((∃ st, cache .efim damping (St.new K d none) D = (st, .ok ())) ↔
      (∃ st, cache .efim damping (St.new K (fun a => d (φ a)) none) (D.only φ) = (st, .ok ())) ∧
      ∃ st, cache .efim damping (St.new K (fun b => d (ψ b)) none) (D.only ψ) = (st, .ok ())) ∧
    ∀ st s₁ s₂, cache h damping (St.new K d none) D = (st, .ok ()) →
      cache h damping (St.new K (fun a => d (φ a)) none) (D.only φ) = (s₁, .ok ()) →
      cache h damping (St.new K (fun b => d (ψ b)) none) (D.only ψ) = (s₂, .ok ()) →
      ∀ train t₁ t₂, ∀ test : Data K d, test.batches.flatten ≠ [] → ∑ a, d (φ a) ≠ 0 →
      ∑ b, d (ψ b) ≠ 0 →
      ∃ M M₁ M₂, (attribute' h damping st train test).2 = .ok M ∧
        (attribute' h damping s₁ t₁ (test.only φ)).2 = .ok M₁ ∧
        (attribute' h damping s₂ t₂ (test.only ψ)).2 = .ok M₂ ∧
        M.r = D.batches.flatten.length ∧ M.c = test.batches.flatten.length ∧
        M₁.r = M.r ∧ M₁.c = M.c ∧ M₂.r = M.r ∧ M₂.c = M.c ∧
        ∀ i j, i < M.r → j < M.c → M.f i j = M₁.f i j + M₂.f i j := by
  have hsum : ∀ {β : Type} [AddCommMonoid β] (f : Fin L → β),
      ∑ l, f l = ∑ a, f (φ a) + ∑ b, f (ψ b) := by
    intro β _ f
    rw [← (Equiv.ofBijective _ hb).sum_comp, Fintype.sum_sum_type]
    rfl
  constructor
  · rw [C60_succeeds damping hD hne, succeeds_only damping hD hne, succeeds_only damping hD hne]
    constructor
    · exact fun H => ⟨fun a => H _, fun b => H _⟩
    · rintro ⟨H1, H2⟩ l
      obtain ⟨x, rfl⟩ := hb.2 l
      cases x with
      | inl a => exact H1 a
      | inr b => exact H2 b
  · intro st s₁ s₂ hok hok₁ hok₂ train t₁ t₂ test ht hd₁ hd₂
    have hd : ∑ l, d l ≠ 0 := by
      rw [hsum]
      omega
    obtain ⟨M, h1, h2⟩ := C60_entries h damping hD hne hok train test ht hd
    obtain ⟨M₁, a1, a2, a3, a4⟩ := entries_only h damping hD hne φ hok₁ t₁ test ht hd₁
    obtain ⟨M₂, b1, b2, b3, b4⟩ := entries_only h damping hD hne ψ hok₂ t₂ test ht hd₂
    have hr : M.r = D.batches.flatten.length := by rw [h2.r, List.length_map]
    refine ⟨M, M₁, M₂, h1, a1, b1, hr, h2.c, by rw [a2, hr], by rw [a3, h2.c], by rw [b2, hr],
      by rw [b3, h2.c], ?_⟩
    intro i j hi hj
    rw [hr] at hi
    rw [h2.c] at hj
    rw [h2.f i j _ _ (by rw [List.getElem?_map, List.getElem?_eq_getElem hi]; rfl)
      (List.getElem?_eq_getElem hj), a4 i j hi hj, b4 i j hi hj]
    exact hsum _

/-- **C248.** Naming the layers in another order changes neither whether caching succeeds nor any score. -/
theorem C248_order (h : Hessian) (damping : Option K) {D : Data K d} (hD : D.WF)
    (hne : D.batches ≠ []) (φ : Fin A → Fin L) (hb : Function.Bijective φ) :
    ((∃ st, cache .efim damping (St.new K d none) D = (st, .ok ())) ↔
      ∃ st, cache .efim damping (St.new K (fun a => d (φ a)) none) (D.only φ) = (st, .ok ())) ∧
    ∀ st s₁, cache h damping (St.new K d none) D = (st, .ok ()) →
      cache h damping (St.new K (fun a => d (φ a)) none) (D.only φ) = (s₁, .ok ()) →
      ∀ train t₁, ∀ test : Data K d, test.batches.flatten ≠ [] → ∑ l, d l ≠ 0 →
      ∃ M M₁, (attribute' h damping st train test).2 = .ok M ∧
        (attribute' h damping s₁ t₁ (test.only φ)).2 = .ok M₁ ∧
        M.r = D.batches.flatten.length ∧ M.c = test.batches.flatten.length ∧
        M₁.r = M.r ∧ M₁.c = M.c ∧ ∀ i j, i < M.r → j < M.c → M₁.f i j = M.f i j := by
  constructor
  · rw [C60_succeeds damping hD hne, succeeds_only damping hD hne]
    exact hb.2.forall
  · intro st s₁ hok hok₁ train t₁ test ht hd
    have hd₁ : ∑ a, d (φ a) ≠ 0 := by
      have e : ∑ a, d (φ a) = ∑ l, d l := (Equiv.ofBijective φ hb).sum_comp d
      rwa [e]
    obtain ⟨M, h1, h2⟩ := C60_entries h damping hD hne hok train test ht hd
    obtain ⟨M₁, a1, a2, a3, a4⟩ := entries_only h damping hD hne φ hok₁ t₁ test ht hd₁
    have hr : M.r = D.batches.flatten.length := by rw [h2.r, List.length_map]
    refine ⟨M, M₁, h1, a1, hr, h2.c, by rw [a2, hr], by rw [a3, h2.c], ?_⟩
    intro i j hi hj
    rw [hr] at hi
    rw [h2.c] at hj
    rw [h2.f i j _ _ (by rw [List.getElem?_map, List.getElem?_eq_getElem hi]; rfl)
      (List.getElem?_eq_getElem hj), a4 i j hi hj]
    exact (Equiv.ofBijective φ hb).sum_comp fun l => ∑ k, preconditioned h
      (damping.getD (1 / 100000)) D.batches.flatten D.batches.flatten[i] l k *
        test.batches.flatten[j] l k

/-! ### Concrete case -/

/-- Two layers of dimension one. -/
def duo (a b : ℚ) : Row ℚ (fun _ : Fin 2 => 1) := fun l _ => if l = 0 then a else b

/-- The samples (1, 2) and (3, 0), with damping 1: the score with both layers is the sum of the
scores with the second and with the first. -/
example : ∃ st s₁ s₂ M M₁ M₂,
    cache .efim (some 1) (St.new ℚ (fun _ : Fin 2 => 1) none)
      (Data.of 2 false [duo 1 2, duo 3 0]) = (st, .ok ()) ∧
    cache .efim (some 1) (St.new ℚ (fun _ : Fin 1 => 1) none)
      ((Data.of 2 false [duo 1 2, duo 3 0]).only fun _ : Fin 1 => 1) = (s₁, .ok ()) ∧
    cache .efim (some 1) (St.new ℚ (fun _ : Fin 1 => 1) none)
      ((Data.of 2 false [duo 1 2, duo 3 0]).only fun _ : Fin 1 => 0) = (s₂, .ok ()) ∧
    (attribute' .efim (some 1) st (Data.of 2 false []) (Data.of 2 false [duo 4 5])).2 = .ok M ∧
    (attribute' .efim (some 1) s₁ (Data.of 2 false [])
      ((Data.of 2 false [duo 4 5]).only fun _ : Fin 1 => 1)).2 = .ok M₁ ∧
    (attribute' .efim (some 1) s₂ (Data.of 2 false [])
      ((Data.of 2 false [duo 4 5]).only fun _ : Fin 1 => 0)).2 = .ok M₂ ∧
    M.f 0 0 = M₁.f 0 0 + M₂.f 0 0 := by
  have h := C248_layers .efim (some 1) (of_wf (bs := 2) (by decide) false [duo 1 2, duo 3 0])
    (by decide) (fun _ : Fin 1 => 1) (fun _ : Fin 1 => 0) (by
      constructor
      · rintro (a | a) (b | b) hab <;> first | (rw [Subsingleton.elim a b]; done) | simp at hab
      · intro l
        fin_cases l
        · exact ⟨.inr 0, rfl⟩
        · exact ⟨.inl 0, rfl⟩)
  have h0 : ∃ st, cache .efim (some 1) (St.new ℚ (fun _ : Fin 2 => 1) none)
      (Data.of 2 false [duo 1 2, duo 3 0]) = (st, .ok ()) := by
    rw [C60_succeeds (some 1) (of_wf (by decide) false [duo 1 2, duo 3 0]) (by decide)]
    intro l _
    refine C56_exists one_pos l ⟨duo 1 2, ?_, fun h => ?_⟩
    · rw [of_flatten_all (by decide)]
      simp
    · have := congrFun h 0
      fin_cases l <;> simp [duo] at this
  obtain ⟨⟨s₁, h1⟩, ⟨s₂, h2⟩⟩ := h.1.1 h0
  obtain ⟨st, h0⟩ := h0
  obtain ⟨M, M₁, M₂, a1, a2, a3, a4, a5, _, _, _, _, a6⟩ := h.2 st s₁ s₂ h0 h1 h2
    (Data.of 2 false []) (Data.of 2 false []) (Data.of 2 false []) (Data.of 2 false [duo 4 5])
    (by decide) (by decide) (by decide)
  have hr : M.r = 2 := by rw [a4]; rfl
  have hc : M.c = 1 := by rw [a5]; rfl
  exact ⟨st, s₁, s₂, M, M₁, M₂, h0, h1, h2, a1, a2, a3, a6 0 0 (by omega) (by omega)⟩

/-- The same samples with the two layers exchanged. -/
example : ∃ st s₁ M M₁,
    cache .efim (some 1) (St.new ℚ (fun _ : Fin 2 => 1) none)
      (Data.of 2 false [duo 1 2, duo 3 0]) = (st, .ok ()) ∧
    cache .efim (some 1) (St.new ℚ (fun _ : Fin 2 => 1) none)
      ((Data.of 2 false [duo 1 2, duo 3 0]).only (Equiv.swap (0 : Fin 2) 1)) = (s₁, .ok ()) ∧
    (attribute' .efim (some 1) st (Data.of 2 false []) (Data.of 2 false [duo 4 5])).2 = .ok M ∧
    (attribute' .efim (some 1) s₁ (Data.of 2 false [])
      ((Data.of 2 false [duo 4 5]).only (Equiv.swap (0 : Fin 2) 1))).2 = .ok M₁ ∧
    M₁.f 1 0 = M.f 1 0 := by
  have h := C248_order .efim (some 1) (of_wf (bs := 2) (by decide) false [duo 1 2, duo 3 0])
    (by decide) (Equiv.swap (0 : Fin 2) 1) (Equiv.swap (0 : Fin 2) 1).bijective
  have h0 : ∃ st, cache .efim (some 1) (St.new ℚ (fun _ : Fin 2 => 1) none)
      (Data.of 2 false [duo 1 2, duo 3 0]) = (st, .ok ()) := by
    rw [C60_succeeds (some 1) (of_wf (by decide) false [duo 1 2, duo 3 0]) (by decide)]
    intro l _
    refine C56_exists one_pos l ⟨duo 1 2, ?_, fun h => ?_⟩
    · rw [of_flatten_all (by decide)]
      simp
    · have := congrFun h 0
      fin_cases l <;> simp [duo] at this
  obtain ⟨s₁, h1⟩ := h.1.1 h0
  obtain ⟨st, h0⟩ := h0
  obtain ⟨M, M₁, a1, a2, a4, a5, _, _, a6⟩ := h.2 st s₁ h0 h1
    (Data.of 2 false []) (Data.of 2 false []) (Data.of 2 false [duo 4 5]) (by decide) (by decide)
  have hr : M.r = 2 := by rw [a4]; rfl
  have hc : M.c = 1 := by rw [a5]; rfl
  exact ⟨st, s₁, M, M₁, h0, h1, a1, a2, a6 1 0 (by omega) (by omega)⟩

end Verif.BlockIF
