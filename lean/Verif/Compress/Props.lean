import Verif.Base.LastIdx
import Mathlib.Data.List.Induction
import Verif.Compress.Model
import Verif.Projection.BasicProps

/-!
# Layer compressors: properties
-/

namespace Verif.Compress

open Verif Verif.Projection

/-- C68: the base seeds of the three projectors are different for different modules, and within one module
the two sparsifiers are seeded differently. -/
theorem C68_layers_differ (s p : ℤ) {a b : ℕ} (h : a ≠ b) :
    (seedsOf s p a).comp1 ≠ (seedsOf s p b).comp1 ∧ (seedsOf s p a).comp2 ≠ (seedsOf s p b).comp2 ∧
      (seedsOf s p a).proj ≠ (seedsOf s p b).proj ∧ (seedsOf s p a).comp1 ≠ (seedsOf s p a).comp2 ∧
      (seedsOf s p a).comp1 ≠ (seedsOf s p b).comp2 := by
  simp only [seedsOf]; omega

/-- C68: with equal seeds in the two stages the projector of a layer has the seed of its input
sparsifier. -/
theorem C68_stages_coincide (s p : ℤ) (a : ℕ) :
    (seedsOf s p a).comp2 = (seedsOf s p a).proj ↔ s = p := by
  simp only [seedsOf]; omega

/-- C68: block `i` of the projector of one module is drawn from the generator state of block `j` of another
exactly if ten times the distance of the modules makes up for the distance of the blocks. -/
theorem C68_blocks_coincide (p : ℤ) (a b i j : ℕ) :
    blockSeed (seedsOf 0 p a).proj i 0 = blockSeed (seedsOf 0 p b).proj j 0 ↔ 10 * a + i = 10 * b + j := by
  simp only [seedsOf, blockSeed]; omega

variable {d : ℕ}

theorem projector_project (rng : Rng d) {n : ℕ} (hn : 0 < n) {kind : Kind} (hk : kind = .normal ∨ kind = .rademacher)
    (p : ℤ) (id : ℕ) : ∃ st, (projector rng n kind p id).init = .ok st ∧ ∀ x : Fin d → ℝ,
      ((projector rng n kind p id).project st [x] 0).2 =
        .ok [(List.range n).map (idealEntry (projector rng n kind p id) 0 x)] := by
  obtain ⟨st, h0, h⟩ := C28_history (projector rng n kind p id)
    (by rcases hk with h | h <;> simp [projector, h]) hn (by decide : 0 < 100)
  refine ⟨st, h0, fun x => ?_⟩
  obtain ⟨h1, h2⟩ := h [] [x] 0
  have hl : ¬ Lost (projector rng n kind p id).ens0 ([] : List (BOp d)) 0 := by
    rintro ⟨l1, l2, e, _⟩
    cases l1 <;> cases e
  have := h2 (fun e => hl (h1.1 e).2.2)
  have hr : idealRow (projector rng n kind p id) 0 x =
      (List.range n).map (idealEntry (projector rng n kind p id) 0 x) := by
    rcases hk with rfl | rfl <;> rfl
  simpa [hr, Basic.run] using this

/-- C68: with dense projections on the CPU and equal feature dimensions, column `1000 * δ + j` of the
projection of one module is column `j` of the projection of the module `δ` positions later, for all inputs
(the layers share `n - 1000 * δ` columns). -/
theorem C68_columns_coincide (rng : Rng d) {n : ℕ} {kind : Kind} (hk : kind = .normal ∨ kind = .rademacher)
    (p : ℤ) (id δ j : ℕ) (hδ : 0 < δ) (hj : 1000 * δ + j < n) (x : Fin d → ℝ) :
    ∃ s1 s2 r1 r2, (projector rng n kind p id).init = .ok s1 ∧ (projector rng n kind p (id + δ)).init = .ok s2 ∧
      ((projector rng n kind p id).project s1 [x] 0).2 = .ok [r1] ∧
      ((projector rng n kind p (id + δ)).project s2 [x] 0).2 = .ok [r2] ∧
      r1.length = n ∧ r2.length = n ∧ r1[1000 * δ + j]? = r2[j]? := by
  have hn : 0 < n := by omega
  obtain ⟨s1, h1, e1⟩ := projector_project rng hn hk p id
  obtain ⟨s2, h2, e2⟩ := projector_project rng hn hk p (id + δ)
  refine ⟨s1, s2, _, _, h1, h2, e1 x, e2 x, by simp, by simp, ?_⟩
  rw [List.getElem?_map, List.getElem?_map, List.getElem?_range (by omega), List.getElem?_range (by omega)]
  simp only [Option.map_some, Option.some.injEq]
  have hm : min n 100 = 100 := by omega
  unfold idealEntry
  simp only [projector, hm]
  have e3 : (1000 * δ + j) % 100 = j % 100 := by omega
  have e4 : (((1000 * δ + j) / 100 : ℕ) : ℤ) = 10 * δ + ((j / 100 : ℕ) : ℤ) := by omega
  rw [e3, e4]
  have e5 : (seedsOf 0 p id).proj + 1000 * (10 * (δ : ℤ) + ((j / 100 : ℕ) : ℤ)) + 100000 * 0 =
      (seedsOf 0 p (id + δ)).proj + 1000 * ((j / 100 : ℕ) : ℤ) + 100000 * 0 := by
    simp only [seedsOf]; push_cast; ring
  rw [e5]

/-- C68: up to 1000 projected dimensions all blocks of all modules are drawn from different states. -/
theorem C68_small_apart (p : ℤ) {n a b i j : ℕ} (hn : n ≤ 1000) (hi : i < numBatches (min n 100) n)
    (hj : j < numBatches (min n 100) n) (h : (a, i) ≠ (b, j)) :
    blockSeed (seedsOf 0 p a).proj i 0 ≠ blockSeed (seedsOf 0 p b).proj j 0 := by
  rw [Ne, C68_blocks_coincide]
  have bound : numBatches (min n 100) n ≤ 10 := by
    unfold numBatches
    by_cases h0 : n ≤ 100
    · rw [Nat.min_eq_left h0]
      rcases Nat.eq_zero_or_pos n with rfl | hp
      · simp
      · have : (n + n - 1) / n = 1 := by rw [Nat.div_eq_iff hp]; omega
        omega
    · rw [Nat.min_eq_right (by omega)]; omega
  intro e
  apply h
  have : i = j := by omega
  have : a = b := by omega
  simp [*]

/-- The default FactGraSS configuration on the CPU has 4096 projected dimensions: two linear layers with an
activation in between share columns 2000 to 4095 with columns 0 to 2095. -/
example (rng : Rng d) (x : Fin d → ℝ) : ∃ s1 s2 r1 r2, (projector rng 4096 .normal 0 1).init = .ok s1 ∧
    (projector rng 4096 .normal 0 3).init = .ok s2 ∧
    ((projector rng 4096 .normal 0 1).project s1 [x] 0).2 = .ok [r1] ∧
    ((projector rng 4096 .normal 0 3).project s2 [x] 0).2 = .ok [r2] ∧
    r1.length = 4096 ∧ r2.length = 4096 ∧ r1[2000]? = r2[0]? := by
  have := C68_columns_coincide rng (n := 4096) (Or.inl rfl) 0 1 2 0 (by decide) (by decide) x
  simpa using this

/-! ### Which layers get a compressor -/

theorem setupStep_length {names : List String} {s p : ℤ} {acc r : List (Option Seeds)} {m : Module × ℕ}
    (h : setupStep names s p acc m = .ok r) : r.length = acc.length := by
  unfold setupStep at h
  split at h
  · split at h
    · cases h
    · split at h
      · cases h; simp
      · cases h; rfl
  · cases h; rfl

theorem indexOf_lt {names : List String} {x : String} (h : x ∈ names) : indexOf names x < names.length := by
  unfold indexOf
  have := List.length_pos_of_mem h
  omega

theorem getElem_indexOf {names : List String} {x : String} (h : x ∈ names) :
    names[indexOf names x]? = some x := by
  have hr : x ∈ names.reverse := List.mem_reverse.2 h
  have hl : names.reverse.idxOf x < names.reverse.length := List.idxOf_lt_length_iff.2 hr
  have h1 : names.reverse[names.reverse.idxOf x]? = some x := by
    rw [List.getElem?_eq_getElem hl, List.getElem_idxOf hl]
  rw [List.getElem?_reverse (by simpa using hl)] at h1
  exact h1

/-- C102: the set-up raises `ValueError` exactly if a named module is neither a linear layer nor a layer norm,
whether or not it takes part in the forward pass; otherwise the compressor of a name that occurs in the
model is seeded by the position of its module, and is missing if the module did not run (or is a layer norm
without parameters); names that do not occur in the model have none, silently. -/
theorem C102_setup (net : List Module) (hnet : (net.map Module.name).Nodup) (names : List String) (s p : ℤ) :
    (setup net names s p = .error .valueError ↔ ∃ m ∈ net, m.name ∈ names ∧ m.kind = .other) ∧
    ((∀ m ∈ net, m.name ∈ names → m.kind ≠ .other) → ∃ r, setup net names s p = .ok r ∧
      r.length = names.length ∧
      (∀ (id : ℕ) (m : Module), net[id]? = some m → m.name ∈ names →
        r[indexOf names m.name]? = some (if m.complete then some (seedsOf s p id) else none)) ∧
      (∀ (k : ℕ) (x : String), names[k]? = some x → (x ∉ net.map Module.name ∨ k ≠ indexOf names x) → r[k]? = some none)) := by
  have key : ∀ net : List Module, (net.map Module.name).Nodup →
      (∀ m ∈ net, m.name ∈ names → m.kind ≠ .other) → ∃ r, setup net names s p = .ok r ∧
      r.length = names.length ∧
      (∀ (id : ℕ) (m : Module), net[id]? = some m → m.name ∈ names →
        r[indexOf names m.name]? = some (if m.complete then some (seedsOf s p id) else none)) ∧
      (∀ (k : ℕ) (x : String), names[k]? = some x → (x ∉ net.map Module.name ∨ k ≠ indexOf names x) → r[k]? = some none) := by
    intro net
    induction net using List.reverseRecOn with
    | nil =>
      intro _ _
      refine ⟨_, rfl, by simp, (fun id m h => by simp at h), fun k x hk _ => ?_⟩
      have := (List.getElem?_eq_some_iff.1 hk).1
      simp [this]
    | append_singleton net m ih =>
      intro hnd hno
      rw [List.map_append, List.nodup_append] at hnd
      obtain ⟨hnd1, _, hdis⟩ := hnd
      obtain ⟨r, e, hl, h1, h2⟩ := ih hnd1 fun x hx => hno x (List.mem_append_left _ hx)
      have hfresh : m.name ∉ net.map Module.name := fun hx =>
        hdis _ hx _ (by simp) rfl
      have estep : setup (net ++ [m]) names s p = setupStep names s p r (m, net.length) := by
        unfold setup at e ⊢
        rw [List.zipIdx_append, List.foldlM_append, e]
        simp [bind, Except.bind, pure, Except.pure]
        cases setupStep names s p r (m, net.length) <;> rfl
      -- the old entries of other modules are not touched
      have other : ∀ (id : ℕ) (m' : Module), net[id]? = some m' → m'.name ≠ m.name := by
        intro id m' h' e'
        exact hfresh (e' ▸ List.mem_map_of_mem (List.mem_of_getElem? h'))
      have inj : ∀ x y, x ∈ names → y ∈ names → indexOf names x = indexOf names y → x = y := by
        intro x y hx hy he
        have a := getElem_indexOf hx
        rw [he, getElem_indexOf hy] at a
        exact (Option.some.inj a).symm
      by_cases hm : m.name ∈ names
      · have hk := hno m (by simp) hm
        have pre : r[indexOf names m.name]? = some none :=
          h2 _ _ (getElem_indexOf hm) (Or.inl hfresh)
        by_cases hc : m.complete
        · refine ⟨r.set (indexOf names m.name) (some (seedsOf s p net.length)), ?_, by simp [hl], ?_, ?_⟩
          · rw [estep]; simp [setupStep, hm, hk, hc]
          · intro id m' hid hm'
            rw [List.getElem?_append] at hid
            split at hid
            · have hne : indexOf names m.name ≠ indexOf names m'.name := fun h =>
                other id m' hid (inj _ _ hm' hm h.symm)
              rw [List.getElem?_set, if_neg hne]
              exact h1 id m' hid hm'
            · rename_i hlt
              cases hd : id - net.length with
              | zero =>
                rw [hd] at hid; cases hid
                have : id = net.length := by omega
                subst this
                rw [List.getElem?_set, if_pos rfl, if_pos (by rw [hl]; exact indexOf_lt hm), if_pos hc]
              | succ k => rw [hd] at hid; cases hid
          · intro k x hk' hx
            have hk2 : x ∉ net.map Module.name ∨ k ≠ indexOf names x := by
              rcases hx with hx | hx
              · exact Or.inl fun h => hx (by rw [List.map_append]; exact List.mem_append_left _ h)
              · exact Or.inr hx
            have hne : indexOf names m.name ≠ k := by
              rintro rfl
              have hxe : m.name = x := by
                rw [getElem_indexOf hm] at hk'; exact Option.some.inj hk'
              subst hxe
              rcases hx with hx | hx
              · exact hx (by simp)
              · exact hx rfl
            rw [List.getElem?_set, if_neg hne]
            exact h2 k x hk' hk2
        · refine ⟨r, ?_, hl, ?_, ?_⟩
          · rw [estep]; simp [setupStep, hm, hk, hc]
          · intro id m' hid hm'
            rw [List.getElem?_append] at hid
            split at hid
            · exact h1 id m' hid hm'
            · cases hd : id - net.length with
              | zero =>
                rw [hd] at hid; cases hid
                rw [pre, if_neg hc]
              | succ k => rw [hd] at hid; cases hid
          · intro k x hk' hx
            apply h2 k x hk'
            rcases hx with hx | hx
            · exact Or.inl fun h => hx (by rw [List.map_append]; exact List.mem_append_left _ h)
            · exact Or.inr hx
      · refine ⟨r, ?_, hl, ?_, ?_⟩
        · rw [estep]; simp [setupStep, hm]
        · intro id m' hid hm'
          rw [List.getElem?_append] at hid
          split at hid
          · exact h1 id m' hid hm'
          · cases hd : id - net.length with
            | zero => rw [hd] at hid; cases hid; exact absurd hm' hm
            | succ k => rw [hd] at hid; cases hid
        · intro k x hk' hx
          apply h2 k x hk'
          rcases hx with hx | hx
          · exact Or.inl fun h => hx (by rw [List.map_append]; exact List.mem_append_left _ h)
          · exact Or.inr hx
  refine ⟨⟨fun he => ?_, ?_⟩, key net hnet⟩
  · by_contra hne
    obtain ⟨r, e, _⟩ := key net hnet fun m hm hn hk => hne ⟨m, hm, hn, hk⟩
    rw [e] at he; cases he
  · rintro ⟨m, hm, hn, hk⟩
    have bad : ∀ (l : List (Module × ℕ)) (acc : List (Option Seeds)), m ∈ l.map Prod.fst →
        l.foldlM (setupStep names s p) acc = .error .valueError := by
      intro l
      induction l with
      | nil => intro acc h; cases h
      | cons u l ih =>
        intro acc h
        rw [List.foldlM_cons]
        cases hs : setupStep names s p acc u with
        | error e =>
          have : e = .valueError := by
            unfold setupStep at hs
            split at hs
            · split at hs
              · cases hs; rfl
              · split at hs <;> cases hs
            · cases hs
          subst this; rfl
        | ok acc' =>
          apply ih
          rcases List.mem_cons.1 h with rfl | h
          · simp [setupStep, hn, hk] at hs
          · exact h
    unfold setup
    apply bad
    simpa using hm

/-- C102, without the model's helpers: with `k` the last position of a module's name in the list, entry `k` holds the seeds
`s + 10000 id`, `s + 10000 id + 1` and `p + 10000 id + 1` for a linear layer, or a layer norm with parameters, at position `id` of the
model that ran, and nothing if the module did not run or is a layer norm without parameters. -/
theorem C102_explicit (net : List Module) (hnet : (net.map Module.name).Nodup) (names : List String) (s p : ℤ)
    (hno : ∀ m ∈ net, m.name ∈ names → m.kind ≠ .other) {id k : ℕ} {m : Module} (hm : net[id]? = some m)
    (hk : names[k]? = some m.name) (hl : ∀ j, k < j → names[j]? ≠ some m.name) :
    ∃ r, setup net names s p = .ok r ∧
      (m.ran = true → (m.kind = .linear ∨ m.kind = .layerNorm true) →
        r[k]? = some (some ⟨s + 10000 * id, s + 10000 * id + 1, p + 10000 * id + 1⟩)) ∧
      ((m.ran = false ∨ m.kind = .layerNorm false) → r[k]? = some none) := by
  obtain ⟨r, e, -, h1, -⟩ := (C102_setup net hnet names s p).2 hno
  have h2 := h1 id m hm (List.mem_of_getElem? hk)
  rw [show indexOf names m.name = k from last_idx hk hl] at h2
  refine ⟨r, e, fun hran hkind => ?_, fun h => ?_⟩
  · rw [h2]
    rcases hkind with h | h <;> simp [Module.complete, h, hran, seedsOf]
  · rw [h2]
    rcases h with h | h
    · cases hkd : m.kind <;> simp [Module.complete, hkd, h]
    · simp [Module.complete, h]

/-- A model with an unused layer and a name that does not exist. -/
example : setup [⟨"", .other, true⟩, ⟨"fc1", .linear, true⟩, ⟨"relu", .other, true⟩, ⟨"fc2", .linear, false⟩]
    ["fc2", "typo", "fc1"] 5 7 = .ok [none, none, some ⟨10005, 10006, 10008⟩] := by
  decide +kernel

/-! ### LoGra and FactGraSS configurations -/

theorem squareRoot_ok (n k : ℤ) : squareRoot n = .ok k ↔ 0 ≤ k ∧ k * k = n := by
  unfold squareRoot
  constructor
  · intro h
    split at h
    · cases h
    · split at h
      · cases h
      · rename_i h1 h2
        cases h
        exact ⟨by positivity, by simpa using h2⟩
  · rintro ⟨h0, rfl⟩
    obtain ⟨m, rfl⟩ := Int.eq_ofNat_of_zero_le h0
    have hp : ¬ ((m : ℤ) * m < 0) := not_lt.2 (by positivity)
    have e : ((m : ℤ) * m).toNat = m * m := by
      rw [← Nat.cast_mul]; exact Int.toNat_natCast _
    rw [if_neg hp, e, Nat.sqrt_eq, if_neg (by simp)]

theorem squareRoot_error (n : ℤ) (e : Err) : squareRoot n = .error e → e = .valueError := by
  unfold squareRoot
  split
  · intro h; cases h; rfl
  · split
    · intro h; cases h; rfl
    · intro h; cases h

/-- C103: LoGra accepts exactly the perfect squares as dimension per layer and projects both factors to its
root, so a layer gets exactly the requested dimension; the user's projection type is not used. -/
theorem C103_logra (u : UserParams) :
    ((∃ r, logra u = .ok r) ↔ ∃ k : ℤ, k * k = u.perLayer) ∧
    (∀ a b, logra u = .ok (a, b) → 0 ≤ a.dim ∧ a.dim * a.dim = u.perLayer ∧ a.seed = u.seed ∧ b.seed = u.seed ∧
      a.kind = .normal ∧ b.kind = .identity ∧ a.maxBatch = u.maxBatch ∧ b.maxBatch = u.maxBatch) ∧
    (∀ k, logra u = logra { u with kind := k }) := by
  refine ⟨⟨?_, ?_⟩, ?_, fun k => rfl⟩
  · rintro ⟨r, h⟩
    unfold logra at h
    cases hs : squareRoot u.perLayer with
    | error e => rw [hs] at h; cases h
    | ok k => exact ⟨k, ((squareRoot_ok _ _).1 hs).2⟩
  · rintro ⟨k, hk⟩
    have : squareRoot u.perLayer = .ok |k| := (squareRoot_ok _ _).2 ⟨abs_nonneg k, by rw [abs_mul_abs_self]; exact hk⟩
    unfold logra; rw [this]; exact ⟨_, rfl⟩
  · intro a b h
    unfold logra at h
    cases hs : squareRoot u.perLayer with
    | error e => rw [hs] at h; cases h
    | ok k =>
      rw [hs] at h
      simp only [Except.ok.injEq, Prod.mk.injEq] at h
      obtain ⟨rfl, rfl⟩ := h
      obtain ⟨h1, h2⟩ := (squareRoot_ok _ _).1 hs
      exact ⟨h1, h2, rfl, rfl, rfl, rfl, rfl, rfl⟩

/-- C103: FactGraSS accepts exactly the dimensions whose product with the blow-up factor is a perfect square;
its configuration depends on nothing else the user passes: seed, batch size and projection type have no
effect, so runs with different seeds use the same projections. -/
theorem C103_factgrass (u : UserParams) (blowup : ℤ) (cuda : Bool) :
    ((∃ r, factgrass u blowup cuda = .ok r) ↔ ∃ k : ℤ, k * k = u.perLayer * blowup) ∧
    (∀ a b, factgrass u blowup cuda = .ok (a, b) → a.dim * a.dim = u.perLayer * blowup ∧ b.dim = u.perLayer ∧
      a.seed = 0 ∧ b.seed = 0 ∧ a.maxBatch = 64 ∧ b.maxBatch = 64 ∧ a.kind = .randomMask ∧
      (cuda = true → b.kind = .sjlt) ∧ (cuda = false → b.kind = .normal)) ∧
    (∀ u' : UserParams, u'.perLayer = u.perLayer → factgrass u' blowup cuda = factgrass u blowup cuda) := by
  refine ⟨⟨?_, ?_⟩, ?_, ?_⟩
  · rintro ⟨r, h⟩
    unfold factgrass at h
    cases hs : squareRoot (u.perLayer * blowup) with
    | error e => rw [hs] at h; cases h
    | ok k => exact ⟨k, ((squareRoot_ok _ _).1 hs).2⟩
  · rintro ⟨k, hk⟩
    have : squareRoot (u.perLayer * blowup) = .ok |k| :=
      (squareRoot_ok _ _).2 ⟨abs_nonneg k, by rw [abs_mul_abs_self]; exact hk⟩
    unfold factgrass; rw [this]; exact ⟨_, rfl⟩
  · intro a b h
    unfold factgrass at h
    cases hs : squareRoot (u.perLayer * blowup) with
    | error e => rw [hs] at h; cases h
    | ok k =>
      rw [hs] at h
      simp only [Except.ok.injEq, Prod.mk.injEq] at h
      obtain ⟨rfl, rfl⟩ := h
      refine ⟨((squareRoot_ok _ _).1 hs).2, rfl, rfl, rfl, rfl, rfl, rfl, fun hc => ?_, fun hc => ?_⟩ <;>
        simp [hc]
  · intro u' h
    unfold factgrass; rw [h]

/-- C103: a dimension that is not accepted raises `ValueError`, in both. -/
theorem C103_rejected (u : UserParams) (blowup : ℤ) (cuda : Bool) (e : Err) :
    (logra u = .error e → e = .valueError) ∧ (factgrass u blowup cuda = .error e → e = .valueError) := by
  constructor
  · intro h
    unfold logra at h
    cases hs : squareRoot u.perLayer with
    | error e' => rw [hs] at h; cases h; exact squareRoot_error _ _ hs
    | ok k => rw [hs] at h; cases h
  · intro h
    unfold factgrass at h
    cases hs : squareRoot (u.perLayer * blowup) with
    | error e' => rw [hs] at h; cases h; exact squareRoot_error _ _ hs
    | ok k => rw [hs] at h; cases h

/-- The defaults: 4096 per layer and blow-up 4. -/
example : (∃ k : ℤ, k * k = 4096 * 4) ∧ ¬ ∃ k : ℤ, k * k = 4096 * 2 := by
  refine ⟨⟨128, by norm_num⟩, ?_⟩
  rintro ⟨k, hk⟩
  have h : squareRoot (4096 * 2) = .ok |k| := (squareRoot_ok _ _).2 ⟨abs_nonneg k, by rw [abs_mul_abs_self]; exact hk⟩
  have : squareRoot (4096 * 2) = .error .valueError := by decide +kernel
  rw [this] at h; cases h

end Verif.Compress
