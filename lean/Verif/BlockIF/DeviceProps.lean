import Verif.BlockIF.DeviceModel
import Verif.BlockIF.OffloadProps

/-!
# Where the stores keep their tensors (C163)

Specification: forget the devices (`DMemOp.forget`), and the two managers are the store of C143.
-/

namespace Verif.BlockIF

open Verif

variable {K P : Type} [Zero K]

/-- The call without devices. -/
def DMemOp.forget : DMemOp K P → MemOp K P
  | .store k i gs => .store k i (gs.map (Option.map Placed.val))
  | .storePre i p => .storePre i (p.map Placed.val)
  | .clear => .clear

/-- A dictionary without devices. -/
def forgetDict {α : Type} (c : List (ℕ × Placed α)) : List (ℕ × α) := c.map fun p => (p.1, p.2.val)

/-- The state without devices. -/
def DMem.forget (m : DMem K P) : Mem K P :=
  ⟨m.layers, m.dims, forgetDict m.train, forgetDict m.test, forgetDict m.ifvp,
    m.pre.map (Option.map Placed.val)⟩

/-- All tensors a manager holds in its dictionaries. -/
def DMem.held (m : DMem K P) : List Dev :=
  (m.train ++ m.test ++ m.ifvp).map fun p => p.2.dev

/-- The devices of the preconditioners it holds. -/
def DMem.heldPre (m : DMem K P) : List Dev := m.pre.filterMap (Option.map Placed.dev)

/-- The preconditioner last stored for a layer, with its device; none after `clear_cache`. -/
def lastPlaced (i : ℕ) (ops : List (DMemOp K P)) : Option (Placed P) :=
  ops.foldl (fun acc op => match op with
    | .store _ _ _ => acc
    | .storePre i' p => if i' = i then p else acc
    | .clear => none) none

/-! ### Helper lemmas -/

theorem toCpu_val {α : Type} (t : Placed α) : t.toCpu.val = t.val := by
  unfold Placed.toCpu
  split_ifs <;> rfl

theorem toCpu_dev {α : Type} (t : Placed α) : t.toCpu.dev = .cpu := by
  unfold Placed.toCpu
  split_ifs with h
  · rfl
  · simpa using h

omit [Zero K] in
theorem source_val (s : Manager) (device : Dev) (g : Placed (Grad K)) : (s.source device g).val = g.val := by
  cases s
  · rfl
  · exact toCpu_val g

theorem forgetDict_set {α : Type} (i : ℕ) (t : Placed α) (c : List (ℕ × Placed α)) :
    forgetDict (PyDict.set i t c) = PyDict.set i t.val (forgetDict c) := by
  induction c with
  | nil => rfl
  | cons p c ih =>
    obtain ⟨a, b⟩ := p
    simp only [forgetDict, PyDict.set, List.map_cons] at ih ⊢
    split_ifs
    · rfl
    · simp [ih]

theorem forgetDict_get {α : Type} (c : List (ℕ × Placed α)) (i : ℕ) :
    PyDict.get? (forgetDict c) i = (PyDict.get? c i).map Placed.val := by
  induction c with
  | nil => rfl
  | cons p c ih =>
    obtain ⟨a, b⟩ := p
    simp only [forgetDict, PyDict.get?, List.map_cons] at ih ⊢
    split_ifs
    · rfl
    · exact ih

theorem forgetDict_keys {α : Type} (c : List (ℕ × Placed α)) :
    PyDict.keys (forgetDict c) = PyDict.keys c := by
  simp [PyDict.keys, forgetDict, Function.comp_def]

theorem forgetDict_sorted {α : Type} (c : List (ℕ × Placed α)) :
    sortedItems (forgetDict c) = forgetDict (sortedItems c) := by
  unfold sortedItems
  rw [forgetDict_keys]
  unfold forgetDict
  rw [List.map_filterMap]
  congr 1
  funext k
  have := forgetDict_get c k
  unfold forgetDict at this
  rw [this]
  cases PyDict.get? c k <;> rfl

omit [Zero K] in
theorem forget_cache (m : DMem K P) (k : Kind) : m.forget.cache k = forgetDict (m.cache k) := by
  cases k <;> rfl

omit [Zero K] in
theorem forget_put (m : DMem K P) (k : Kind) (i : ℕ) (t : Placed (Grad K)) :
    (m.put k i t).forget = m.forget.put k i t.val := by
  cases k <;> simp [DMem.put, DMem.forget, Mem.put, forgetDict_set]

theorem concat_forget (s : Manager) (device : Dev) (dims : Option (List ℕ))
    (gs : List (Option (Placed (Grad K)))) :
    DMem.concat s device dims gs = (BlockIF.concat dims (gs.map (Option.map Placed.val))).map
      fun r => (r.1, ⟨s.home device, r.2⟩) := by
  unfold DMem.concat
  congr 2
  apply List.map_congr_left
  intro g _
  cases g
  · rfl
  · simp [source_val]

theorem step_forget (s : Manager) (m : DMem K P) (op : DMemOp K P) :
    (m.step s op).forget = m.forget.step op.forget := by
  cases op with
  | store k i gs =>
    simp only [DMem.step, DMemOp.forget, Mem.step, DMem.store, Mem.store, concat_forget]
    change _ = (match ensureDims m.dims (gs.map (Option.map Placed.val)) with
      | .error x => (m.forget, .error x)
      | .ok d =>
        match BlockIF.concat (some d) (gs.map (Option.map Placed.val)) with
        | .error x => ({ m.forget with dims := some d }, .error x)
        | .ok r => (({ m.forget with dims := some d } : Mem K P).put k i r.2, .ok ()) :
          Mem K P × Except Err Unit).1
    rcases ensureDims m.dims (gs.map (Option.map Placed.val)) with x | d
    · rfl
    · simp only
      rcases BlockIF.concat (some d) (gs.map (Option.map Placed.val)) with x | r
      · rfl
      · simp only [Except.map]
        rw [forget_put]
        rfl
  | storePre i p =>
    simp only [DMem.step, DMemOp.forget, Mem.step, DMem.storePre, Mem.storePre]
    have hl : m.forget.pre.length = m.pre.length := by simp [DMem.forget]
    rw [hl]
    split_ifs with hi
    · cases s
      · simp [DMem.forget, List.map_set]
      · simp only [DMem.forget, List.map_set, Option.map_map]
        have : (Placed.val ∘ Placed.toCpu : Placed P → P) = Placed.val := funext toCpu_val
        rw [this]
    · rfl
  | clear =>
    simp [DMem.step, DMemOp.forget, Mem.step, DMem.clear, Mem.clear, DMem.forget, forgetDict]

theorem run_forget (s : Manager) (device : Dev) (layers : ℕ) (ops : List (DMemOp K P)) :
    (DMem.run s device layers ops).forget = Mem.run K P layers (ops.map DMemOp.forget) := by
  unfold DMem.run Mem.run
  rw [List.foldl_map]
  suffices H : ∀ m : DMem K P, (ops.foldl (DMem.step s) m).forget =
      ops.foldl (fun a b => Mem.step a b.forget) m.forget by
    rw [H]
    simp [DMem.new, DMem.forget, Mem.new, forgetDict]
  induction ops with
  | nil => intro m; rfl
  | cons op ops ih =>
    intro m
    rw [List.foldl_cons, List.foldl_cons, ih, step_forget]

theorem mem_set {α : Type} {i : ℕ} {t : α} {c : List (ℕ × α)} {p : ℕ × α}
    (h : p ∈ PyDict.set i t c) : p.2 = t ∨ p ∈ c := by
  induction c with
  | nil =>
    simp only [PyDict.set, List.mem_singleton] at h
    left; rw [h]
  | cons q c ih =>
    obtain ⟨a, b⟩ := q
    simp only [PyDict.set] at h
    split_ifs at h
    · rcases List.mem_cons.1 h with rfl | h
      · exact Or.inl rfl
      · exact Or.inr (List.mem_cons_of_mem _ h)
    · rcases List.mem_cons.1 h with rfl | h
      · exact Or.inr (by simp)
      · rcases ih h with h | h
        · exact Or.inl h
        · exact Or.inr (List.mem_cons_of_mem _ h)

omit [Zero K] in
theorem lastPlaced_append (i : ℕ) (ops : List (DMemOp K P)) (op : DMemOp K P) :
    lastPlaced i (ops ++ [op]) = match op with
      | .store _ _ _ => lastPlaced i ops
      | .storePre i' p => if i' = i then p else lastPlaced i ops
      | .clear => none := by
  unfold lastPlaced
  rw [List.foldl_append]
  cases op <;> rfl

/-- What a manager keeps of a preconditioner. -/
def keepPre (s : Manager) (p : Option (Placed P)) : Option (Placed P) :=
  match s with
  | .memory => p
  | .cpu => p.map Placed.toCpu

/-- Invariant of a run: the batches are where the manager keeps them. -/
structure AtHome (s : Manager) (device : Dev) (layers : ℕ) (ops : List (DMemOp K P)) (m : DMem K P) :
    Prop where
  hdev : m.device = device
  batches : ∀ k, ∀ p ∈ m.cache k, p.2.dev = s.home device
  len : m.pre.length = layers
  hlay : m.layers = layers
  pre : ∀ i, i < layers → m.pre[i]? = some (keepPre s (lastPlaced i ops))

theorem atHome_run (s : Manager) (device : Dev) (layers : ℕ) (ops : List (DMemOp K P)) :
    AtHome s device layers ops (DMem.run s device layers ops) := by
  induction ops using List.reverseRecOn with
  | nil =>
    refine ⟨rfl, ?_, by simp [DMem.run, DMem.new], rfl, ?_⟩
    · intro k p hp
      cases k <;> cases hp
    · intro i hi
      have : (DMem.new K P device layers).pre[i]? = some none := by
        simp [DMem.new, hi]
      cases s <;> exact this
  | append_singleton ops op ih =>
    have hrun : DMem.run s device layers (ops ++ [op]) = (DMem.run s device layers ops).step s op := by
      simp [DMem.run]
    rw [hrun]
    set m := DMem.run s device layers ops with hm
    have hlast := fun i => lastPlaced_append i ops op
    cases op with
    | store k i gs =>
      have hcase : ∃ d : Option (List ℕ), (m.step s (.store k i gs) = { m with dims := d }) ∨
          ∃ v, m.step s (.store k i gs) =
            ({ m with dims := d } : DMem K P).put k i ⟨s.home device, v⟩ := by
        simp only [DMem.step, DMem.store]
        rcases ensureDims m.dims (gs.map (Option.map Placed.val)) with x | d
        · exact ⟨m.dims, Or.inl rfl⟩
        · simp only [concat_forget]
          rcases BlockIF.concat (some d) (gs.map (Option.map Placed.val)) with x | r
          · exact ⟨some d, Or.inl rfl⟩
          · exact ⟨some d, Or.inr ⟨r.2, by rw [ih.hdev]; rfl⟩⟩
      obtain ⟨d, h | ⟨v, h⟩⟩ := hcase
      · rw [h]
        refine ⟨ih.hdev, fun k => ?_, ih.len, ih.hlay, fun i hi => ?_⟩
        · have := ih.batches k
          cases k <;> exact this
        · rw [hlast]
          exact ih.pre i hi
      · rw [h]
        refine ⟨?_, fun k' p hp => ?_, ?_, ?_, fun i hi => ?_⟩
        · cases k <;> exact ih.hdev
        · have hb := ih.batches k' p
          have : p.2 = ⟨s.home device, v⟩ ∨ p ∈ m.cache k' := by
            cases k <;> cases k' <;>
              first | exact mem_set hp | exact Or.inr hp
          rcases this with h | h
          · rw [h]
          · exact hb h
        · cases k <;> exact ih.len
        · cases k <;> exact ih.hlay
        · rw [hlast]
          have := ih.pre i hi
          cases k <;> exact this
    | storePre i p =>
      simp only [DMem.step, DMem.storePre]
      split_ifs with hi
      · cases s with
        | memory =>
          refine ⟨ih.hdev, fun k => ?_, by simpa using ih.len, ih.hlay, fun j hj => ?_⟩
          · have := ih.batches k
            cases k <;> exact this
          · rw [hlast]
            simp only
            rw [List.getElem?_set]
            split_ifs with h1
            · rfl
            · exact ih.pre j hj
        | cpu =>
          refine ⟨ih.hdev, fun k => ?_, by simpa using ih.len, ih.hlay, fun j hj => ?_⟩
          · have := ih.batches k
            cases k <;> exact this
          · rw [hlast]
            simp only
            rw [List.getElem?_set]
            split_ifs with h1
            · rfl
            · exact ih.pre j hj
      · refine ⟨ih.hdev, ih.batches, ih.len, ih.hlay, fun j hj => ?_⟩
        rw [hlast]
        have hij : ¬ i = j := by
          have := ih.len
          omega
        simp only [if_neg hij]
        exact ih.pre j hj
    | clear =>
      simp only [DMem.step]
      refine ⟨ih.hdev, fun k p hp => ?_, by simp [DMem.clear, ih.hlay], ih.hlay, fun j hj => ?_⟩
      · cases k <;> cases hp
      · rw [hlast]
        have : m.clear.pre[j]? = some none := by
          simp [DMem.clear, ih.hlay, hj]
        cases s <;> exact this

/-! ### C163 -/

/-- **C163 (values).** Whatever is stored from whatever devices, batches retrieved, preconditioners
and the availability of data have the same values under both managers, on every compute device: those
of the store without devices (C143). -/
theorem C163_values (s : Manager) (device : Dev) (layers : ℕ) (ops : List (DMemOp K P)) :
    (∀ k i, ((DMem.run s device layers ops).retrieve s k i).map (List.map Placed.val) =
      (Mem.run K P layers (ops.map DMemOp.forget)).retrieve k i) ∧
    (∀ i, ((DMem.run s device layers ops).retrievePre s i).map Placed.val =
      (Mem.run K P layers (ops.map DMemOp.forget)).retrievePre i) := by
  rw [← run_forget s device layers ops]
  set m := DMem.run s device layers ops
  constructor
  · intro k i
    unfold DMem.retrieve Mem.retrieve
    rw [forget_cache, forgetDict_get]
    rcases PyDict.get? (m.cache k) i with _ | t
    · simp only [Option.map_none]
      change _ = (match m.dims with
        | none => Except.ok (List.replicate m.layers [])
        | some d => .ok (d.map fun _ => []) : Except Err (List (Grad K)))
      rcases m.dims with _ | d
      · simp [Except.map]
      · simp [Except.map]
    · simp only [Option.map_some]
      unfold DMem.split
      change _ = BlockIF.split m.dims t.val
      rcases BlockIF.split m.dims t.val with e | ts
      · rfl
      · simp only [Except.map, List.map_map]
        congr 1
        conv_rhs => rw [← List.map_id ts]
        apply List.map_congr_left
        intro g _
        cases s
        · rfl
        · simp only [Function.comp]
          split_ifs <;> rfl
  · intro i
    unfold DMem.retrievePre Mem.retrievePre
    have hl : m.forget.pre.length = m.pre.length := by simp [DMem.forget]
    rw [hl]
    split_ifs with h
    · rfl
    · have e : (m.forget.pre[i]?).join = ((m.pre[i]?).join).map Placed.val := by
        simp only [DMem.forget, List.getElem?_map]
        rcases m.pre[i]? with _ | _ | _ <;> rfl
      rw [e]
      cases s
      · rfl
      · rcases (m.pre[i]?).join with _ | p <;> rfl

/-- **C163 (storage).** With "cpu" every stored tensor is on the CPU, whatever the devices of the
tensors given; with "none" every stored batch is on the compute device, while a preconditioner stays
where it was when it was given. -/
theorem C163_storage (device : Dev) (layers : ℕ) (ops : List (DMemOp K P)) :
    (∀ x ∈ (DMem.run .cpu device layers ops).held ++ (DMem.run .cpu device layers ops).heldPre,
      x = .cpu) ∧
    (∀ x ∈ (DMem.run .memory device layers ops).held, x = device) ∧
    (∀ i, (DMem.run .memory device layers ops).retrievePre .memory i =
      if i < layers then lastPlaced i ops else none) := by
  have hheld : ∀ s, ∀ x ∈ (DMem.run s device layers ops).held, x = Manager.home s device := by
    intro s x hx
    have I := atHome_run s device layers ops
    unfold DMem.held at hx
    obtain ⟨p, hp, rfl⟩ := List.mem_map.1 hx
    rcases List.mem_append.1 hp with hp | hp
    · rcases List.mem_append.1 hp with hp | hp
      · exact I.batches .train p hp
      · exact I.batches .test p hp
    · exact I.batches .ifvp p hp
  refine ⟨?_, hheld .memory, ?_⟩
  · intro x hx
    rcases List.mem_append.1 hx with hx | hx
    · exact hheld .cpu x hx
    · have I := atHome_run .cpu device layers ops
      unfold DMem.heldPre at hx
      obtain ⟨p, hp, hpx⟩ := List.mem_filterMap.1 hx
      obtain ⟨i, hi, hpi⟩ := List.mem_iff_getElem.1 hp
      have h1 := I.pre i (by rw [← I.len]; exact hi)
      rw [List.getElem?_eq_getElem hi, hpi] at h1
      have h2 : p = (lastPlaced i ops).map Placed.toCpu := Option.some.inj h1
      rw [h2] at hpx
      rcases hl : lastPlaced i ops with _ | q
      · rw [hl] at hpx; cases hpx
      · rw [hl] at hpx
        have : q.toCpu.dev = x := by simpa using hpx
        rw [← this, toCpu_dev]
  · intro i
    have I := atHome_run .memory device layers ops
    unfold DMem.retrievePre
    rw [I.len]
    by_cases h : i < layers
    · rw [if_neg (by omega), if_pos h]
      simp only
      rw [I.pre i h]
      rfl
    · rw [if_pos (by omega), if_neg h]

/-- **C163 (retrieval).** Every batch retrieved is on the compute device under both managers, whether
it was stored or not; so is every preconditioner retrieved with "cpu". -/
theorem C163_retrieved (s : Manager) (device : Dev) (layers : ℕ) (ops : List (DMemOp K P)) :
    (∀ k i ts, (DMem.run s device layers ops).retrieve s k i = .ok ts → ∀ t ∈ ts, t.dev = device) ∧
    (∀ i p, (DMem.run .cpu device layers ops).retrievePre .cpu i = some p → p.dev = device) := by
  constructor
  · intro k i ts h t ht
    have I := atHome_run s device layers ops
    unfold DMem.retrieve at h
    rcases hg : PyDict.get? ((DMem.run s device layers ops).cache k) i with _ | t0
    · rw [hg] at h
      simp only at h
      rcases hd : (DMem.run s device layers ops).dims with _ | d
      · rw [hd] at h
        cases h
        rw [List.eq_of_mem_replicate ht]
        exact I.hdev
      · rw [hd] at h
        cases h
        obtain ⟨x, -, rfl⟩ := List.mem_map.1 ht
        exact I.hdev
    · rw [hg] at h
      simp only [DMem.split] at h
      have h0 : t0.dev = s.home device := I.batches k (i, t0) (PyDict.mem_of_get? hg)
      rcases hsp : BlockIF.split (DMem.run s device layers ops).dims t0.val with e | gs
      · rw [hsp] at h
        cases h
      · rw [hsp] at h
        simp only [Except.map] at h
        cases h
        obtain ⟨g, -, rfl⟩ := List.mem_map.1 ht
        cases s
        · exact h0
        · simp only
          rw [I.hdev]
          split_ifs with hc
          · rfl
          · simp only [ne_eq, not_not] at hc
            rw [hc]
            exact h0
  · intro i p h
    have I := atHome_run .cpu device layers ops
    unfold DMem.retrievePre at h
    split_ifs at h
    simp only at h
    obtain ⟨q, -, rfl⟩ := Option.map_eq_some_iff.1 h
    exact I.hdev

/-- **C163 (loaders).** Iterating a loader never mixes devices: every item has the values of the store
without devices and is on the CPU with "cpu", on the compute device with "none"; `move_to_device`
brings it to the compute device with the same values. -/
theorem C163_loaders (s : Manager) (device : Dev) (layers : ℕ) (ops : List (DMemOp K P))
    (dataType : String) (isTest : Bool) {g : ℕ} (hg : 0 < g) (range : Option (ℤ × ℤ)) :
    (DMem.run s device layers ops).loader dataType isTest g range =
      ((Mem.run K P layers (ops.map DMemOp.forget)).loader dataType isTest g range).map
        (List.map fun c => .ok (⟨if s = .cpu then .cpu else device, c.1⟩, c.2)) ∧
    ∀ t : Placed (Grad K), ((DMem.run s device layers ops).moveTo t).dev = device ∧
      ((DMem.run s device layers ops).moveTo t).val = t.val := by
  have I := atHome_run s device layers ops
  constructor
  · rw [← run_forget s device layers ops]
    set m := DMem.run s device layers ops with hm
    have hhome : (if s = .cpu then Dev.cpu else device) = s.home device := by
      cases s <;> rfl
    have key : ∀ c : List (ℕ × Placed (Grad K)), (∀ p ∈ c, p.2.dev = s.home device) →
        (Verif.batches g ((sortedItems c).filter fun q => inRange range q.1)).map collateD =
        ((Verif.batches g ((sortedItems (forgetDict c)).filter fun q => inRange range q.1)).map
          collate).map (fun c => .ok (⟨s.home device, c.1⟩, c.2)) := by
      intro c hc
      have hsub : ∀ p ∈ (sortedItems c).filter (fun q => inRange range q.1), p.2.dev = s.home device := by
        intro p hp
        have hp' := (List.mem_filter.1 hp).1
        unfold sortedItems at hp'
        obtain ⟨k, -, hk⟩ := List.mem_filterMap.1 hp'
        obtain ⟨v, hv, rfl⟩ := Option.map_eq_some_iff.1 hk
        exact hc (k, v) (PyDict.mem_of_get? hv)
      rw [forgetDict_sorted]
      have hfil : (forgetDict (sortedItems c)).filter (fun q => inRange range q.1) =
          forgetDict ((sortedItems c).filter fun q => inRange range q.1) := by
        unfold forgetDict
        rw [List.filter_map]
        rfl
      rw [hfil]
      set l := (sortedItems c).filter fun q => inRange range q.1 with hl
      have hbat : Verif.batches g (forgetDict l) = (Verif.batches g l).map forgetDict := by
        unfold Verif.batches
        simp only [forgetDict, List.length_map, List.map_map]
        apply List.map_congr_left
        intro k _
        simp [List.map_drop, List.map_take, batchAt, forgetDict]
      rw [hbat, List.map_map, List.map_map]
      apply List.map_congr_left
      intro items hi
      have hne : items ≠ [] := by
        intro h0
        subst h0
        unfold Verif.batches at hi
        obtain ⟨k, hk, hk'⟩ := List.mem_map.1 hi
        rw [List.mem_range] at hk
        have hlen := congrArg List.length hk'
        rw [length_batchAt, List.length_nil] at hlen
        unfold numBatches at hk
        have h1 : k * g + g ≤ l.length + g - 1 := by
          have := Nat.div_mul_le_self (l.length + g - 1) g
          have h2 : (k + 1) * g ≤ (l.length + g - 1) / g * g := Nat.mul_le_mul_right _ hk
          have h3 : (k + 1) * g = k * g + g := by ring
          omega
        rw [min_def] at hlen
        split_ifs at hlen <;> omega
      have hmem : ∀ p ∈ items, p.2.dev = s.home device := by
        intro p hp
        apply hsub
        rw [← flatten_batches g hg l]
        exact List.mem_flatten.2 ⟨items, hi, hp⟩
      obtain ⟨p, ps, rfl⟩ := List.exists_cons_of_ne_nil hne
      have hcat : catDev ((p :: ps).map fun p => p.2.dev) = .ok (s.home device) := by
        simp only [List.map_cons, catDev]
        rw [if_pos, hmem p (by simp)]
        rw [List.all_map, List.all_eq_true]
        intro q hq
        simp [hmem q (by simp [hq]), hmem p (by simp)]
      simp only [Function.comp, collateD, hcat, Except.map]
      rfl
    unfold DMem.loader Mem.loader DMem.select Mem.select
    rw [hhome]
    split_ifs with h1 h2 h3
    · simp only [Option.map_some]
      rw [key m.test (fun p hp => I.batches .test p hp)]
      rfl
    · simp only [Option.map_some]
      rw [key m.train (fun p hp => I.batches .train p hp)]
      rfl
    · simp only [Option.map_some]
      rw [key m.ifvp (fun p hp => I.batches .ifvp p hp)]
      rfl
    · rfl
  · intro t
    unfold DMem.moveTo
    rw [I.hdev]
    split_ifs with h
    · exact ⟨rfl, rfl⟩
    · exact ⟨by simpa using h, rfl⟩

/-- **C163 (creation).** A manager is created exactly for "none", "cpu", and "disk" with a directory;
everything else raises `ValueError`. -/
theorem C163_creation (offload : String) (dir : Option String) :
    createManager offload dir =
      if offload = "none" then .ok (.store .memory)
      else if offload = "cpu" then .ok (.store .cpu)
      else if offload = "disk" ∧ dir ≠ none then .ok (.disk (dir.getD ""))
      else .error .valueError := by
  unfold createManager
  cases dir <;> split_ifs <;> simp_all

/-! ### A concrete case -/

/-- Gradients and a preconditioner from two GPUs, computing on the first. -/
def exPlaced : List (DMemOp ℤ ℕ) :=
  [.store .train 0 [some ⟨.gpu 1, [[1, 2]]⟩], .storePre 0 (some ⟨.gpu 1, 5⟩)]

example : (DMem.run .cpu (.gpu 0) 1 exPlaced).held = [.cpu] ∧
    (DMem.run .cpu (.gpu 0) 1 exPlaced).heldPre = [.cpu] ∧
    (DMem.run .memory (.gpu 0) 1 exPlaced).held = [.gpu 0] ∧
    (DMem.run .memory (.gpu 0) 1 exPlaced).heldPre = [.gpu 1] := ⟨rfl, rfl, rfl, rfl⟩

end Verif.BlockIF
