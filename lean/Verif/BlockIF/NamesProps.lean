import Verif.BlockIF.ConcatProps
import Verif.BlockIF.NamesModel
import Verif.Compress.Props
import Verif.Hook.PassProps

/-!
# Which layer names can be cached (property C170)
-/

namespace Verif.BlockIF

open Verif Verif.Compress

variable {K X Y : Type} [Zero K]

/-! ### Specification -/

/-- Module `i` of the model has the name `x`. -/
def NameAt (net : List Module) (i : ℕ) (x : String) (m : Module) : Prop := net[i]? = some m ∧ m.name = x

/-- Module `i` takes part in the backward pass of a batch. -/
def Visits (b : Hook.Batch X Y) (i : ℕ) : Prop := ∃ y, (i, y) ∈ b.bw

/-- The name belongs to a linear layer that the backward passes reach. -/
def Reached (net : List Module) (bs : List (Hook.Batch X Y)) (x : String) : Prop :=
  ∃ i m, NameAt net i x m ∧ m.kind = .linear ∧ ∃ b ∈ bs, Visits b i

/-- No named linear layer is visited twice by the backward pass of the batch. -/
def Once (net : List Module) (names : List String) (b : Hook.Batch X Y) : Prop :=
  ∀ i m, net[i]? = some m → m.name ∈ names → m.kind = .linear → b.bw.countP (fun u => u.1 == i) ≤ 1

/-! ### Lemmas -/

theorem slot_some {net : List Module} {names : List String} {i k : ℕ} :
    slot net names i = some k ↔ ∃ m, net[i]? = some m ∧ m.name ∈ names ∧ m.kind = .linear ∧ indexOf names m.name = k := by
  unfold slot
  cases h : net[i]? with
  | none => simp
  | some m =>
    simp only [Option.some.injEq, exists_eq_left']
    split_ifs with h1
    · simp [h1]
    · constructor
      · intro h2; cases h2
      · rintro ⟨h2, h3, -⟩
        exact absurd ⟨h2, h3⟩ h1

theorem indexOf_spec {names : List String} {x : String} (h : x ∈ names) :
    names[indexOf names x]? = some x := by
  unfold indexOf
  have hx : x ∈ names.reverse := List.mem_reverse.2 h
  have h1 : names.reverse.idxOf x < names.reverse.length := List.idxOf_lt_length_iff.2 hx
  have h2 : names.reverse[names.reverse.idxOf x]? = some x := by
    rw [List.getElem?_eq_getElem h1, List.getElem_idxOf h1]
  rwa [List.getElem?_reverse (by simpa using h1)] at h2

theorem slot_inj {net : List Module} (hnet : (net.map Module.name).Nodup) {names : List String} {i j k : ℕ}
    (hi : slot net names i = some k) (hj : slot net names j = some k) : i = j := by
  obtain ⟨m, h1, h2, -, h3⟩ := slot_some.1 hi
  obtain ⟨m', h1', h2', -, h3'⟩ := slot_some.1 hj
  have e : m.name = m'.name := by
    have a := indexOf_spec h2
    have b := indexOf_spec h2'
    rw [h3] at a
    rw [h3', a] at b
    exact Option.some.inj b
  obtain ⟨hl, e1⟩ := List.getElem?_eq_some_iff.1 h1
  obtain ⟨hl', e2⟩ := List.getElem?_eq_some_iff.1 h1'
  have hh : (net.map Module.name)[i]'(by simpa using hl) = (net.map Module.name)[j]'(by simpa using hl') := by
    rw [List.getElem_map, List.getElem_map, e1, e2, e]
  exact (List.Nodup.getElem_inj_iff hnet).1 hh

theorem find_hooked {Z : Type} {net : List Module} {names : List String} {i k : ℕ} (hi : slot net names i = some k)
    (hinj : ∀ j, slot net names j = some k → j = i) (l : List (ℕ × Z)) :
    ((l.filterMap (toSlot net names)).find? fun u => u.1 == k).map Prod.snd = (l.find? fun u => u.1 == i).map Prod.snd := by
  induction l with
  | nil => rfl
  | cons u l ih =>
    by_cases hu : u.1 = i
    · have : toSlot net names u = some (k, u.2) := by unfold toSlot; rw [hu, hi]; rfl
      rw [List.filterMap_cons_some this]
      simp [hu]
    · rw [List.find?_cons_of_neg (by simpa using hu), ← ih]
      cases hs : slot net names u.1 with
      | none =>
        rw [List.filterMap_cons_none (by unfold toSlot; rw [hs]; rfl)]
      | some k' =>
        have : toSlot net names u = some (k', u.2) := by unfold toSlot; rw [hs]; rfl
        rw [List.filterMap_cons_some this, List.find?_cons_of_neg]
        intro e
        have e' : k' = k := by simpa using e
        exact hu (hinj _ (e' ▸ hs))

theorem mem_hooked {Z : Type} {net : List Module} {names : List String} {l : List (ℕ × Z)} {k : ℕ} :
    k ∈ (l.filterMap (toSlot net names)).map Prod.fst ↔ ∃ i ∈ l.map Prod.fst, slot net names i = some k := by
  simp only [List.mem_map, List.mem_filterMap, toSlot, Option.map_eq_some_iff]
  constructor
  · rintro ⟨a, ⟨u, hu, k', hk, rfl⟩, rfl⟩
    exact ⟨u.1, ⟨u, hu, rfl⟩, hk⟩
  · rintro ⟨i, ⟨u, hu, rfl⟩, hk⟩
    exact ⟨(k, u.2), ⟨u, hu, k, hk, rfl⟩, rfl⟩

theorem nodup_hooked {Z : Type} {net : List Module} (hnet : (net.map Module.name).Nodup) {names : List String} (l : List (ℕ × Z)) :
    ((l.filterMap (toSlot net names)).map Prod.fst).Nodup ↔
      ∀ i m, net[i]? = some m → m.name ∈ names → m.kind = .linear → l.countP (fun u => u.1 == i) ≤ 1 := by
  induction l with
  | nil => simp
  | cons u l ih =>
    cases hs : slot net names u.1 with
    | none =>
      rw [List.filterMap_cons_none (by unfold toSlot; rw [hs]; rfl), ih]
      have : ∀ i m, net[i]? = some m → m.name ∈ names → m.kind = .linear → ¬ u.1 = i := by
        rintro i m h1 h2 h3 rfl
        rw [slot_some.2 ⟨m, h1, h2, h3, rfl⟩] at hs
        cases hs
      constructor
      · intro h i m h1 h2 h3
        rw [List.countP_cons_of_neg (by simpa using this i m h1 h2 h3)]
        exact h i m h1 h2 h3
      · intro h i m h1 h2 h3
        have := h i m h1 h2 h3
        rw [List.countP_cons] at this
        omega
    | some k =>
      have e : toSlot net names u = some (k, u.2) := by unfold toSlot; rw [hs]; rfl
      rw [List.filterMap_cons_some e, List.map_cons, List.nodup_cons, ih, mem_hooked]
      constructor
      · rintro ⟨hno, h⟩ i m h1 h2 h3
        by_cases hu : u.1 = i
        · rw [List.countP_cons_of_pos (by simpa using hu)]
          have : l.countP (fun u => u.1 == i) = 0 := by
            rw [List.countP_eq_zero]
            intro v hv hvi
            refine hno ⟨v.1, List.mem_map.2 ⟨v, hv, rfl⟩, ?_⟩
            rw [show v.1 = u.1 by rw [hu]; simpa using hvi, hs]
          omega
        · rw [List.countP_cons_of_neg (by simpa using hu)]
          exact h i m h1 h2 h3
      · intro h
        refine ⟨?_, fun i m h1 h2 h3 => ?_⟩
        · rintro ⟨i, hi, hk⟩
          have ei := slot_inj hnet hk hs
          obtain ⟨m, h1, h2, h3, -⟩ := slot_some.1 hs
          have := h u.1 m h1 h2 h3
          rw [List.countP_cons_of_pos (by simp)] at this
          have h0 : l.countP (fun v => v.1 == u.1) = 0 := by omega
          rw [List.countP_eq_zero] at h0
          obtain ⟨v, hv, e⟩ := List.mem_map.1 hi
          exact h0 v hv (by simp [e, ei])
        · have := h i m h1 h2 h3
          rw [List.countP_cons] at this
          omega

/-! ### The loop, seen from the hook manager -/

omit [Zero K] in
theorem rect_ne {B d : ℕ} {g : Grad K} (hB : 0 < B) (hd : 0 < d) (h : Rect B d g) : g.flatten ≠ [] := by
  rcases g with _ | ⟨r, g⟩
  · have := h.1; simp at this; omega
  · have := h.2 r List.mem_cons_self
    intro h0
    rw [List.flatten_cons, List.append_eq_nil_iff] at h0
    rw [h0.1] at this
    simp at this; omega

omit [Zero K] in
theorem own_some {comp : ℕ → Option (X → Y → Grad K)} {b : Hook.Batch X Y} (hc : b.Causal)
    (hcomp : ∀ l ∈ b.bw.map Prod.fst, (comp l).isSome) (l : ℕ) :
    (∃ g, Hook.own comp b l = some g) ↔ l ∈ b.bw.map Prod.fst := by
  unfold Hook.own
  constructor
  · rintro ⟨g, h⟩
    by_contra hh
    rw [Hook.gradOf_none.2 hh] at h
    cases h
  · intro hl
    obtain ⟨x, hx⟩ := Option.isSome_iff_exists.1 (Hook.lastIn_isSome (hc l hl))
    obtain ⟨φ, hf⟩ := Option.isSome_iff_exists.1 (hcomp l hl)
    have : Hook.gradOf b.bw l ≠ none := fun h => Hook.gradOf_none.1 h hl
    obtain ⟨y, hy⟩ := Option.ne_none_iff_exists'.1 this
    exact ⟨φ x y, by rw [hy, hf, hx]; rfl⟩

theorem loop_ok {comp : ℕ → Option (X → Y → Grad K)} {n : ℕ} (hn : 0 < n) {wd : ℕ → ℕ} (hw : ∀ l, 0 < wd l) :
    ∀ (bs : List (Hook.Batch X Y)), (∀ b ∈ bs, b.Causal) → (∀ b ∈ bs, ∀ l ∈ b.bw.map Prod.fst, (comp l).isSome) →
    (∀ b ∈ bs, ∃ B, 0 < B ∧ ∀ l g, Hook.own comp b l = some g → Rect B (wd l) g) →
    (∀ b ∈ bs, ∀ k < n, k ∈ b.bw.map Prod.fst) → ∀ (c : Hook.Cap X (Grad K)) (dims : Option (List ℕ)),
    dims = none ∨ dims = some ((List.range n).map fun l : ℕ => wd l) →
    ((∀ b ∈ bs, (b.bw.map Prod.fst).Nodup) → ∃ r, namedLoop comp n c dims bs = .ok r ∧
      (bs ≠ [] → r.1 = some ((List.range n).map fun l : ℕ => wd l)) ∧ r.2.length = bs.length ∧
      ∀ (k : ℕ) (b : Hook.Batch X Y), bs[k]? = some b → ∃ t gs, r.2[k]? = some t ∧ gs.length = n ∧
        (∀ l < n, gs[l]? = Hook.own comp b l) ∧ split (some ((List.range n).map fun l : ℕ => wd l)) t = .ok gs) ∧
    ((∃ b ∈ bs, ¬ (b.bw.map Prod.fst).Nodup) → namedLoop comp n c dims bs = .error .attributeError) := by
  intro bs
  induction bs with
  | nil =>
    intro _ _ _ _ c dims _
    refine ⟨fun _ => ⟨(dims, []), rfl, fun h => absurd rfl h, rfl, fun k b h => by simp at h⟩, ?_⟩
    rintro ⟨b, hb, -⟩
    cases hb
  | cons b bs ih =>
    intro hc hcomp hs hall c dims hdims
    have hcb := hc b List.mem_cons_self
    have hpb := hcomp b List.mem_cons_self
    have hp := Hook.C99_reused_layer c b hcb hpb
    by_cases hnd : (b.bw.map Prod.fst).Nodup
    · obtain ⟨c', hc'⟩ := hp.1.2 hnd
      have hg := Hook.grads_own hcb hpb hc'
      -- the gradients of the batch
      choose! G hG using fun l (hl : l ∈ b.bw.map Prod.fst) => (own_some hcb hpb l).2 hl
      have hgs : ((List.range n).map fun k : ℕ => c'.grads k) = ((List.range n).map fun k : ℕ => G k).map some := by
        rw [List.map_map]
        apply List.map_congr_left
        intro k hk
        rw [hg k, hG k (hall b List.mem_cons_self k (List.mem_range.1 hk))]
        rfl
      obtain ⟨B, hB, hrect⟩ := hs b List.mem_cons_self
      have hr : ∀ k < n, Rect B (wd k) (G k) := fun k hk => hrect k _ (hG k (hall b List.mem_cons_self k hk))
      have hne : ∀ k < n, (G k).flatten ≠ [] := fun k hk => rect_ne hB (hw k) (hr k hk)
      have hds : dims.getD (((List.range n).map fun k : ℕ => c'.grads k).map foundDim) = (List.range n).map fun l : ℕ => wd l := by
        rcases hdims with rfl | rfl
        · rw [Option.getD_none, hgs, List.map_map, List.map_map]
          apply List.map_congr_left
          intro k hk
          have hk := List.mem_range.1 hk
          show dimOf (G k) = wd k
          unfold dimOf
          rw [if_pos ((nonEmpty_iff _).2 (hne k hk)), width_rect (hr k hk)]
          intro h0
          exact hne k hk (by rw [h0]; rfl)
        · rfl
      have hfits : List.Forall₂ (Fits B) ((List.range n).map fun k : ℕ => G k) ((List.range n).map fun l : ℕ => wd l) := by
        rw [List.forall₂_map_right_iff, List.forall₂_map_left_iff, List.forall₂_same]
        intro k hk _
        exact hr k (List.mem_range.1 hk)
      obtain ⟨t, ht, -, hsplit⟩ := C57_round_trip hfits
        ⟨G 0, List.mem_map.2 ⟨0, List.mem_range.2 hn, rfl⟩, hne 0 hn⟩
      have hexp : List.zipWith (expected B) ((List.range n).map fun k : ℕ => G k) ((List.range n).map fun l : ℕ => wd l)
          = (List.range n).map fun k : ℕ => G k := by
        apply List.ext_getElem
        · simp
        · intro k h1 h2
          have hk : k < n := by simpa using h2
          simp only [List.getElem_zipWith, List.getElem_map, List.getElem_range, expected, if_neg (hne k hk)]
      rw [hexp] at hsplit
      have step : namedLoop comp n c dims (b :: bs) =
          (namedLoop comp n c' (some ((List.range n).map fun l : ℕ => wd l)) bs).bind fun r => .ok (r.1, t :: r.2) := by
        rw [namedLoop, hc']
        show (concat (some (dims.getD _)) _ >>= _) = _
        rw [hds, hgs, ht]
        rfl
      obtain ⟨i1, i2⟩ := ih (fun x hx => hc x (List.mem_cons_of_mem _ hx)) (fun x hx => hcomp x (List.mem_cons_of_mem _ hx))
        (fun x hx => hs x (List.mem_cons_of_mem _ hx)) (fun x hx => hall x (List.mem_cons_of_mem _ hx)) c' _ (Or.inr rfl)
      constructor
      · intro hn1
        obtain ⟨r, e, h1, h2, h3⟩ := i1 fun x hx => hn1 x (List.mem_cons_of_mem _ hx)
        refine ⟨(r.1, t :: r.2), by rw [step, e]; rfl, fun _ => ?_, by simp [h2], ?_⟩
        · by_cases hbs : bs = []
          · subst hbs
            rw [namedLoop] at e
            cases e
            rfl
          · exact h1 hbs
        · intro k b' hk
          cases k with
          | zero =>
            simp only [List.getElem?_cons_zero, Option.some.injEq] at hk
            subst hk
            refine ⟨t, _, rfl, by simp, fun l hl => ?_, hsplit⟩
            rw [List.getElem?_map, List.getElem?_range hl, hG l (hall b List.mem_cons_self l hl)]
            rfl
          | succ k =>
            rw [List.getElem?_cons_succ] at hk
            obtain ⟨t', gs, e1, e2⟩ := h3 k b' hk
            exact ⟨t', gs, by rw [List.getElem?_cons_succ]; exact e1, e2⟩
      · rintro ⟨b', hb', hbad⟩
        rcases List.mem_cons.1 hb' with rfl | hb'
        · exact absurd hnd hbad
        · rw [step, i2 ⟨b', hb', hbad⟩]
          rfl
    · refine ⟨fun h => absurd (h b List.mem_cons_self) hnd, fun _ => ?_⟩
      rw [namedLoop, hp.2 hnd]
      rfl

theorem loop_missing {comp : ℕ → Option (X → Y → Grad K)} {n : ℕ} {wd : ℕ → ℕ}
    (b : Hook.Batch X Y) (bs : List (Hook.Batch X Y)) (hcb : b.Causal) (hpb : ∀ l ∈ b.bw.map Prod.fst, (comp l).isSome)
    (hs : ∃ B, 0 < B ∧ ∀ l g, Hook.own comp b l = some g → Rect B (wd l) g) (hm : ∃ k < n, k ∉ b.bw.map Prod.fst) :
    namedLoop comp n Hook.Cap.empty none (b :: bs) = .error .attributeError := by
  have hp := Hook.C99_reused_layer (G := Grad K) Hook.Cap.empty b hcb hpb
  by_cases hnd : (b.bw.map Prod.fst).Nodup
  · obtain ⟨c', hc'⟩ := hp.1.2 hnd
    have hg := Hook.grads_own hcb hpb hc'
    have hg' : ∀ k, c'.grads k = Hook.own comp b k := fun k => by
      rw [hg k]; cases Hook.own comp b k <;> rfl
    obtain ⟨B, hB, hrect⟩ := hs
    obtain ⟨k0, hk0, hk1⟩ := hm
    have hnone : none ∈ (List.range n).map fun k : ℕ => c'.grads k := by
      refine List.mem_map.2 ⟨k0, List.mem_range.2 hk0, ?_⟩
      rw [hg']
      cases h : Hook.own comp b k0 with
      | none => rfl
      | some g => exact absurd ((own_some hcb hpb k0).1 ⟨g, h⟩) hk1
    have hcat := C57_missing (B := B) (gs := (List.range n).map fun k : ℕ => c'.grads k)
      (ds := ((List.range n).map fun k : ℕ => c'.grads k).map foundDim) (by omega)
      (by
        rw [List.forall₂_map_right_iff, List.forall₂_same]
        intro o ho g' hg1 h0
        obtain ⟨k, -, rfl⟩ := List.mem_map.1 ho
        rw [hg'] at hg1
        have hr := hrect k g' hg1
        rw [hg', hg1]
        show Rect B (dimOf g') g'
        unfold dimOf
        rw [if_pos ((nonEmpty_iff _).2 h0), width_rect hr]
        · exact hr
        · rintro rfl; exact h0 rfl)
      hnone
    rw [namedLoop, hc']
    show (concat (some ((none : Option (List ℕ)).getD _)) _ >>= _) = _
    rw [Option.getD_none, hcat]
    rfl
  · rw [namedLoop, hp.2 hnd]
    rfl

/-! ### The theorem -/

/-- What holds of a model and its training batches: the module names are distinct, autograd visits only what was applied, all
batches use the same layers, and the sample pass of the set-up, which takes the first batch, runs the modules that this batch
uses. -/
structure Regular (net : List Module) (bs : List (Hook.Batch X Y)) : Prop where
  distinct : (net.map Module.name).Nodup
  causal : ∀ b ∈ bs, b.Causal
  same : ∀ b ∈ bs, ∀ b' ∈ bs, ∀ i, Visits b i → Visits b' i
  ran : ∀ b i m, bs.head? = some b → net[i]? = some m → i ∈ b.fw.map Prod.fst → m.ran = true

/-- A compressor turns the inputs and output gradients of a batch of `B` samples into `B` rows of a positive width that depends on
the layer only. -/
def Shaped (f : Seeds → X → Y → Grad K) (w : Seeds → ℕ) (bs : List (Hook.Batch X Y)) : Prop :=
  (∀ σ, 0 < w σ) ∧ ∀ b ∈ bs, ∃ B, 0 < B ∧ ∀ σ i x y, (i, x) ∈ b.fw → (i, y) ∈ b.bw → Rect B (w σ) (f σ x y)

/-- The seeds of the module at position `i`. -/
def seedsAt (s p : ℤ) (i : ℕ) : Seeds := ⟨s + 10000 * i, s + 10000 * i + 1, p + 10000 * i + 1⟩

omit [Zero K] in
theorem visits_iff {b : Hook.Batch X Y} {i : ℕ} : Visits b i ↔ i ∈ b.bw.map Prod.fst := by
  unfold Visits
  simp

omit [Zero K] in
theorem nodup_of_last {names : List String} (h : ∀ k x, names[k]? = some x → indexOf names x = k) : names.Nodup := by
  rw [List.nodup_iff_injective_get]
  intro a b e
  have ha := h a (names.get a) (by simp)
  have hb := h b (names.get b) (by simp)
  rw [e, hb] at ha
  exact Fin.ext ha.symm

omit [Zero K] in
theorem last_of_nodup {names : List String} (hn : names.Nodup) {k : ℕ} {x : String} (hk : names[k]? = some x) :
    indexOf names x = k := by
  apply last_idx hk
  intro j hj e
  have h1 := (List.getElem?_eq_some_iff.1 hk)
  have h2 := (List.getElem?_eq_some_iff.1 e)
  have : k = j := (List.Nodup.getElem_inj_iff hn).1 (h1.2.trans h2.2.symm)
  omega

variable {net : List Module} {names : List String} {bs : List (Hook.Batch X Y)} {s p : ℤ} {f : Seeds → X → Y → Grad K}
  {w : Seeds → ℕ}

/-- **C170 (unsupported layers).** If a name belongs to a module that is neither a linear layer nor a layer norm, `cache` raises
`ValueError`. -/
theorem C170_unsupported (hR : Regular net bs) {m : Module} (hm : m ∈ net) (hx : m.name ∈ names) (hk : m.kind = .other) :
    cacheNamed net names s p f bs = .error .valueError := by
  unfold cacheNamed
  rw [(C102_setup net hR.distinct names s p).1.2 ⟨m, hm, hx, hk⟩]
  rfl

omit [Zero K] in
/-- What the set-up and the hooks see of the batches. -/
theorem prepared (hR : Regular net bs) (hf : Shaped f w bs) (hno : ∀ m ∈ net, m.name ∈ names → m.kind ≠ .other) :
    ∃ comps, setup net names s p = .ok comps ∧ ∃ wd : ℕ → ℕ, (∀ l, 0 < wd l) ∧
      (∀ b ∈ bs.map (hooked net names), b.Causal) ∧
      (∀ b ∈ bs.map (hooked net names), ∀ l ∈ b.bw.map Prod.fst, (compsOf f comps l).isSome) ∧
      (∀ b ∈ bs.map (hooked net names), ∃ B, 0 < B ∧ ∀ l g, Hook.own (compsOf f comps) b l = some g → Rect B (wd l) g) ∧
      (∀ b ∈ bs, ∀ i k, slot net names i = some k → Visits b i → compsOf f comps k = some (f (seedsAt s p i)) ∧
        wd k = w (seedsAt s p i)) := by
  obtain ⟨comps, he, -, h1, -⟩ := (C102_setup net hR.distinct names s p).2 hno
  have hcomp : ∀ b ∈ bs, ∀ i k, slot net names i = some k → Visits b i → comps[k]?.join = some (seedsAt s p i) := by
    intro b hb i k hk hv
    obtain ⟨m, e1, e2, e3, e4⟩ := slot_some.1 hk
    rcases hbs : bs with _ | ⟨b0, bs'⟩
    · rw [hbs] at hb; cases hb
    · have hb0 : b0 ∈ bs := by rw [hbs]; exact List.mem_cons_self
      have hv0 := hR.same b hb b0 hb0 i hv
      have hran := hR.ran b0 i m (by rw [hbs]; rfl) e1 (hR.causal b0 hb0 i (visits_iff.1 hv0))
      have := h1 i m e1 e2
      rw [e4] at this
      rw [this]
      simp [Module.complete, e3, hran, seedsOf, seedsAt]
  have hmem : ∀ b ∈ bs, ∀ l ∈ (hooked net names b).bw.map Prod.fst, ∃ i, slot net names i = some l ∧ Visits b i := by
    intro b hb l hl
    obtain ⟨i, hi, hs⟩ := mem_hooked.1 hl
    exact ⟨i, hs, visits_iff.2 hi⟩
  refine ⟨comps, he, fun k => match comps[k]?.join with | none => 1 | some σ => w σ, ?_, ?_, ?_, ?_, ?_⟩
  · intro l
    dsimp only
    split
    · exact Nat.one_pos
    · exact hf.1 _
  · intro b' hb' l hl
    obtain ⟨b, hb, rfl⟩ := List.mem_map.1 hb'
    obtain ⟨i, hi, hs⟩ := mem_hooked.1 hl
    exact mem_hooked.2 ⟨i, hR.causal b hb i hi, hs⟩
  · intro b' hb' l hl
    obtain ⟨b, hb, rfl⟩ := List.mem_map.1 hb'
    obtain ⟨i, hs, hv⟩ := hmem b hb l hl
    unfold compsOf
    rw [hcomp b hb i l hs hv]
    rfl
  · intro b' hb'
    obtain ⟨b, hb, rfl⟩ := List.mem_map.1 hb'
    obtain ⟨B, hB, hrect⟩ := hf.2 b hb
    refine ⟨B, hB, fun l g hg => ?_⟩
    unfold Hook.own at hg
    obtain ⟨y, hy, hg⟩ := Option.bind_eq_some_iff.1 hg
    have hl : l ∈ (hooked net names b).bw.map Prod.fst := by
      by_contra hh
      rw [Hook.gradOf_none.2 hh] at hy
      cases hy
    obtain ⟨i, hs, hv⟩ := hmem b hb l hl
    have hinj : ∀ j, slot net names j = some l → j = i := fun j hj => slot_inj hR.distinct hj hs
    have hσ := hcomp b hb i l hs hv
    unfold compsOf at hg
    rw [hσ] at hg
    simp only [Option.map_some, Option.bind_some] at hg
    obtain ⟨x, hx, rfl⟩ := Option.map_eq_some_iff.1 hg
    dsimp only
    rw [hσ]
    have hy' : (b.bw.find? fun u => u.1 == i).map Prod.snd = some y := by
      rw [← find_hooked hs hinj]; exact hy
    have hx' : (b.fw.reverse.find? fun u => u.1 == i).map Prod.snd = some x := by
      rw [← find_hooked hs hinj, List.filterMap_reverse]; exact hx
    obtain ⟨v, hv1, hv2⟩ := Option.map_eq_some_iff.1 hy'
    obtain ⟨u, hu1, hu2⟩ := Option.map_eq_some_iff.1 hx'
    have e1 : v.1 = i := by simpa using List.find?_some hv1
    have e2 : u.1 = i := by simpa using List.find?_some hu1
    apply hrect _ i
    · rw [← e2, ← hu2]; exact List.mem_reverse.1 (List.mem_of_find?_eq_some hu1)
    · rw [← e1, ← hv2]; exact List.mem_of_find?_eq_some hv1
  · intro b hb i k hk hv
    have := hcomp b hb i k hk hv
    unfold compsOf
    dsimp only
    rw [this]
    exact ⟨rfl, rfl⟩

/-- **C170 (refused names).** Otherwise `cache` raises `AttributeError` if a name is repeated, or does not belong to a linear layer
reached by the backward pass (a layer norm, a misspelt name, an unused layer), or if some named linear layer is visited twice in a
batch. -/
theorem C170_refused (hR : Regular net bs) (hf : Shaped f w bs) (hbs : bs ≠ [])
    (hno : ∀ m ∈ net, m.name ∈ names → m.kind ≠ .other)
    (hbad : ¬ names.Nodup ∨ (∃ x ∈ names, ¬ Reached net bs x) ∨ ∃ b ∈ bs, ¬ Once net names b) :
    cacheNamed net names s p f bs = .error .attributeError := by
  obtain ⟨comps, he, wd, hw, hc, hcomp, hs, -⟩ := prepared (s := s) (p := p) hR hf hno
  unfold cacheNamed
  rw [he]
  show namedLoop _ _ _ _ _ = _
  by_cases hall : ∀ b ∈ bs.map (hooked net names), ∀ k < names.length, k ∈ b.bw.map Prod.fst
  · have hslots : ∀ k x, names[k]? = some x → indexOf names x = k ∧ Reached net bs x := by
      intro k x hk
      obtain ⟨b, hb⟩ := List.exists_mem_of_ne_nil _ hbs
      obtain ⟨i, hi, hsl⟩ := mem_hooked.1 (hall _ (List.mem_map.2 ⟨b, hb, rfl⟩) k (List.getElem?_eq_some_iff.1 hk).1)
      obtain ⟨m, e1, e2, e3, e4⟩ := slot_some.1 hsl
      have := indexOf_spec e2
      rw [e4, hk, Option.some.injEq] at this
      subst this
      exact ⟨e4, i, m, ⟨e1, rfl⟩, e3, b, hb, visits_iff.2 hi⟩
    rcases names with _ | ⟨x0, names⟩
    · exfalso
      rcases hbad with h | ⟨x, hx, -⟩ | ⟨b, -, h⟩
      · exact h List.nodup_nil
      · cases hx
      · exact h fun i m _ hm => by cases hm
    refine (loop_ok (by simp) hw _ hc hcomp hs hall Hook.Cap.empty none (Or.inl rfl)).2 ?_
    rcases hbad with h | ⟨x, hx, h⟩ | ⟨b, hb, h⟩
    · exact absurd (nodup_of_last fun k x hk => (hslots k x hk).1) h
    · obtain ⟨k, hk⟩ := List.getElem?_of_mem hx
      exact absurd (hslots k x hk).2 h
    · refine ⟨_, List.mem_map.2 ⟨b, hb, rfl⟩, fun hn => h ?_⟩
      exact (nodup_hooked hR.distinct b.bw).1 hn
  · push Not at hall
    obtain ⟨b', hb', k, hk, hkn⟩ := hall
    obtain ⟨b, hb, rfl⟩ := List.mem_map.1 hb'
    rcases bs with _ | ⟨b0, bs⟩
    · exact absurd rfl hbs
    · have h0 : hooked net names b0 ∈ ((b0 :: bs).map (hooked net names)) := List.mem_map.2 ⟨b0, List.mem_cons_self, rfl⟩
      refine loop_missing (hooked net names b0) _ (hc _ h0) (hcomp _ h0) (hs _ h0) ⟨k, hk, fun hin => hkn ?_⟩
      obtain ⟨i, hi, hsl⟩ := mem_hooked.1 hin
      exact mem_hooked.2 ⟨i, visits_iff.1 (hR.same b0 List.mem_cons_self b hb i (visits_iff.2 hi)), hsl⟩

/-- **C170 (accepted names).** If the names are distinct, belong to linear layers reached by the backward pass, and no batch visits
one of these layers twice, `cache` succeeds: batch by batch it stores one matrix, whose parts are, in the order of the names, the
gradients compressed with the seeds of the layer's position in the model, from the input of the layer's last application and its
output gradient. -/
theorem C170_accepted (hR : Regular net bs) (hf : Shaped f w bs) (hbs : bs ≠ []) (hnames : names ≠ []) (hnd : names.Nodup)
    (hreach : ∀ x ∈ names, Reached net bs x) (honce : ∀ b ∈ bs, Once net names b) :
    ∃ ds ts, cacheNamed net names s p f bs = .ok (some ds, ts) ∧ ds.length = names.length ∧ ts.length = bs.length ∧
      (∀ (k i : ℕ) (x : String) (m : Module), names[k]? = some x → NameAt net i x m → ds[k]? = some (w (seedsAt s p i))) ∧
      ∀ (j : ℕ) (b : Hook.Batch X Y), bs[j]? = some b → ∃ t parts, ts[j]? = some t ∧ split (some ds) t = .ok parts ∧
        parts.length = names.length ∧
        ∀ (k i : ℕ) (x : String) (m : Module), names[k]? = some x → NameAt net i x m → ∃ a y,
          (b.fw.reverse.find? fun u => u.1 == i) = some (i, a) ∧ (i, y) ∈ b.bw ∧ parts[k]? = some (f (seedsAt s p i) a y) := by
  have hat : ∀ x ∈ names, ∀ i m, NameAt net i x m → m.kind = .linear ∧ ∀ b ∈ bs, Visits b i := by
    intro x hx i m him
    obtain ⟨i', m', h1, h2, b, hb, hv⟩ := hreach x hx
    obtain ⟨hl, e1⟩ := List.getElem?_eq_some_iff.1 him.1
    obtain ⟨hl', e2⟩ := List.getElem?_eq_some_iff.1 h1.1
    have hh : (net.map Module.name)[i]'(by simpa using hl) = (net.map Module.name)[i']'(by simpa using hl') := by
      rw [List.getElem_map, List.getElem_map, e1, e2, him.2, h1.2]
    have hi : i = i' := (List.Nodup.getElem_inj_iff hR.distinct).1 hh
    subst hi
    have : m = m' := by rw [← e1, ← e2]
    subst this
    exact ⟨h2, fun b' hb' => hR.same b hb b' hb' i hv⟩
  have hno : ∀ m ∈ net, m.name ∈ names → m.kind ≠ .other := by
    intro m hm hx hk
    obtain ⟨i, hi⟩ := List.getElem?_of_mem hm
    have := (hat _ hx i m ⟨hi, rfl⟩).1
    rw [this] at hk
    cases hk
  have hslot : ∀ k i x m, names[k]? = some x → NameAt net i x m → slot net names i = some k := by
    intro k i x m hk him
    have hx := List.mem_of_getElem? hk
    exact slot_some.2 ⟨m, him.1, by rw [him.2]; exact hx, (hat x hx i m him).1, by rw [him.2]; exact last_of_nodup hnd hk⟩
  obtain ⟨comps, he, wd, hw, hc, hcomp, hs, hseed⟩ := prepared (s := s) (p := p) hR hf hno
  have hall : ∀ b ∈ bs.map (hooked net names), ∀ k < names.length, k ∈ b.bw.map Prod.fst := by
    intro b' hb' k hk
    obtain ⟨b, hb, rfl⟩ := List.mem_map.1 hb'
    obtain ⟨i, m, him, h2, -⟩ := hreach names[k] (List.getElem_mem hk)
    have hk' : names[k]? = some names[k] := List.getElem?_eq_getElem hk
    exact mem_hooked.2 ⟨i, visits_iff.1 ((hat _ (List.getElem_mem hk) i m him).2 b hb), hslot k i _ m hk' him⟩
  obtain ⟨r, er, h1, h2, h3⟩ := (loop_ok (List.length_pos_of_ne_nil hnames) hw _ hc hcomp hs hall Hook.Cap.empty none (Or.inl rfl)).1 (by
    intro b' hb'
    obtain ⟨b, hb, rfl⟩ := List.mem_map.1 hb'
    exact (nodup_hooked hR.distinct b.bw).2 (honce b hb))
  refine ⟨(List.range names.length).map fun l : ℕ => wd l, r.2, ?_, by simp, by simpa using h2, ?_, ?_⟩
  · unfold cacheNamed
    rw [he]
    show namedLoop _ _ _ _ _ = _
    rw [er, ← h1 (by simpa using hbs)]
  · intro k i x m hk him
    have hkl := (List.getElem?_eq_some_iff.1 hk).1
    obtain ⟨b, hb⟩ := List.exists_mem_of_ne_nil _ hbs
    have := hseed b hb i k (hslot k i x m hk him) ((hat x (List.mem_of_getElem? hk) i m him).2 b hb)
    rw [List.getElem?_map, List.getElem?_range hkl, ← this.2]
    rfl
  · intro j b hj
    have hb := List.mem_of_getElem? hj
    obtain ⟨t, gs, e1, e2, e3, e4⟩ := h3 j (hooked net names b) (by rw [List.getElem?_map, hj]; rfl)
    refine ⟨t, gs, e1, e4, e2, ?_⟩
    intro k i x m hk him
    have hkl := (List.getElem?_eq_some_iff.1 hk).1
    have hv := (hat x (List.mem_of_getElem? hk) i m him).2 b hb
    have hsl := hslot k i x m hk him
    have hinj : ∀ j, slot net names j = some k → j = i := fun j hj => slot_inj hR.distinct hj hsl
    have e5 := e3 k hkl
    have hcs := (hseed b hb i k hsl hv).1
    obtain ⟨g, hg⟩ := (own_some (hc _ (List.mem_map.2 ⟨b, hb, rfl⟩)) (hcomp _ (List.mem_map.2 ⟨b, hb, rfl⟩)) k).2
      (hall _ (List.mem_map.2 ⟨b, hb, rfl⟩) k hkl)
    rw [hg] at e5
    unfold Hook.own at hg
    obtain ⟨y, hy, hg⟩ := Option.bind_eq_some_iff.1 hg
    rw [hcs, Option.bind_some] at hg
    obtain ⟨a, ha, rfl⟩ := Option.map_eq_some_iff.1 hg
    have hy' : (b.bw.find? fun u => u.1 == i).map Prod.snd = some y := by
      rw [← find_hooked hsl hinj]; exact hy
    have ha' : (b.fw.reverse.find? fun u => u.1 == i).map Prod.snd = some a := by
      rw [← find_hooked hsl hinj, List.filterMap_reverse]; exact ha
    obtain ⟨v, hv1, hv2⟩ := Option.map_eq_some_iff.1 hy'
    obtain ⟨u, hu1, hu2⟩ := Option.map_eq_some_iff.1 ha'
    have d1 : v.1 = i := by simpa using List.find?_some hv1
    have d2 : u.1 = i := by simpa using List.find?_some hu1
    refine ⟨a, y, ?_, ?_, e5⟩
    · rw [hu1, ← d2, ← hu2]
    · rw [← d1, ← hv2]; exact List.mem_of_find?_eq_some hv1

/-- **C170.** `cache` succeeds exactly for distinct names of linear layers that the backward pass reaches, once per batch; otherwise
it raises `ValueError` if a named module is neither a linear layer nor a layer norm, else `AttributeError`. -/
theorem C170_iff (hR : Regular net bs) (hf : Shaped f w bs) (hbs : bs ≠ []) (hnames : names ≠ []) :
    ((∃ r, cacheNamed net names s p f bs = .ok r) ↔
      names.Nodup ∧ (∀ x ∈ names, Reached net bs x) ∧ ∀ b ∈ bs, Once net names b) ∧
    (cacheNamed net names s p f bs = .error .valueError ↔ ∃ m ∈ net, m.name ∈ names ∧ m.kind = .other) := by
  constructor
  · constructor
    · rintro ⟨r, hr⟩
      by_contra hbad
      by_cases hno : ∀ m ∈ net, m.name ∈ names → m.kind ≠ .other
      · rw [C170_refused hR hf hbs hno (by
          by_contra h
          push Not at h
          exact hbad ⟨h.1, h.2.1, h.2.2⟩)] at hr
        cases hr
      · push Not at hno
        obtain ⟨m, hm, hx, hk⟩ := hno
        rw [C170_unsupported hR hm hx hk] at hr
        cases hr
    · rintro ⟨h1, h2, h3⟩
      obtain ⟨ds, ts, e, -⟩ := C170_accepted (s := s) (p := p) hR hf hbs hnames h1 h2 h3
      exact ⟨_, e⟩
  · constructor
    · intro h
      by_contra hno
      push Not at hno
      by_cases hbad : ¬ names.Nodup ∨ (∃ x ∈ names, ¬ Reached net bs x) ∨ ∃ b ∈ bs, ¬ Once net names b
      · rw [C170_refused hR hf hbs hno hbad] at h
        cases h
      · push Not at hbad
        obtain ⟨ds, ts, e, -⟩ := C170_accepted (s := s) (p := p) hR hf hbs hnames hbad.1 hbad.2.1 hbad.2.2
        rw [e] at h
        cases h
    · rintro ⟨m, hm, hx, hk⟩
      exact C170_unsupported hR hm hx hk

/-- **C170 (default).** Without layer names, caching works exactly if every linear layer of the model is reached by the backward
pass, once per batch. -/
theorem C170_default (hR : Regular net bs) (hf : Shaped f w bs) (hbs : bs ≠ []) (hlin : ∃ m ∈ net, m.kind = .linear) :
    (∃ r, cacheNamed net (defaultNames net) s p f bs = .ok r) ↔
      ∀ i m, net[i]? = some m → m.kind = .linear → ∀ b ∈ bs, b.bw.countP (fun u => u.1 == i) = 1 := by
  have hmem : ∀ m ∈ net, m.kind = .linear → m.name ∈ defaultNames net := fun m hm hk =>
    List.mem_map.2 ⟨m, List.mem_filter.2 ⟨hm, by simpa using hk⟩, rfl⟩
  have hne : defaultNames net ≠ [] := by
    obtain ⟨m, hm, hk⟩ := hlin
    exact List.ne_nil_of_mem (hmem m hm hk)
  have hnd : (defaultNames net).Nodup := hR.distinct.sublist ((List.filter_sublist).map _)
  rw [(C170_iff hR hf hbs hne).1]
  constructor
  · rintro ⟨-, h2, h3⟩ i m hi hk b hb
    have hm := List.mem_of_getElem? hi
    obtain ⟨i', m', hat, hk', b', hb', hv⟩ := h2 _ (hmem m hm hk)
    obtain ⟨hl, e1⟩ := List.getElem?_eq_some_iff.1 hi
    obtain ⟨hl', e2⟩ := List.getElem?_eq_some_iff.1 hat.1
    have hh : (net.map Module.name)[i]'(by simpa using hl) = (net.map Module.name)[i']'(by simpa using hl') := by
      rw [List.getElem_map, List.getElem_map, e1, e2, hat.2]
    have hii : i = i' := (List.Nodup.getElem_inj_iff hR.distinct).1 hh
    subst hii
    obtain ⟨y, hy⟩ := hR.same b' hb' b hb i hv
    have h1 := h3 b hb i m hi (hmem m hm hk) hk
    have h4 : 0 < b.bw.countP (fun u => u.1 == i) := List.countP_pos_iff.2 ⟨_, hy, by simp⟩
    omega
  · intro h
    refine ⟨hnd, fun x hx => ?_, fun b hb i m hi _ hk => (h i m hi hk b hb).le⟩
    obtain ⟨m, hm, rfl⟩ := List.mem_map.1 hx
    obtain ⟨hm, hk⟩ := List.mem_filter.1 hm
    obtain ⟨i, hi⟩ := List.getElem?_of_mem hm
    obtain ⟨b, hb⟩ := List.exists_mem_of_ne_nil _ hbs
    have hk : m.kind = .linear := by simpa using hk
    have h1 := h i m hi hk b hb
    have h4 : 0 < b.bw.countP (fun u => u.1 == i) := by omega
    obtain ⟨u, hu, hui⟩ := List.countP_pos_iff.1 h4
    exact ⟨i, m, ⟨hi, rfl⟩, hk, b, hb, u.2, by rw [← (by simpa using hui : u.1 = i)]; exact hu⟩

/-- Two linear layers around a layer norm, batches of two samples and of one, and a compressor of one column. -/
def exNet : List Module := [⟨"", .other, true⟩, ⟨"fc1", .linear, true⟩, ⟨"ln", .layerNorm true, true⟩, ⟨"fc2", .linear, true⟩]

/-- The batches. -/
def exBatches : List (Hook.Batch (List ℤ) (List ℤ)) :=
  [⟨[(1, [1, 2]), (2, [3, 4]), (3, [5, 6])], [(3, [1, 1]), (2, [2, 2]), (1, [3, 3])]⟩,
   ⟨[(1, [7]), (2, [8]), (3, [9])], [(3, [1]), (2, [2]), (1, [3])]⟩]

/-- The compressor: per sample the product of input and output gradient. -/
def exComp (_ : Seeds) (x y : List ℤ) : Grad ℤ := List.zipWith (fun a b => [a * b]) x y

example : Regular exNet exBatches where
  distinct := by decide
  causal := by
    intro b hb
    simp only [exBatches, List.mem_cons, List.not_mem_nil, or_false] at hb
    rcases hb with rfl | rfl <;> (intro l hl; revert hl; simp; omega)
  same := by
    intro b hb b' hb' i hv
    simp only [exBatches, List.mem_cons, List.not_mem_nil, or_false] at hb hb'
    rw [visits_iff] at hv ⊢
    rcases hb with rfl | rfl <;> rcases hb' with rfl | rfl <;> simpa using hv
  ran := by
    intro b i m _ hm _
    have : m ∈ exNet := List.mem_of_getElem? hm
    simp only [exNet, List.mem_cons, List.not_mem_nil, or_false] at this
    rcases this with rfl | rfl | rfl | rfl <;> rfl

example : Shaped exComp (fun _ => 1) exBatches := by
  refine ⟨fun _ => Nat.one_pos, fun b hb => ?_⟩
  simp only [exBatches, List.mem_cons, List.not_mem_nil, or_false] at hb
  rcases hb with rfl | rfl
  · refine ⟨2, by decide, fun σ i x y hx hy => ?_⟩
    simp only [List.mem_cons, List.not_mem_nil, or_false, Prod.mk.injEq] at hx hy
    rcases hx with ⟨rfl, rfl⟩ | ⟨rfl, rfl⟩ | ⟨rfl, rfl⟩ <;> rcases hy with ⟨h, rfl⟩ | ⟨h, rfl⟩ | ⟨h, rfl⟩ <;>
      simp [exComp, Rect]
  · refine ⟨1, by decide, fun σ i x y hx hy => ?_⟩
    simp only [List.mem_cons, List.not_mem_nil, or_false, Prod.mk.injEq] at hx hy
    rcases hx with ⟨rfl, rfl⟩ | ⟨rfl, rfl⟩ | ⟨rfl, rfl⟩ <;> rcases hy with ⟨h, rfl⟩ | ⟨h, rfl⟩ | ⟨h, rfl⟩ <;>
      simp [exComp, Rect]

/-- Accepted: the two linear layers. -/
example : cacheNamed exNet ["fc2", "fc1"] 0 0 exComp exBatches = .ok (some [1, 1], [[[5, 3], [6, 6]], [[9, 21]]]) := by
  decide +kernel

/-- Refused: the layer norm, a misspelt name, a repeated name, the whole model. -/
example : cacheNamed exNet ["fc1", "ln"] 0 0 exComp exBatches = .error .attributeError ∧
    cacheNamed exNet ["fc1", "fc3"] 0 0 exComp exBatches = .error .attributeError ∧
    cacheNamed exNet ["fc1", "fc1"] 0 0 exComp exBatches = .error .attributeError ∧
    cacheNamed exNet ["fc1", ""] 0 0 exComp exBatches = .error .valueError := by
  exact ⟨by decide +kernel, by decide +kernel, by decide +kernel, by decide +kernel⟩

end Verif.BlockIF
