import Verif.DataInf.LayerNameModel
import Verif.DataInf.Props
import Mathlib.Algebra.BigOperators.Ring.Finset
import Mathlib.Tactic.Positivity

/-! # C232: DataInf with `layer_name` -/

namespace Verif.DataInf

/-! ## Specification -/

/-- The block of coordinate `a` when a vector is cut into pieces of the given sizes. -/
def blk : List ℕ → ℕ → ℕ
  | [], _ => 0
  | n :: ns, a => if a < n then 0 else blk ns (a - n) + 1

/-- Adjacent parameters of the same module together: `(module, size)` with the sizes added. -/
def runs : List (List Char × ℕ) → List (List Char × ℕ)
  | [] => []
  | p :: ps =>
    match runs ps with
    | [] => [p]
    | q :: qs => if p.1 = q.1 then (p.1, p.2 + q.2) :: qs else p :: q :: qs

/-- Parameters with their modules. -/
def modules (named : List (List Char × ℕ)) : List (List Char × ℕ) := named.map fun p => (Verif.Task.layerOf p.1, p.2)

/-- What DataInf is meant to compute, entry by entry: coordinates interact exactly within a block. -/
noncomputable def dampedEntry {D : ℕ} (sizes : List ℕ) (r : ℝ) (grads : List (Fin D → ℝ)) (v : Fin D → ℝ) (a : Fin D) : ℝ :=
  (grads.map fun g => (v a - (∑ b with blk sizes b.1 = blk sizes a.1, v b * g b) /
    (r + ∑ b with blk sizes b.1 = blk sizes a.1, g b ^ 2) * g a) / r).sum / grads.length

/-! ## Entries of the transformation -/

theorem blk_cons_lt {n : ℕ} {ns : List ℕ} {a : ℕ} (h : a < n) : blk (n :: ns) a = 0 := by simp [blk, h]

theorem blk_cons_ge {n : ℕ} {ns : List ℕ} {a : ℕ} (h : n ≤ a) : blk (n :: ns) a = blk ns (a - n) + 1 := by
  simp [blk, Nat.not_lt.2 h]

/-- The coordinates of the `l`-th piece. -/
theorem blk_eq_iff (sizes : List ℕ) (a l : ℕ) (ha : a < sizes.sum) (hl : l < sizes.length) :
    blk sizes a = l ↔ (sizes.take l).sum ≤ a ∧ a < (sizes.take l).sum + sizes.getD l 0 := by
  induction sizes generalizing a l with
  | nil => simp at ha
  | cons n ns ih =>
    by_cases h : a < n
    · rw [blk_cons_lt h]
      cases l with
      | zero => simp [h]
      | succ l =>
        simp only [List.take_succ_cons, List.sum_cons]
        constructor
        · intro h'; omega
        · intro h'; omega
    · have h' := Nat.not_lt.1 h
      rw [blk_cons_ge h']
      cases l with
      | zero => simp; omega
      | succ l =>
        rw [List.sum_cons] at ha
        have := ih (a - n) l (by omega) (by simpa using hl)
        simp only [List.take_succ_cons, List.sum_cons, List.getD_cons_succ, Nat.add_right_cancel_iff]
        rw [this]
        omega

theorem blk_lt (sizes : List ℕ) (a : ℕ) (ha : a < sizes.sum) : blk sizes a < sizes.length := by
  induction sizes generalizing a with
  | nil => simp at ha
  | cons n ns ih =>
    by_cases h : a < n
    · rw [blk_cons_lt h]; simp
    · rw [blk_cons_ge (Nat.not_lt.1 h)]
      rw [List.sum_cons] at ha
      simpa using ih (a - n) (by omega)

theorem slice_sum {D : ℕ} (sizes : List ℕ) (hD : D ≤ sizes.sum) (l : ℕ) (hl : l < sizes.length) (f : Fin D → ℝ) :
    ∑ k, slice f (sizes.take l).sum (sizes.getD l 0) k = ∑ b with blk sizes b.1 = l, f b := by
  refine Finset.sum_bij (fun k _ => ⟨(sizes.take l).sum + k.1, by have := k.2; unfold sliceLen at this; omega⟩) ?_ ?_ ?_ ?_
  · intro k _
    simp only [Finset.mem_filter, Finset.mem_univ, true_and]
    have := k.2
    unfold sliceLen at this
    rw [blk_eq_iff sizes _ l (by omega) hl]
    omega
  · intro k _ k' _ h
    simp only [Fin.mk.injEq] at h
    exact Fin.ext (by omega)
  · intro b hb
    simp only [Finset.mem_filter, Finset.mem_univ, true_and] at hb
    have hb' := (blk_eq_iff sizes b.1 l (Nat.lt_of_lt_of_le b.2 hD) hl).1 hb
    refine ⟨⟨b.1 - (sizes.take l).sum, ?_⟩, Finset.mem_univ _, ?_⟩
    · have := b.2
      unfold sliceLen
      omega
    · exact Fin.ext (by simp only; omega)
  · intro k _
    rfl

theorem flatMap_pieces {D : ℕ} (E : ℕ → ℝ) (sizes : List ℕ) (o : ℕ) :
    ((List.range sizes.length).flatMap fun l => List.ofFn fun k : Fin (sliceLen D (o + (sizes.take l).sum) (sizes.getD l 0)) =>
      E (o + (sizes.take l).sum + k.1)) = (List.range (min (o + sizes.sum) D - min o D)).map fun i => E (o + i) := by
  induction sizes generalizing o with
  | nil => simp
  | cons n ns ih =>
    rw [List.length_cons, List.range_succ_eq_map, List.flatMap_cons, List.flatMap_map]
    have e1 : ∀ l, o + ((n :: ns).take (l + 1)).sum = (o + n) + (ns.take l).sum := by
      intro l
      rw [List.take_succ_cons, List.sum_cons]
      omega
    have h2 := ih (o + n)
    have e2 : ((List.range ns.length).flatMap fun l => List.ofFn fun k : Fin (sliceLen D (o + ((n :: ns).take (l + 1)).sum)
        ((n :: ns).getD (l + 1) 0)) => E (o + ((n :: ns).take (l + 1)).sum + k.1)) =
        (List.range (min (o + n + ns.sum) D - min (o + n) D)).map fun i => E (o + n + i) := by
      rw [← h2]
      congr 1
      funext l
      simp only [e1, List.getD_cons_succ]
      rfl
    show _ ++ ((List.range ns.length).flatMap fun l => List.ofFn fun k : Fin (sliceLen D (o + ((n :: ns).take (l + 1)).sum)
        ((n :: ns).getD (l + 1) 0)) => E (o + ((n :: ns).take (l + 1)).sum + k.1)) = _
    rw [e2]
    have e3 : (List.ofFn fun k : Fin (sliceLen D (o + ((n :: ns).take 0).sum) ((n :: ns).getD 0 0)) =>
        E (o + ((n :: ns).take 0).sum + k.1)) = (List.range (min (o + n) D - min o D)).map fun i => E (o + i) := by
      apply List.ext_getElem
      · simp [sliceLen]
      · intro i h1 h2
        simp
        rfl
    rw [e3]
    by_cases hD : o + n ≤ D
    · have e4 : min (o + (n :: ns).sum) D - min o D = (min (o + n) D - min o D) + (min (o + n + ns.sum) D - min (o + n) D) := by
        rw [List.sum_cons]
        omega
      rw [e4, List.range_add, List.map_append, List.map_map]
      congr 1
      apply List.map_congr_left
      intro i _
      simp only [Function.comp]
      congr 1
      omega
    · have e4 : min (o + n + ns.sum) D - min (o + n) D = 0 := by omega
      have e5 : min (o + (n :: ns).sum) D - min o D = min (o + n) D - min o D := by
        rw [List.sum_cons]
        omega
      rw [e4, e5]
      simp

theorem list_sum_apply {n : ℕ} (l : List (Fin n → ℝ)) (k : Fin n) : l.sum k = (l.map fun f => f k).sum := by
  induction l with
  | nil => rfl
  | cons f l ih => simp [ih]

/-- **C232** (entries). For any sizes of blocks that cover the row, the result is a row of the same length in which coordinates interact
exactly if they are in the same block. -/
theorem C232_entries (tenth : ℝ) {D : ℕ} (bs : ℕ) (hb : 0 < bs) (sizes : List ℕ) (hD : D ≤ sizes.sum) (grads : List (Fin D → ℝ))
    (reg : Option ℝ) (hr : 0 < reg.getD tenth) (v : Fin D → ℝ) :
    transform tenth bs sizes grads reg v = some (List.ofFn (dampedEntry sizes (reg.getD tenth) grads v)) := by
  unfold transform
  simp only [transformLayer_eq tenth bs hb _ reg hr]
  have e : (fun l => Option.map List.ofFn (some fun k : Fin (sliceLen D (sizes.take l).sum (sizes.getD l 0)) =>
      (List.map (fun g => sol (slice v (sizes.take l).sum (sizes.getD l 0)) g (reg.getD tenth))
        (List.map (fun g => slice g (sizes.take l).sum (sizes.getD l 0)) grads)).sum k /
        ((List.map (fun g => slice g (sizes.take l).sum (sizes.getD l 0)) grads).length : ℝ))) = fun l => pure (List.ofFn fun k :
        Fin (sliceLen D (sizes.take l).sum (sizes.getD l 0)) =>
      (List.map (fun g => sol (slice v (sizes.take l).sum (sizes.getD l 0)) g (reg.getD tenth))
        (List.map (fun g => slice g (sizes.take l).sum (sizes.getD l 0)) grads)).sum k /
        ((List.map (fun g => slice g (sizes.take l).sum (sizes.getD l 0)) grads).length : ℝ)) := rfl
  rw [e, List.mapM_pure]
  show some (List.map _ _).flatten = _
  congr 1
  rw [← List.flatMap_def]
  have h := flatMap_pieces (D := D) (fun a => if h : a < D then dampedEntry sizes (reg.getD tenth) grads v ⟨a, h⟩ else 0) sizes 0
  simp only [Nat.zero_add] at h
  have hlen : min sizes.sum D - min 0 D = D := by omega
  rw [hlen] at h
  have h' : (List.range D).map (fun a => if h : a < D then dampedEntry sizes (reg.getD tenth) grads v ⟨a, h⟩ else 0) =
      List.ofFn (dampedEntry sizes (reg.getD tenth) grads v) := by
    apply List.ext_getElem
    · simp
    · intro i h1 h2
      have : i < D := by simpa using h1
      simp [this]
  rw [← h', ← h]
  apply List.flatMap_congr
  intro l hl
  have hl := List.mem_range.1 hl
  congr 1
  funext k
  have hk := k.2
  unfold sliceLen at hk
  have hlt : (sizes.take l).sum + k.1 < D := by omega
  have hblk : blk sizes ((sizes.take l).sum + k.1) = l := by
    rw [blk_eq_iff sizes _ l (by omega) hl]
    omega
  refine Eq.trans ?_ (dif_pos hlt).symm
  unfold dampedEntry
  rw [list_sum_apply, List.length_map, List.map_map, List.map_map]
  congr 2
  apply List.map_congr_left
  intro g _
  simp only [Function.comp, sol, Fin.val_cast, hblk]
  rw [← slice_sum sizes hD l hl fun b => v b * g b, ← slice_sum sizes hD l hl fun b => g b ^ 2]
  rfl

/-- **C232** (blocks matter). Two ways to cut the rows give the same transformation for all gradients and regularisations exactly if they
put the same coordinates together. -/
theorem C232_blocks (tenth : ℝ) {D : ℕ} (bs : ℕ) (hb : 0 < bs) (s t : List ℕ) (hs : D ≤ s.sum) (ht : D ≤ t.sum) :
    (∀ (grads : List (Fin D → ℝ)) (reg : Option ℝ), 0 < reg.getD tenth → ∀ v : Fin D → ℝ,
      transform tenth bs s grads reg v = transform tenth bs t grads reg v) ↔
    ∀ a b : Fin D, blk s a.1 = blk s b.1 ↔ blk t a.1 = blk t b.1 := by
  constructor
  · intro h
    have key : ∀ (s t : List ℕ) (_ : D ≤ s.sum) (_ : D ≤ t.sum), (∀ (grads : List (Fin D → ℝ)) (reg : Option ℝ), 0 < reg.getD tenth →
        ∀ v : Fin D → ℝ, transform tenth bs s grads reg v = transform tenth bs t grads reg v) →
        ∀ a b : Fin D, blk s a.1 = blk s b.1 → blk t a.1 = blk t b.1 := by
      intro s t hs ht h a b hab
      by_contra hne
      have hab' : a ≠ b := fun e => hne (by rw [e])
      have h1 := h [fun k => if k = a ∨ k = b then 1 else 0] (some 1) (by simp) (fun k => if k = b then 1 else 0)
      rw [C232_entries tenth bs hb s hs _ _ (by simp), C232_entries tenth bs hb t ht _ _ (by simp), Option.some.injEq] at h1
      have h2 := congrFun (List.ofFn_injective h1) a
      simp only [dampedEntry, List.map_cons, List.map_nil, List.sum_cons, List.sum_nil, Option.getD_some, List.length_cons,
        List.length_nil, hab', true_or, if_true, if_false] at h2
      have e1 : (∑ k with blk s k.1 = blk s a.1, (if k = b then (1 : ℝ) else 0) * (if k = a ∨ k = b then 1 else 0)) = 1 := by
        rw [Finset.sum_eq_single b]
        · simp
        · intro k _ hk; simp [hk]
        · intro hb'
          exact absurd (Finset.mem_filter.2 ⟨Finset.mem_univ b, hab.symm⟩) hb'
      have e2 : (∑ k with blk t k.1 = blk t a.1, (if k = b then (1 : ℝ) else 0) * (if k = a ∨ k = b then 1 else 0)) = 0 := by
        apply Finset.sum_eq_zero
        intro k hk
        have hk' := (Finset.mem_filter.1 hk).2
        have : k ≠ b := by
          rintro rfl
          exact hne hk'.symm
        simp [this]
      rw [e1, e2] at h2
      norm_num at h2
      exact absurd h2 (by positivity)
    exact fun a b => ⟨key s t hs ht h a b, key t s ht hs (fun g r hr v => (h g r hr v).symm) a b⟩
  · intro h grads reg hr v
    rw [C232_entries tenth bs hb s hs _ _ hr, C232_entries tenth bs hb t ht _ _ hr]
    congr 2
    funext a
    unfold dampedEntry
    have e : (Finset.univ.filter fun b : Fin D => blk s b.1 = blk s a.1) = Finset.univ.filter fun b : Fin D => blk t b.1 = blk t a.1 :=
      Finset.filter_congr fun b _ => h b a
    rw [e]

/-! ## The blocks of the code -/

/-- The map with natural numbers, after a parameter of module `c` with index `j`. -/
def goN : List Char → ℕ → List (List Char) → List ℕ
  | _, _, [] => []
  | c, j, l :: ls => if l = c then j :: goN c j ls else (j + 1) :: goN l (j + 1) ls

theorem foldl_mapStep (ks : List (List Char)) (c : List Char) (j : ℕ) (acc : List ℤ) :
    (ks.foldl Verif.Task.mapStep (some c, (j : ℤ), acc)).2.2.map Int.toNat =
      acc.map Int.toNat ++ goN c j (ks.map Verif.Task.layerOf) := by
  induction ks generalizing c j acc with
  | nil => simp [goN]
  | cons k ks ih =>
    rw [List.foldl_cons, List.map_cons]
    by_cases h : Verif.Task.layerOf k = c
    · have e : Verif.Task.mapStep (some c, (j : ℤ), acc) k = (some c, (j : ℤ), acc ++ [(j : ℤ)]) := by
        simp [Verif.Task.mapStep, h]
      rw [e, ih]
      simp [goN, h]
    · have e : Verif.Task.mapStep (some c, (j : ℤ), acc) k =
          (some (Verif.Task.layerOf k), ((j + 1 : ℕ) : ℤ), acc ++ [((j + 1 : ℕ) : ℤ)]) := by
        simp [Verif.Task.mapStep, Ne.symm h]
      rw [e, ih]
      have e2 : (((j : ℤ) + 1).toNat) = j + 1 := by omega
      simp [goN, h, e2]

theorem genMap_cons (k : List Char) (ks : List (List Char)) :
    (Verif.Task.genMap (k :: ks)).map Int.toNat = 0 :: goN (Verif.Task.layerOf k) 0 (ks.map Verif.Task.layerOf) := by
  have h := foldl_mapStep ks (Verif.Task.layerOf k) 0 [0]
  unfold Verif.Task.genMap
  rw [List.foldl_cons]
  have e : Verif.Task.mapStep (none, -1, []) k = (some (Verif.Task.layerOf k), ((0 : ℕ) : ℤ), [0]) := by
    simp [Verif.Task.mapStep]
  rw [e, h]
  rfl

theorem goN_ge (c : List Char) (j : ℕ) (ls : List (List Char)) : ∀ x ∈ goN c j ls, j ≤ x := by
  induction ls generalizing c j with
  | nil => simp [goN]
  | cons l ls ih =>
    intro x hx
    unfold goN at hx
    split_ifs at hx
    · rcases List.mem_cons.1 hx with rfl | hx
      · exact Nat.le_refl _
      · exact ih c j x hx
    · rcases List.mem_cons.1 hx with rfl | hx
      · omega
      · have := ih l (j + 1) x hx
        omega

theorem runs_head (c : List Char) (t : List (List Char × ℕ)) : ∃ y qs, ∀ x, runs ((c, x) :: t) = (c, x + y) :: qs := by
  cases h : runs t with
  | nil => exact ⟨0, [], fun x => by simp [runs, h]⟩
  | cons q qs =>
    by_cases hc : c = q.1
    · exact ⟨q.2, qs, fun x => by simp [runs, h, hc]⟩
    · exact ⟨0, q :: qs, fun x => by simp [runs, h, hc]⟩

theorem runs_same (c : List Char) (x n : ℕ) (t : List (List Char × ℕ)) : runs ((c, x) :: (c, n) :: t) = runs ((c, x + n) :: t) := by
  obtain ⟨y, qs, h⟩ := runs_head c t
  rw [h (x + n)]
  unfold runs
  rw [h n]
  simp [Nat.add_assoc]

theorem runs_diff (c l : List Char) (hne : l ≠ c) (x n : ℕ) (t : List (List Char × ℕ)) :
    runs ((c, x) :: (l, n) :: t) = (c, x) :: runs ((l, n) :: t) := by
  obtain ⟨y, qs, h⟩ := runs_head l t
  rw [runs, h n]
  simp [Ne.symm hne]

/-- Total size of the parameters with index `l`. -/
def sizeAt (sizes m : List ℕ) (l : ℕ) : ℕ := ((sizes.zip m).filterMap fun pm => if pm.2 = l then some pm.1 else none).sum

theorem sizeAt_cons (n : ℕ) (sizes : List ℕ) (i : ℕ) (m : List ℕ) (l : ℕ) :
    sizeAt (n :: sizes) (i :: m) l = (if i = l then n else 0) + sizeAt sizes m l := by
  unfold sizeAt
  rw [List.zip_cons_cons, List.filterMap_cons]
  by_cases h : i = l <;> simp [h]

theorem sizeAt_zero (sizes m : List ℕ) (l : ℕ) (h : ∀ x ∈ m, x ≠ l) : sizeAt sizes m l = 0 := by
  unfold sizeAt
  rw [List.filterMap_eq_nil_iff.2, List.sum_nil]
  rintro ⟨a, b⟩ hab
  rw [if_neg]
  exact h b (List.of_mem_zip hab).2

theorem goN_sizes (t : List (List Char × ℕ)) (c : List Char) (j acc : ℕ) :
    (∀ k, (if k = 0 then acc else 0) + sizeAt (t.map (·.2)) (goN c j (t.map (·.1))) (j + k) =
      ((runs ((c, acc) :: t)).map (·.2)).getD k 0) ∧
    (goN c j (t.map (·.1))).getLastD j + 1 = j + (runs ((c, acc) :: t)).length := by
  induction t generalizing c j acc with
  | nil =>
    constructor
    · intro k
      cases k <;> simp [goN, sizeAt, runs]
    · simp [goN, runs]
  | cons p t ih =>
    obtain ⟨l, n⟩ := p
    by_cases h : l = c
    · subst h
      obtain ⟨h1, h2⟩ := ih l j (acc + n)
      constructor
      · intro k
        rw [runs_same, ← h1 k]
        simp only [List.map_cons, goN, if_true, sizeAt_cons]
        cases k with
        | zero => simp [Nat.add_assoc]
        | succ k => simp
      · rw [runs_same, ← h2]
        simp only [List.map_cons, goN, if_true]
        cases goN l j (t.map (·.1)) <;> simp
    · obtain ⟨h1, h2⟩ := ih l (j + 1) n
      constructor
      · intro k
        rw [runs_diff c l h]
        simp only [List.map_cons, goN, h, if_false, sizeAt_cons]
        cases k with
        | zero =>
          have hz := sizeAt_zero (t.map (·.2)) (goN l (j + 1) (t.map (·.1))) j (fun x hx => by
            have := goN_ge _ _ _ x hx
            omega)
          simp [hz]
        | succ k =>
          have := h1 k
          simp only [List.getD_cons_succ]
          rw [← this]
          have e : j + (k + 1) = j + 1 + k := by omega
          rw [e]
          cases k <;> simp
      · rw [runs_diff c l h]
        simp only [List.map_cons, goN, h, if_false, List.length_cons]
        have e : ((j + 1) :: goN l (j + 1) (t.map (·.1))).getLastD j = (goN l (j + 1) (t.map (·.1))).getLastD (j + 1) :=
          List.getLastD_cons
        rw [e]
        omega

/-- **C232** (the code's blocks). The blocks are the runs of adjacent parameters of one module, in the order of the whole model. -/
theorem C232_runs (named : List (List Char × ℕ)) (h : named ≠ []) : blockSizes named = (runs (modules named)).map (·.2) := by
  obtain ⟨⟨k, n⟩, t, rfl⟩ := List.exists_cons_of_ne_nil h
  unfold blockSizes layerSizes
  rw [List.map_cons, List.map_cons, genMap_cons]
  obtain ⟨h1, h2⟩ := goN_sizes (modules t) (Verif.Task.layerOf k) 0 n
  have e1 : (modules t).map (·.1) = (t.map (·.1)).map Verif.Task.layerOf := by simp [modules]
  have e2 : (modules t).map (·.2) = t.map (·.2) := by simp [modules]
  rw [e1] at h1 h2
  rw [e2] at h1
  have e3 : modules ((k, n) :: t) = (Verif.Task.layerOf k, n) :: modules t := rfl
  rw [e3]
  have e4 : (0 :: goN (Verif.Task.layerOf k) 0 ((t.map (·.1)).map Verif.Task.layerOf)).getLastD 0 =
      (goN (Verif.Task.layerOf k) 0 ((t.map (·.1)).map Verif.Task.layerOf)).getLastD 0 := by
    cases goN (Verif.Task.layerOf k) 0 ((t.map (·.1)).map Verif.Task.layerOf) <;> simp
  rw [e4, h2, Nat.zero_add]
  apply List.ext_getElem
  · simp
  · intro i hi1 hi2
    have := h1 i
    rw [Nat.zero_add] at this
    rw [List.getElem_map, List.getElem_range]
    show sizeAt _ _ i = _
    rw [sizeAt_cons]
    have e5 : (if 0 = i then n else 0) = if i = 0 then n else 0 := by
      cases i <;> simp
    rw [e5, this, List.getD_eq_getElem?_getD, List.getElem?_eq_getElem hi2]
    rfl

theorem runs_sum (l : List (List Char × ℕ)) : ((runs l).map (·.2)).sum = (l.map (·.2)).sum := by
  induction l with
  | nil => rfl
  | cons p ps ih =>
    obtain ⟨c, x⟩ := p
    rw [List.map_cons (l := ps), List.sum_cons, ← ih]
    cases h : runs ps with
    | nil => simp [runs, h]
    | cons q qs =>
      by_cases hc : c = q.1
      · simp [runs, h, hc, Nat.add_assoc]
      · simp [runs, h, hc]

theorem blk_runs_zero (c : List Char) (x a : ℕ) (t : List (List Char × ℕ)) (h : a < x) :
    blk ((runs ((c, x) :: t)).map (·.2)) a = 0 := by
  obtain ⟨y, qs, hq⟩ := runs_head c t
  rw [hq x, List.map_cons]
  exact blk_cons_lt (by simp only; omega)

theorem blk_runs_append (t u : List (List Char × ℕ)) (c : List Char) (x a : ℕ) (h : a < x + (t.map (·.2)).sum) :
    blk ((runs ((c, x) :: (t ++ u))).map (·.2)) a = blk ((runs ((c, x) :: t)).map (·.2)) a := by
  induction t generalizing c x a with
  | nil =>
    simp only [List.map_nil, List.sum_nil, Nat.add_zero] at h
    rw [blk_runs_zero c x a _ h, blk_runs_zero c x a _ h]
  | cons p t ih =>
    obtain ⟨l, n⟩ := p
    rw [List.cons_append]
    simp only [List.map_cons, List.sum_cons] at h
    by_cases hl : l = c
    · subst hl
      rw [runs_same, runs_same]
      exact ih l (x + n) a (by omega)
    · rw [runs_diff c l hl, runs_diff c l hl, List.map_cons, List.map_cons]
      by_cases ha : a < x
      · rw [blk_cons_lt ha, blk_cons_lt ha]
      · have ha' := Nat.not_lt.1 ha
        rw [blk_cons_ge ha', blk_cons_ge ha', ih l n (a - x) (by omega)]

/-! ## Which selections are transformed as meant -/

/-- The transformation is the one with the blocks of the selected parameters. -/
def AsMeant (tenth : ℝ) (bs : ℕ) (named : List (List Char × ℕ)) (arg : Verif.Task.LayerArg) : Prop :=
  ∀ (grads : List (Fin (width named arg) → ℝ)) (reg : Option ℝ), 0 < reg.getD tenth → ∀ v : Fin (width named arg) → ℝ,
    transformNamed tenth bs named arg grads reg v =
      transform tenth bs ((runs (modules (Verif.Task.selectParams named arg))).map (·.2)) grads reg v

theorem modules_sum (l : List (List Char × ℕ)) : ((modules l).map (·.2)).sum = (l.map (·.2)).sum := by
  unfold modules
  rw [List.map_map]
  rfl

/-- **C232.** DataInf with `layer_name` computes what is meant exactly if cutting the model into layers and cutting the selection into
layers put the same columns together. -/
theorem C232_layer_name (tenth : ℝ) (bs : ℕ) (hb : 0 < bs) (named : List (List Char × ℕ)) (hne : named ≠ [])
    (arg : Verif.Task.LayerArg) (hw : width named arg ≤ (named.map (·.2)).sum) :
    AsMeant tenth bs named arg ↔ ∀ a b : Fin (width named arg),
      blk ((runs (modules named)).map (·.2)) a.1 = blk ((runs (modules named)).map (·.2)) b.1 ↔
      blk ((runs (modules (Verif.Task.selectParams named arg))).map (·.2)) a.1 =
        blk ((runs (modules (Verif.Task.selectParams named arg))).map (·.2)) b.1 := by
  rw [← C232_blocks tenth bs hb]
  · unfold AsMeant transformNamed
    rw [C232_runs named hne]
  · rw [runs_sum, modules_sum]
    exact hw
  · rw [runs_sum, modules_sum]
    exact Nat.le_refl _

/-- **C232** (first parameters). Selecting the first parameters of the model, or all, works. -/
theorem C232_prefix (tenth : ℝ) (bs : ℕ) (hb : 0 < bs) (named : List (List Char × ℕ)) (hne : named ≠ [])
    (arg : Verif.Task.LayerArg) (rest : List (List Char × ℕ)) (h : named = Verif.Task.selectParams named arg ++ rest) :
    AsMeant tenth bs named arg := by
  rw [C232_layer_name tenth bs hb named hne arg (by
    conv_rhs => rw [h]
    rw [List.map_append, List.sum_append]
    exact Nat.le_add_right _ _)]
  cases hs : Verif.Task.selectParams named arg with
  | nil =>
    intro a
    have := a.2
    simp [width, hs] at this
  | cons p t =>
    have key : ∀ a : ℕ, a < width named arg → blk ((runs (modules named)).map (·.2)) a =
        blk ((runs (modules (p :: t))).map (·.2)) a := by
      intro a ha
      unfold width at ha
      rw [hs] at h ha
      rw [h]
      have e : modules (p :: t ++ rest) = (Verif.Task.layerOf p.1, p.2) :: (modules t ++ modules rest) := by simp [modules]
      have e' : modules (p :: t) = (Verif.Task.layerOf p.1, p.2) :: modules t := by simp [modules]
      rw [e, e']
      apply blk_runs_append
      rw [modules_sum]
      simpa using ha
    intro a b
    rw [key a.1 a.2, key b.1 b.2]

theorem runs_one (c : List Char) (x : ℕ) (t : List (List Char × ℕ)) (h : ∀ p ∈ t, p.1 = c) :
    runs ((c, x) :: t) = [(c, x + (t.map (·.2)).sum)] := by
  induction t generalizing x with
  | nil => simp [runs]
  | cons p t ih =>
    obtain ⟨l, n⟩ := p
    obtain rfl : l = c := h (l, n) (by simp)
    rw [runs_same, ih _ fun q hq => h q (List.mem_cons_of_mem _ hq)]
    simp [Nat.add_assoc]

/-- **C232** (one layer). Selecting parameters of one module works exactly if they have at most as many entries as the first layer of the
model (the parameters before the module changes for the first time); `first` is its number of entries. -/
theorem C232_one_layer (tenth : ℝ) (bs : ℕ) (hb : 0 < bs) (named : List (List Char × ℕ)) (hne : named ≠ [])
    (arg : Verif.Task.LayerArg) (hw : width named arg ≤ (named.map (·.2)).sum) (c : List Char)
    (hc : ∀ p ∈ Verif.Task.selectParams named arg, Verif.Task.layerOf p.1 = c) (m : List Char) (first : ℕ)
    (qs : List (List Char × ℕ)) (hr : runs (modules named) = (m, first) :: qs) (hpos : 0 < first) :
    AsMeant tenth bs named arg ↔ width named arg ≤ first := by
  rw [C232_layer_name tenth bs hb named hne arg hw]
  have one : ∀ a : ℕ, a < width named arg → blk ((runs (modules (Verif.Task.selectParams named arg))).map (·.2)) a = 0 := by
    intro a ha
    unfold width at ha
    cases hs : Verif.Task.selectParams named arg with
    | nil => simp [hs] at ha
    | cons p t =>
      rw [hs] at ha hc
      have e' : modules (p :: t) = (Verif.Task.layerOf p.1, p.2) :: modules t := by simp [modules]
      rw [e', runs_one]
      · refine blk_cons_lt ?_
        rw [modules_sum]
        simpa using ha
      · intro q hq
        obtain ⟨q', hq', rfl⟩ := List.mem_map.1 hq
        show Verif.Task.layerOf q'.1 = _
        rw [hc q' (List.mem_cons_of_mem _ hq'), hc p (by simp)]
  rw [hr, List.map_cons]
  constructor
  · intro h
    by_contra hlt
    have h1 := h ⟨0, by omega⟩ ⟨first, by omega⟩
    rw [one _ (by omega), one _ (by omega)] at h1
    have h2 := h1.2 rfl
    simp only at h2
    rw [blk_cons_lt hpos, blk_cons_ge (Nat.le_refl first)] at h2
    exact absurd h2 (by omega)
  · intro h a b
    rw [one a.1 a.2, one b.1 b.2, blk_cons_lt (Nat.lt_of_lt_of_le a.2 h), blk_cons_lt (Nat.lt_of_lt_of_le b.2 h)]

/-! ## Examples -/

/-- A small network: two linear layers with weights and biases. -/
def exampleNet : List (List Char × ℕ) :=
  [("a.weight".toList, 2), ("a.bias".toList, 1), ("b.weight".toList, 4), ("b.bias".toList, 2)]

example : runs (modules exampleNet) = [("a".toList, 3), ("b".toList, 6)] := by decide +kernel
example : blockSizes exampleNet = [3, 6] := by decide +kernel

/-- The first layer: the selection is the beginning of the list. -/
example : exampleNet = Verif.Task.selectParams exampleNet (.names ["a.weight".toList, "a.bias".toList]) ++
    [("b.weight".toList, 4), ("b.bias".toList, 2)] := by decide +kernel

/-- The second layer has six entries, more than the first: not as meant. -/
example : ¬AsMeant (1 / 10) 1 exampleNet (.names ["b.weight".toList, "b.bias".toList]) := by
  rw [C232_one_layer (1 / 10) 1 (by norm_num) exampleNet (by decide +kernel) _ (by decide +kernel) "b".toList (by decide +kernel)
    "a".toList 3 [("b".toList, 6)] (by decide +kernel) (by norm_num)]
  decide +kernel

/-- Its bias alone has two. -/
example : AsMeant (1 / 10) 1 exampleNet (.names ["b.bias".toList]) := by
  rw [C232_one_layer (1 / 10) 1 (by norm_num) exampleNet (by decide +kernel) _ (by decide +kernel) "b".toList (by decide +kernel)
    "a".toList 3 [("b".toList, 6)] (by decide +kernel) (by norm_num)]
  decide +kernel

end Verif.DataInf
