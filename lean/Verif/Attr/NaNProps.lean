import Verif.Attr.NaNModel
import Mathlib.Algebra.BigOperators.Fin
import Mathlib.Algebra.CharZero.Defs
import Mathlib.Tactic.FieldSimp
import Mathlib.Tactic.Ring
import Mathlib.Data.Fin.VecNotation
import Mathlib.Data.Rat.Defs
import Mathlib.Tactic.NormNum

/-! # C231: samples whose gradient is not a number -/

namespace Verif.NaN

variable {F : Type} (A : Arith F)

/-! ## Specification -/

/-- Some entry is NaN. -/
def Bad (v : List F) : Prop := ∃ x ∈ v, A.isNaN x

/-- Every entry is NaN. -/
def Lost (v : List F) : Prop := ∀ x ∈ v, A.isNaN x

/-- A Hessian of dimension `p`. -/
def Square (p : ℕ) (H : List (List F)) : Prop := H.length = p ∧ ∀ r ∈ H, r.length = p

/-- Some entry of a Hessian is NaN. -/
def BadH (H : List (List F)) : Prop := ∃ r ∈ H, Bad A r

/-! ## Lemmas -/

theorem foldl_nan (l : List F) (x : F) (h : A.isNaN x ∨ Bad A l) : A.isNaN (l.foldl A.add x) := by
  induction l generalizing x with
  | nil =>
    rcases h with h | ⟨y, hy, -⟩
    · exact h
    · simp at hy
  | cons a l ih =>
    rw [List.foldl_cons]
    apply ih
    rcases h with h | ⟨y, hy, hn⟩
    · exact Or.inl (A.add_left _ _ h)
    · rcases List.mem_cons.1 hy with rfl | hy
      · exact Or.inl (A.add_right _ _ hn)
      · exact Or.inr ⟨y, hy, hn⟩

theorem bad_get {v : List F} (h : Bad A v) : ∃ (k : ℕ) (x : F), v[k]? = some x ∧ A.isNaN x := by
  obtain ⟨x, hx, hn⟩ := h
  obtain ⟨k, hk⟩ := List.mem_iff_getElem?.1 hx
  exact ⟨k, x, hk, hn⟩

theorem bad_of_get {v : List F} {k : ℕ} {x : F} (h : v[k]? = some x) (hn : A.isNaN x) : Bad A v :=
  ⟨x, List.mem_of_getElem? h, hn⟩

theorem getElem?_of_length {α : Type} {a : List α} {β : Type} {b : List β} (h : a.length = b.length) {k : ℕ} {x : β}
    (hb : b[k]? = some x) : ∃ y, a[k]? = some y := by
  have : k < b.length := by
    by_contra hc
    rw [List.getElem?_eq_none (by omega)] at hb
    simp at hb
  exact ⟨a[k]'(by omega), List.getElem?_eq_getElem (by omega)⟩

theorem dot_left (a b : List F) (h : a.length = b.length) (hb : Bad A a) : A.isNaN (dot A a b) := by
  obtain ⟨k, x, hk, hn⟩ := bad_get A hb
  obtain ⟨y, hy⟩ := getElem?_of_length h.symm hk
  apply foldl_nan
  right
  refine bad_of_get A (k := k) (x := A.mul x y) ?_ (A.mul_left _ _ hn)
  rw [List.getElem?_zipWith, hk, hy]

theorem dot_right (a b : List F) (h : a.length = b.length) (hb : Bad A b) : A.isNaN (dot A a b) := by
  obtain ⟨k, x, hk, hn⟩ := bad_get A hb
  obtain ⟨y, hy⟩ := getElem?_of_length h hk
  apply foldl_nan
  right
  refine bad_of_get A (k := k) (x := A.mul y x) ?_ (A.mul_right _ _ hn)
  rw [List.getElem?_zipWith, hy, hk]

theorem zip_left (f : F → F → F) (hf : ∀ a b, A.isNaN a → A.isNaN (f a b)) (a b : List F) (h : a.length = b.length)
    (hb : Bad A a) : Bad A (List.zipWith f a b) := by
  obtain ⟨k, x, hk, hn⟩ := bad_get A hb
  obtain ⟨y, hy⟩ := getElem?_of_length h.symm hk
  exact bad_of_get A (k := k) (x := f x y) (by rw [List.getElem?_zipWith, hk, hy]) (hf _ _ hn)

theorem zip_right (f : F → F → F) (hf : ∀ a b, A.isNaN b → A.isNaN (f a b)) (a b : List F) (h : a.length = b.length)
    (hb : Bad A b) : Bad A (List.zipWith f a b) := by
  obtain ⟨k, x, hk, hn⟩ := bad_get A hb
  obtain ⟨y, hy⟩ := getElem?_of_length h hk
  exact bad_of_get A (k := k) (x := f y x) (by rw [List.getElem?_zipWith, hy, hk]) (hf _ _ hn)

theorem zip_lost_left {B : Type} (f : F → B → F) (hf : ∀ a b, A.isNaN a → A.isNaN (f a b)) (a : List F) (b : List B) (h : Lost A a) :
    Lost A (List.zipWith f a b) := by
  intro x hx
  obtain ⟨k, hk⟩ := List.mem_iff_getElem?.1 hx
  rw [List.getElem?_zipWith] at hk
  cases ha : a[k]? with
  | none => simp [ha] at hk
  | some y =>
    cases hb : b[k]? with
    | none => simp [ha, hb] at hk
    | some z =>
      simp only [ha, hb, Option.some.injEq] at hk
      subst hk
      exact hf _ _ (h y (List.mem_of_getElem? ha))

theorem zip_lost_right {B : Type} (f : B → F → F) (hf : ∀ a b, A.isNaN b → A.isNaN (f a b)) (a : List B) (b : List F) (h : Lost A b) :
    Lost A (List.zipWith f a b) := by
  intro x hx
  obtain ⟨k, hk⟩ := List.mem_iff_getElem?.1 hx
  rw [List.getElem?_zipWith] at hk
  cases ha : a[k]? with
  | none => simp [ha] at hk
  | some y =>
    cases hb : b[k]? with
    | none => simp [ha, hb] at hk
    | some z =>
      simp only [ha, hb, Option.some.injEq] at hk
      subst hk
      exact hf _ _ (h z (List.mem_of_getElem? hb))

theorem smul_lost (x : F) (hx : A.isNaN x) (a : List F) : Lost A (smul A x a) := by
  intro y hy
  obtain ⟨z, -, rfl⟩ := List.mem_map.1 hy
  exact A.mul_left _ _ hx

theorem smul_length (x : F) (a : List F) : (smul A x a).length = a.length := List.length_map _

theorem map_lost (f : F → F) (hf : ∀ a, A.isNaN a → A.isNaN (f a)) (a : List F) (h : Lost A a) : Lost A (a.map f) := by
  intro y hy
  obtain ⟨z, hz, rfl⟩ := List.mem_map.1 hy
  exact hf _ (h z hz)

theorem map_bad (f : F → F) (hf : ∀ a, A.isNaN a → A.isNaN (f a)) (a : List F) (h : Bad A a) : Bad A (a.map f) := by
  obtain ⟨x, hx, hn⟩ := h
  exact ⟨f x, List.mem_map_of_mem hx, hf _ hn⟩

theorem lost_bad {v : List F} (h : Lost A v) (hv : v ≠ []) : Bad A v := by
  cases v with
  | nil => exact absurd rfl hv
  | cons x v => exact ⟨x, by simp, h x (by simp)⟩

theorem addV_length (a b : List F) (h : a.length = b.length) : (addV A a b).length = a.length := by
  simp [addV, h]

theorem sumV_length (l : List (List F)) (s : List F) (h : ∀ a ∈ l, a.length = s.length) :
    (l.foldl (addV A) s).length = s.length := by
  induction l generalizing s with
  | nil => rfl
  | cons a l ih =>
    have ha := addV_length A s a (h a (by simp)).symm
    rw [List.foldl_cons, ih _ fun b hb => by rw [ha]; exact h b (List.mem_cons_of_mem _ hb), ha]

theorem sumV_lost (l : List (List F)) (s : List F) (h : Lost A s ∨ ∃ a ∈ l, Lost A a) : Lost A (l.foldl (addV A) s) := by
  induction l generalizing s with
  | nil =>
    rcases h with h | ⟨a, ha, -⟩
    · exact h
    · simp at ha
  | cons a l ih =>
    rw [List.foldl_cons]
    apply ih
    rcases h with h | ⟨b, hb, hn⟩
    · exact Or.inl (zip_lost_left A _ A.add_left _ _ h)
    · rcases List.mem_cons.1 hb with rfl | hb
      · exact Or.inl (zip_lost_right A _ A.add_right _ _ hn)
      · exact Or.inr ⟨b, hb, hn⟩

theorem sumV_bad (l : List (List F)) (s : List F) (hl : ∀ a ∈ l, a.length = s.length) (h : Bad A s ∨ ∃ a ∈ l, Bad A a) :
    Bad A (l.foldl (addV A) s) := by
  induction l generalizing s with
  | nil =>
    rcases h with h | ⟨a, ha, -⟩
    · exact h
    · simp at ha
  | cons a l ih =>
    have h0 := (hl a (by simp)).symm
    have ha := addV_length A s a h0
    rw [List.foldl_cons]
    apply ih _ fun b hb => by rw [ha]; exact hl b (List.mem_cons_of_mem _ hb)
    rcases h with h | ⟨b, hb, hn⟩
    · exact Or.inl (zip_left A _ A.add_left _ _ h0 h)
    · rcases List.mem_cons.1 hb with rfl | hb
      · exact Or.inl (zip_right A _ A.add_right _ _ h0 hn)
      · exact Or.inr ⟨b, hb, hn⟩

theorem hvp_length (reg : F) {p : ℕ} {H : List (List F)} (hH : Square p H) {v : List F} (hv : v.length = p) :
    (hvp A reg H v).length = p := by simp [hvp, hH.1, hv]

theorem hvp_bad_vec (reg : F) {p : ℕ} {H : List (List F)} (hH : Square p H) {v : List F} (hv : v.length = p) (h : Bad A v) :
    Lost A (hvp A reg H v) := by
  intro x hx
  unfold hvp at hx
  obtain ⟨k, hk⟩ := List.mem_iff_getElem?.1 hx
  rw [List.getElem?_zipWith] at hk
  cases ha : H[k]? with
  | none => simp [ha] at hk
  | some r =>
    cases hb : v[k]? with
    | none => simp [ha, hb] at hk
    | some z =>
      simp only [ha, hb, Option.some.injEq] at hk
      subst hk
      exact A.add_left _ _ (dot_right A _ _ (by rw [hH.2 r (List.mem_of_getElem? ha), hv]) h)

theorem hvp_bad_mat (reg : F) {p : ℕ} {H : List (List F)} (hH : Square p H) {v : List F} (hv : v.length = p) (h : BadH A H) :
    Bad A (hvp A reg H v) := by
  obtain ⟨r, hr, hb⟩ := h
  obtain ⟨k, hk⟩ := List.mem_iff_getElem?.1 hr
  obtain ⟨x, hx⟩ := getElem?_of_length (a := v) (b := H) (by rw [hv, hH.1]) hk
  refine bad_of_get A (k := k) (x := A.add (dot A r v) (A.mul reg x)) ?_
    (A.add_left _ _ (dot_left A _ _ (by rw [hH.2 r hr, hv]) hb))
  unfold hvp
  rw [List.getElem?_zipWith, hk, hx]

theorem cg_step_length (reg : F) {p : ℕ} {H : List (List F)} (hH : Square p H) (s : List F × List F × List F)
    (h1 : s.1.length = p) (h2 : s.2.1.length = p) (h3 : s.2.2.length = p) :
    (cgStep A reg H s).1.length = p ∧ (cgStep A reg H s).2.1.length = p ∧ (cgStep A reg H s).2.2.length = p := by
  have h4 := hvp_length A reg hH h3
  simp only [cgStep, addV, List.length_zipWith, smul_length, h1, h2, h3, h4, Nat.min_self, and_self]

theorem cg_length (reg : F) {p : ℕ} {H : List (List F)} (hH : Square p H) (n : ℕ) (s : List F × List F × List F)
    (h1 : s.1.length = p) (h2 : s.2.1.length = p) (h3 : s.2.2.length = p) : ((cgStep A reg H)^[n] s).1.length = p := by
  induction n generalizing s with
  | zero => exact h1
  | succ n ih =>
    rw [Function.iterate_succ_apply]
    obtain ⟨a, b, c⟩ := cg_step_length A reg hH s h1 h2 h3
    exact ih _ a b c

theorem cg_lost (reg : F) (H : List (List F)) (n : ℕ) (s : List F × List F × List F) (h : Lost A s.1) :
    Lost A ((cgStep A reg H)^[n] s).1 := by
  induction n generalizing s with
  | zero => exact h
  | succ n ih =>
    rw [Function.iterate_succ_apply]
    exact ih _ (zip_lost_left A _ A.add_left _ _ h)

theorem entry_nan (ckpts : List (Ckpt F)) (i j : ℕ) (n : ℕ) (t : F)
    (h : A.isNaN t ∨ ∃ c ∈ ckpts, A.isNaN (dot A (c.train i) (c.trans (c.test j)))) :
    A.isNaN ((ckpts.zipIdx n).foldl (fun t c => A.div (A.add (A.mul t (A.ofNat c.2)) (dot A (c.1.train i) (c.1.trans (c.1.test j))))
      (A.ofNat (c.2 + 1))) t) := by
  induction ckpts generalizing n t with
  | nil =>
    rcases h with h | ⟨c, hc, -⟩
    · exact h
    · simp at hc
  | cons c cs ih =>
    rw [List.zipIdx_cons, List.foldl_cons]
    apply ih
    rcases h with h | ⟨d, hd, hn⟩
    · exact Or.inl (A.div_left _ _ (A.add_left _ _ (A.mul_left _ _ h)))
    · rcases List.mem_cons.1 hd with rfl | hd
      · exact Or.inl (A.div_left _ _ (A.add_right _ _ hn))
      · exact Or.inr ⟨d, hd, hn⟩

/-! ## Influence functions -/

/-- **C231** (CG). From one iteration on, a NaN anywhere in the Hessian of a batch or in the vector makes every entry of the result
NaN; without iterations the vector is returned. -/
theorem C231_cg (reg : F) {p : ℕ} {H : List (List F)} (hH : Square p H) {v : List F} (hv : v.length = p) :
    (∀ n, BadH A H ∨ Bad A v → Lost A (cg A reg (n + 1) H v)) ∧ cg A reg 0 H v = v := by
  refine ⟨?_, rfl⟩
  intro n h
  have hl := hvp_length A reg hH hv
  have hg : Bad A (List.zipWith A.sub v (hvp A reg H v)) := by
    rcases h with h | h
    · exact zip_right A _ A.sub_right _ _ (by rw [hv, hl]) (hvp_bad_mat A reg hH hv h)
    · exact zip_left A _ A.sub_left _ _ (by rw [hv, hl]) h
  have hgl : (List.zipWith A.sub v (hvp A reg H v)).length = p := by simp [hv, hl]
  unfold cg
  dsimp only
  rw [Function.iterate_succ_apply]
  apply cg_lost
  have hd : A.isNaN (dot A (List.zipWith A.sub v (hvp A reg H v)) (hvp A reg H (List.zipWith A.sub v (hvp A reg H v)))) :=
    dot_left A _ _ (by rw [hvp_length A reg hH hgl, hgl]) hg
  exact zip_lost_right A _ A.add_right _ _ (smul_lost A _ (A.div_right _ _ hd) _)

/-- **C231** (LiSSA). A NaN in the vector, or in the Hessian of a batch that was drawn, is in the result. -/
theorem C231_lissa (omd sc : F) {p : ℕ} (reps : List (List (List (List F)))) (hsq : ∀ d ∈ reps, ∀ H ∈ d, Square p H) {v : List F}
    (hv : v.length = p) (h : (∃ d ∈ reps, ∃ H ∈ d, BadH A H) ∨ (Bad A v ∧ reps ≠ [])) : Bad A (lissa A omd sc reps v) := by
  have one : ∀ d : List (List (List F)), (∀ H ∈ d, Square p H) → ∀ cur : List F, cur.length = p →
      (Bad A v ∧ Bad A cur ∨ Bad A cur ∨ ∃ H ∈ d, BadH A H) →
      (d.foldl (fun cur H => List.zipWith A.sub (addV A v (smul A omd cur))
        ((hvp A A.zero H cur).map fun x => A.div x sc)) cur).length = p ∧
      Bad A (d.foldl (fun cur H => List.zipWith A.sub (addV A v (smul A omd cur))
        ((hvp A A.zero H cur).map fun x => A.div x sc)) cur) := by
    intro d
    induction d with
    | nil =>
      intro _ cur hc h
      rcases h with h | h | ⟨H, hH, -⟩
      · exact ⟨hc, h.2⟩
      · exact ⟨hc, h⟩
      · simp at hH
    | cons H d ih =>
      intro hsq cur hc h
      rw [List.foldl_cons]
      have hl := hvp_length A A.zero (hsq H (by simp)) hc
      have hl1 : (addV A v (smul A omd cur)).length = p := by simp [addV, smul_length, hv, hc]
      have hl2 : ((hvp A A.zero H cur).map fun x => A.div x sc).length = p := by simp [hl]
      apply ih (fun H hH => hsq H (List.mem_cons_of_mem _ hH)) _ (by simp [hl1, hl2])
      have hcur : Bad A cur → Bad A (List.zipWith A.sub (addV A v (smul A omd cur)) ((hvp A A.zero H cur).map fun x => A.div x sc)) := by
        intro hb
        refine zip_left A _ A.sub_left _ _ (by rw [hl1, hl2]) ?_
        exact zip_right A _ A.add_right _ _ (by rw [smul_length, hv, hc]) (map_bad A _ (fun a ha => A.mul_right _ _ ha) _ hb)
      rcases h with h | h | ⟨H', hH', hb⟩
      · exact Or.inr (Or.inl (hcur h.2))
      · exact Or.inr (Or.inl (hcur h))
      · rcases List.mem_cons.1 hH' with rfl | hH'
        · refine Or.inr (Or.inl (zip_right A _ A.sub_right _ _ (by rw [hl1, hl2]) ?_))
          exact map_bad A _ (fun a ha => A.div_left _ _ ha) _ (hvp_bad_mat A A.zero (hsq H' (by simp)) hc hb)
        · exact Or.inr (Or.inr ⟨H', hH', hb⟩)
  have len : ∀ d : List (List (List F)), (∀ H ∈ d, Square p H) → ∀ cur : List F, cur.length = p →
      (d.foldl (fun cur H => List.zipWith A.sub (addV A v (smul A omd cur))
        ((hvp A A.zero H cur).map fun x => A.div x sc)) cur).length = p := by
    intro d
    induction d with
    | nil => exact fun _ cur hc => hc
    | cons H d ih =>
      intro hsq cur hc
      rw [List.foldl_cons]
      refine ih (fun H hH => hsq H (List.mem_cons_of_mem _ hH)) _ ?_
      simp [addV, smul_length, hv, hc, hvp_length A A.zero (hsq H (by simp)) hc]
  unfold lissa
  apply map_bad A _ fun a ha => A.div_left _ _ ha
  apply sumV_bad
  · intro a ha
    obtain ⟨d, hd, rfl⟩ := List.mem_map.1 ha
    rw [List.length_replicate, hv]
    unfold lissaRep
    rw [List.length_map]
    exact len d (hsq d hd) v hv
  · right
    rcases h with ⟨d, hd, h⟩ | ⟨hb, hne⟩
    · exact ⟨_, List.mem_map_of_mem hd, map_bad A _ (fun a ha => A.div_left _ _ ha) _ (one d (hsq d hd) v hv (Or.inr (Or.inr h))).2⟩
    · obtain ⟨d, hd⟩ := List.exists_mem_of_ne_nil _ hne
      exact ⟨_, List.mem_map_of_mem hd, map_bad A _ (fun a ha => A.div_left _ _ ha) _ (one d (hsq d hd) v hv (Or.inr (Or.inl hb))).2⟩

theorem dataInfOne_length (reg : F) (v g : List F) (h : v.length = g.length) : (dataInfOne A reg v g).length = v.length := by
  simp [dataInfOne, smul_length, h]

theorem dataInfLayer_length (reg : F) (gs : List (List F)) (v : List F) (h : ∀ g ∈ gs, g.length = v.length) :
    (dataInfLayer A reg gs v).length = v.length := by
  unfold dataInfLayer
  rw [List.length_map, sumV_length, List.length_replicate]
  intro a ha
  obtain ⟨g, hg, rfl⟩ := List.mem_map.1 ha
  rw [List.length_replicate, dataInfOne_length A reg v g (h g hg).symm]

theorem dataInfOne_lost (reg : F) (v g : List F) (h : v.length = g.length) (hb : Bad A v ∨ Bad A g) :
    Lost A (dataInfOne A reg v g) := by
  have hd : A.isNaN (dot A v g) := by
    rcases hb with hb | hb
    · exact dot_left A _ _ h hb
    · exact dot_right A _ _ h hb
  exact map_lost A _ (fun a ha => A.div_left _ _ ha) _
    (zip_lost_right A _ A.sub_right _ _ (smul_lost A _ (A.div_left _ _ hd) _))

/-- **C231** (DataInf, one layer). A NaN in the layer of one cached training gradient, or of the test gradient, makes the whole layer
of the result NaN. -/
theorem C231_layer (reg : F) (gs : List (List F)) (v : List F) (hl : ∀ g ∈ gs, g.length = v.length)
    (h : (∃ g ∈ gs, Bad A g) ∨ (Bad A v ∧ gs ≠ [])) : Lost A (dataInfLayer A reg gs v) := by
  apply map_lost A _ fun a ha => A.div_left _ _ ha
  apply sumV_lost
  right
  rcases h with ⟨g, hg, hb⟩ | ⟨hb, hne⟩
  · exact ⟨_, List.mem_map_of_mem hg, dataInfOne_lost A reg v g (hl g hg).symm (Or.inr hb)⟩
  · obtain ⟨g, hg⟩ := List.exists_mem_of_ne_nil _ hne
    exact ⟨_, List.mem_map_of_mem hg, dataInfOne_lost A reg v g (hl g hg).symm (Or.inl hb)⟩

theorem split_length (sizes : List ℕ) (v : List F) : (split sizes v).length = sizes.length := by
  induction sizes generalizing v with
  | nil => rfl
  | cons n ns ih => simp [split, ih]

theorem split_flatten (sizes : List ℕ) (v : List F) (h : v.length = sizes.sum) : (split sizes v).flatten = v := by
  induction sizes generalizing v with
  | nil => simpa [split] using (List.length_eq_zero_iff.1 (by simpa using h)).symm
  | cons n ns ih =>
    rw [split, List.flatten_cons, ih, List.take_append_drop]
    simp only [List.length_drop, List.sum_cons] at *
    omega

theorem split_get_length (sizes : List ℕ) (v w : List F) (h : v.length = w.length) (l : ℕ) :
    ((split sizes v).getD l []).length = ((split sizes w).getD l []).length := by
  induction sizes generalizing v w l with
  | nil => simp [split]
  | cons n ns ih =>
    cases l with
    | zero => simp [split, h]
    | succ l => simpa [split] using ih (v.drop n) (w.drop n) (by simp [h]) l

theorem bad_split (sizes : List ℕ) (v : List F) (h : v.length = sizes.sum) (hb : Bad A v) :
    ∃ l < sizes.length, Bad A ((split sizes v).getD l []) := by
  rw [← split_flatten sizes v h] at hb
  obtain ⟨x, hx, hn⟩ := hb
  obtain ⟨a, ha, hxa⟩ := List.mem_flatten.1 hx
  obtain ⟨l, hl⟩ := List.mem_iff_getElem?.1 ha
  have hlt : l < (split sizes v).length := by
    by_contra hc
    rw [List.getElem?_eq_none (by omega)] at hl
    simp at hl
  refine ⟨l, by rwa [split_length] at hlt, x, ?_, hn⟩
  rw [List.getD_eq_getElem?_getD, hl]
  exact hxa

theorem dataInf_get (reg : F) (sizes : List ℕ) (cached : List (List F)) (v : List F) (l : ℕ) (hl : l < sizes.length) :
    dataInfLayer A reg (cached.map fun g => (split sizes g).getD l []) ((split sizes v).getD l []) ∈
      List.zipWith (fun l vl => dataInfLayer A reg (cached.map fun g => (split sizes g).getD l []) vl)
        (List.range sizes.length) (split sizes v) := by
  apply List.mem_of_getElem? (i := l)
  rw [List.getElem?_zipWith, List.getElem?_range hl]
  have : l < (split sizes v).length := by rwa [split_length]
  rw [List.getElem?_eq_getElem this]
  simp [List.getD_eq_getElem?_getD, List.getElem?_eq_getElem this]

theorem zipWith_flatten_length {α : Type} (f : α → List F → List F) (as : List α) (vs : List (List F)) (h : as.length = vs.length)
    (hf : ∀ (k : ℕ) (a : α) (v : List F), as[k]? = some a → vs[k]? = some v → (f a v).length = v.length) :
    (List.zipWith f as vs).flatten.length = vs.flatten.length := by
  induction as generalizing vs with
  | nil =>
    cases vs with
    | nil => rfl
    | cons v vs => simp at h
  | cons a as ih =>
    cases vs with
    | nil => simp at h
    | cons v vs =>
      rw [List.zipWith_cons_cons, List.flatten_cons, List.flatten_cons, List.length_append, List.length_append,
        ih vs (by simpa using h) fun k a v ha hv => hf (k + 1) a v (by simpa using ha) (by simpa using hv),
        hf 0 a v (by simp) (by simp)]

theorem dataInf_length (reg : F) (sizes : List ℕ) (cached : List (List F)) (v : List F) (hv : v.length = sizes.sum)
    (hc : ∀ g ∈ cached, g.length = v.length) : (dataInf A reg sizes cached v).length = v.length := by
  unfold dataInf
  rw [zipWith_flatten_length, split_flatten sizes v hv]
  · rw [List.length_range, split_length]
  · intro k a w ha hw
    apply dataInfLayer_length
    intro g hg
    obtain ⟨g', hg', rfl⟩ := List.mem_map.1 hg
    have hk : k < sizes.length := by
      by_contra hcon
      rw [List.getElem?_eq_none (by simpa using Nat.le_of_not_lt hcon)] at ha
      simp at ha
    rw [List.getElem?_range hk, Option.some.injEq] at ha
    subst ha
    rw [split_get_length sizes g' v (hc g' hg'), List.getD_eq_getElem?_getD, hw]
    rfl

/-- **C231** (DataInf). A NaN in one cached training gradient makes every transformed test gradient contain NaN. -/
theorem C231_dataInf (reg : F) (sizes : List ℕ) (cached : List (List F)) (v : List F) (hv : v.length = sizes.sum)
    (hc : ∀ g ∈ cached, g.length = v.length) (h : (∃ g ∈ cached, Bad A g) ∨ (Bad A v ∧ cached ≠ [])) :
    Bad A (dataInf A reg sizes cached v) := by
  have key : ∀ l < sizes.length, ((∃ g ∈ cached, Bad A ((split sizes g).getD l [])) ∨
      (Bad A ((split sizes v).getD l []) ∧ cached ≠ [])) → Bad A (dataInf A reg sizes cached v) := by
    intro l hl hb
    have hlen : ∀ g ∈ cached.map (fun g => (split sizes g).getD l []), g.length = ((split sizes v).getD l []).length := by
      intro g hg
      obtain ⟨g', hg', rfl⟩ := List.mem_map.1 hg
      exact split_get_length sizes g' v (hc g' hg') l
    have hlost : Lost A (dataInfLayer A reg (cached.map fun g => (split sizes g).getD l []) ((split sizes v).getD l [])) := by
      apply C231_layer A reg _ _ hlen
      rcases hb with ⟨g, hg, hb⟩ | ⟨hb, hne⟩
      · exact Or.inl ⟨_, List.mem_map_of_mem hg, hb⟩
      · exact Or.inr ⟨hb, by simpa using hne⟩
    have hne : dataInfLayer A reg (cached.map fun g => (split sizes g).getD l []) ((split sizes v).getD l []) ≠ [] := by
      intro he
      have h0 := dataInfLayer_length A reg _ _ hlen
      rw [he] at h0
      have h1 : (split sizes v).getD l [] = [] := List.length_eq_zero_iff.1 h0.symm
      rcases hb with ⟨g, hg, x, hx, -⟩ | ⟨⟨x, hx, -⟩, -⟩
      · have h2 := split_get_length sizes g v (hc g hg) l
        rw [h1] at h2
        rw [List.length_eq_zero_iff.1 h2] at hx
        simp at hx
      · rw [h1] at hx
        simp at hx
    obtain ⟨x, hx, hn⟩ := lost_bad A hlost hne
    exact ⟨x, List.mem_flatten.2 ⟨_, dataInf_get A reg sizes cached v l hl, hx⟩, hn⟩
  rcases h with ⟨g, hg, hb⟩ | ⟨hb, hne⟩
  · obtain ⟨l, hl, hb'⟩ := bad_split A sizes g (by rw [hc g hg, hv]) hb
    exact key l hl (Or.inl ⟨g, hg, hb'⟩)
  · obtain ⟨l, hl, hb'⟩ := bad_split A sizes v hv hb
    exact key l hl (Or.inr ⟨hb', hne⟩)

/-- The batches' results added. -/
theorem transCG_bad (reg : F) (n : ℕ) {p : ℕ} (hp : p ≠ 0) (batches : List (List (List F))) (hsq : ∀ H ∈ batches, Square p H) {v : List F}
    (hv : v.length = p) (h : (∃ H ∈ batches, BadH A H) ∨ (Bad A v ∧ batches ≠ [])) :
    (transCG A reg (n + 1) batches v).length = p ∧ Bad A (transCG A reg (n + 1) batches v) := by
  have hlen : (transCG A reg (n + 1) batches v).length = p := by
    unfold transCG
    rw [sumV_length, List.length_replicate, hv]
    intro a ha
    obtain ⟨H, hH, rfl⟩ := List.mem_map.1 ha
    rw [List.length_replicate, hv]
    have hl := hvp_length A reg (hsq H hH) hv
    exact cg_length A reg (hsq H hH) (n + 1) _ hv (by simp [hv, hl]) (by simp [hv, hl])
  refine ⟨hlen, lost_bad A ?_ ?_⟩
  · apply sumV_lost
    right
    rcases h with ⟨H, hH, hb⟩ | ⟨hb, hne⟩
    · exact ⟨_, List.mem_map_of_mem hH, (C231_cg A reg (hsq H hH) hv).1 n (Or.inl hb)⟩
    · obtain ⟨H, hH⟩ := List.exists_mem_of_ne_nil _ hne
      exact ⟨_, List.mem_map_of_mem hH, (C231_cg A reg (hsq H hH) hv).1 n (Or.inr hb)⟩
  · intro he
    rw [he] at hlen
    exact hp hlen.symm

/-- **C231** (a bad training set, CG). One batch of the full training set with a NaN in its Hessian, for one checkpoint, makes every
score NaN. -/
theorem C231_all_cg (reg : F) (n : ℕ) {p : ℕ} (hp : p ≠ 0) (ckpts : List (Ckpt F)) (c : Ckpt F) (hc : c ∈ ckpts)
    (batches : List (List (List F))) (ht : c.trans = transCG A reg (n + 1) batches) (hsq : ∀ H ∈ batches, Square p H)
    (hb : ∃ H ∈ batches, BadH A H) (i j : ℕ) (hi : (c.train i).length = p) (hj : (c.test j).length = p) :
    A.isNaN (entry A ckpts i j) := by
  refine entry_nan A ckpts i j 0 _ (Or.inr ⟨c, hc, ?_⟩)
  rw [ht]
  obtain ⟨h1, h2⟩ := transCG_bad A reg n hp batches hsq hj (Or.inl hb)
  exact dot_right A _ _ (by rw [hi, h1]) h2

/-- **C231** (a bad training set, DataInf). -/
theorem C231_all_dataInf (reg : F) (sizes : List ℕ) (ckpts : List (Ckpt F)) (c : Ckpt F) (hc : c ∈ ckpts) (cached : List (List F))
    (ht : c.trans = dataInf A reg sizes cached) (hl : ∀ g ∈ cached, g.length = sizes.sum) (hb : ∃ g ∈ cached, Bad A g) (i j : ℕ)
    (hi : (c.train i).length = sizes.sum) (hj : (c.test j).length = sizes.sum) : A.isNaN (entry A ckpts i j) := by
  refine entry_nan A ckpts i j 0 _ (Or.inr ⟨c, hc, ?_⟩)
  rw [ht]
  have hl' : ∀ g ∈ cached, g.length = (c.test j).length := fun g hg => by rw [hl g hg, hj]
  exact dot_right A _ _ (by rw [dataInf_length A reg sizes cached _ hj hl', hi, hj])
    (C231_dataInf A reg sizes cached _ hj hl' (Or.inl hb))

/-- **C231** (one bad sample). A training sample with NaN in its gradient has NaN scores; so has a test sample whose transformed gradient
contains NaN. -/
theorem C231_own (ckpts : List (Ckpt F)) (i j : ℕ) (h : ∃ c ∈ ckpts, (c.train i).length = (c.trans (c.test j)).length ∧
    (Bad A (c.train i) ∨ Bad A (c.trans (c.test j)))) : A.isNaN (entry A ckpts i j) := by
  obtain ⟨c, hc, hl, hb⟩ := h
  refine entry_nan A ckpts i j 0 _ (Or.inr ⟨c, hc, ?_⟩)
  rcases hb with hb | hb
  · exact dot_left A _ _ hl hb
  · exact dot_right A _ _ hl hb

/-- **C231** (other samples). The score of a pair depends on the gradients of the pair and the transformation only, whatever the gradients
of the other samples are. -/
theorem C231_others (ckpts : List (Ckpt F)) (train' test' : Ckpt F → ℕ → List F) (i j : ℕ)
    (hi : ∀ c ∈ ckpts, train' c i = c.train i) (hj : ∀ c ∈ ckpts, test' c j = c.test j) :
    entry A (ckpts.map fun c => ⟨train' c, test' c, c.trans⟩) i j = entry A ckpts i j := by
  unfold entry
  suffices h : ∀ (n : ℕ) (t : F), ((ckpts.map fun c => (⟨train' c, test' c, c.trans⟩ : Ckpt F)).zipIdx n).foldl
      (fun t c => A.div (A.add (A.mul t (A.ofNat c.2)) (dot A (c.1.train i) (c.1.trans (c.1.test j)))) (A.ofNat (c.2 + 1))) t =
      (ckpts.zipIdx n).foldl
      (fun t c => A.div (A.add (A.mul t (A.ofNat c.2)) (dot A (c.1.train i) (c.1.trans (c.1.test j)))) (A.ofNat (c.2 + 1))) t from h 0 _
  induction ckpts with
  | nil => exact fun _ _ => rfl
  | cons c cs ih =>
    intro n t
    rw [List.map_cons, List.zipIdx_cons, List.zipIdx_cons, List.foldl_cons, List.foldl_cons]
    dsimp only
    rw [hi c (by simp), hj c (by simp)]
    exact ih (fun c hc => hi c (List.mem_cons_of_mem _ hc)) (fun c hc => hj c (List.mem_cons_of_mem _ hc)) _ _

/-! ## TracIn and TRAK -/

variable {K : Type} [Field K]

/-- Specification: a gradient with its NaN entries set to zero. -/
def zeroed {p : ℕ} (g : Fin p → Option K) : Fin p → K := fun k => (g k).getD 0

omit [Field K] in
theorem map₂_some (f : K → K → K) (a b : K) : Option.map₂ f (some a) (some b) = some (f a b) := rfl

theorem clean_zeroed {p : ℕ} (g : Fin p → Option K) : (fun k => clean (g k)) = zeroed g := by
  funext k
  unfold clean zeroed
  cases g k <;> rfl

theorem odot_some {q : ℕ} (a b : Fin q → K) : odot (fun k => some (a k)) (fun k => some (b k)) = some (∑ k, a k * b k) := by
  unfold odot
  simp only [map₂_some]
  have : ∀ (l : List (Fin q)) (s : K), (l.map fun k => some (a k * b k)).foldl (Option.map₂ (· + ·)) (some s) =
      some (s + (l.map fun k => a k * b k).sum) := by
    intro l
    induction l with
    | nil => intro s; simp
    | cons k l ih =>
      intro s
      rw [List.map_cons, List.foldl_cons, map₂_some, ih, List.map_cons, List.sum_cons, add_assoc]
  rw [this, zero_add, ← List.ofFn_eq_map, List.sum_ofFn]

/-- **C231** (TracIn). No score is NaN: the score is that of the gradients with NaN replaced by zero. -/
theorem C231_tracin {p q : ℕ} (scale : (Fin q → K) → K) (ckpts : List (TCkpt K p q)) (i j : ℕ) :
    tracin scale ckpts i j = some ((ckpts.map fun c =>
      (∑ k, c.proj (zeroed (c.train i)) k / scale (c.proj (zeroed (c.train i))) *
        (c.proj (zeroed (c.test j)) k / scale (c.proj (zeroed (c.test j))))) * c.weight).sum) := by
  unfold tracin
  simp only [clean_zeroed, odot_some, map₂_some]
  suffices h : ∀ s : K, ckpts.foldl (fun t c => Option.map₂ (· + ·) t (some ((∑ k, c.proj (zeroed (c.train i)) k /
      scale (c.proj (zeroed (c.train i))) * (c.proj (zeroed (c.test j)) k / scale (c.proj (zeroed (c.test j))))) * c.weight)))
      (some s) = some (s + (ckpts.map fun c => (∑ k, c.proj (zeroed (c.train i)) k / scale (c.proj (zeroed (c.train i))) *
        (c.proj (zeroed (c.test j)) k / scale (c.proj (zeroed (c.test j))))) * c.weight).sum) by
    rw [h, zero_add]
  induction ckpts with
  | nil => intro s; simp
  | cons c cs ih =>
    intro s
    rw [List.foldl_cons, map₂_some, ih, List.map_cons, List.sum_cons, add_assoc]

/-- **C231** (TracIn, a lost sample). A training sample whose gradients are all NaN gets the score zero with every test sample. -/
theorem C231_tracin_zero {p q : ℕ} (scale : (Fin q → K) → K) (ckpts : List (TCkpt K p q)) (hP : ∀ c ∈ ckpts, c.proj 0 = 0) (i : ℕ)
    (h : ∀ c ∈ ckpts, ∀ k, c.train i k = none) (j : ℕ) : tracin scale ckpts i j = some 0 := by
  rw [C231_tracin]
  congr 1
  apply List.sum_eq_zero
  intro x hx
  obtain ⟨c, hc, rfl⟩ := List.mem_map.1 hx
  have : zeroed (c.train i) = 0 := by
    funext k
    simp [zeroed, h c hc k]
  rw [this, hP c hc]
  simp

theorem trak_mean {n p q : ℕ} [CharZero K] (ns reg : K) (i : Fin n) (j : ℕ) (ckpts : List (KCkpt K n p q)) :
    (ckpts.zipIdx.foldl (trakStep ns reg i j) (0, some 0)).1 * (ckpts.length : K) = (ckpts.map fun c => trakRow ns reg c j i).sum ∧
    ((∀ c ∈ ckpts, c.Q i ≠ none) → ∃ x, (ckpts.zipIdx.foldl (trakStep ns reg i j) (0, some 0)).2 = some x ∧
      x * (ckpts.length : K) = (ckpts.map fun c => (c.Q i).getD 0).sum) ∧
    ((∃ c ∈ ckpts, c.Q i = none) → (ckpts.zipIdx.foldl (trakStep ns reg i j) (0, some 0)).2 = none) := by
  induction ckpts using List.reverseRecOn with
  | nil => simp
  | append_singleton cs c ih =>
    obtain ⟨h1, h2, h3⟩ := ih
    have e : ((cs ++ [c]).zipIdx.foldl (trakStep ns reg i j) (0, some 0)) =
        trakStep ns reg i j (cs.zipIdx.foldl (trakStep ns reg i j) (0, some 0)) (c, cs.length) := by
      rw [List.zipIdx_append, List.foldl_append]
      simp
    rw [e]
    generalize cs.zipIdx.foldl (trakStep ns reg i j) (0, some 0) = s at h1 h2 h3
    have hne : ((cs.length + 1 : ℕ) : K) ≠ 0 := Nat.cast_ne_zero.2 (Nat.succ_ne_zero _)
    refine ⟨?_, ?_, ?_⟩
    · simp only [trakStep, List.length_append, List.length_singleton, List.map_append, List.map_cons, List.map_nil,
        List.sum_append, List.sum_singleton]
      rw [div_mul_cancel₀ _ hne, h1]
    · intro hQ
      obtain ⟨x, hx, hs⟩ := h2 fun d hd => hQ d (by simp [hd])
      have hc := hQ c (by simp)
      cases hq : c.Q i with
      | none => exact absurd hq hc
      | some y =>
        refine ⟨(x * (cs.length : K) + y) / ((cs.length + 1 : ℕ) : K), ?_, ?_⟩
        · simp only [trakStep, hx, hq, map₂_some]
        · simp only [List.length_append, List.length_singleton, List.map_append, List.map_cons, List.map_nil,
            List.sum_append, List.sum_singleton, hq, Option.getD_some]
          rw [div_mul_cancel₀ _ hne, hs]
    · rintro ⟨d, hd, hn⟩
      simp only [trakStep]
      rcases List.mem_append.1 hd with hd | hd
      · rw [h3 ⟨d, hd, hn⟩]
        rfl
      · rw [List.mem_singleton.1 hd] at hn
        rw [hn, Option.map₂_none_right]
        rfl

theorem trak_value {n p q : ℕ} [CharZero K] (ns reg : K) (ckpts : List (KCkpt K n p q)) (hne : ckpts ≠ []) (i : Fin n) (j : ℕ) :
    (trak ns reg ckpts i j = none ↔ ∃ c ∈ ckpts, c.Q i = none) ∧
    ((∀ c ∈ ckpts, c.Q i ≠ none) → trak ns reg ckpts i j = some ((ckpts.map fun c => trakRow ns reg c j i).sum / ckpts.length *
      ((ckpts.map fun c => (c.Q i).getD 0).sum / ckpts.length))) := by
  obtain ⟨h1, h2, h3⟩ := trak_mean ns reg i j ckpts
  have hl : (ckpts.length : K) ≠ 0 := Nat.cast_ne_zero.2 fun h => hne (List.length_eq_zero_iff.1 h)
  have key : (∀ c ∈ ckpts, c.Q i ≠ none) → trak ns reg ckpts i j = some ((ckpts.map fun c => trakRow ns reg c j i).sum / ckpts.length *
      ((ckpts.map fun c => (c.Q i).getD 0).sum / ckpts.length)) := by
    intro hQ
    obtain ⟨x, hx, hs⟩ := h2 hQ
    unfold trak
    dsimp only
    rw [hx, map₂_some, ← h1, ← hs, mul_div_cancel_right₀ _ hl, mul_div_cancel_right₀ _ hl]
  refine ⟨⟨?_, ?_⟩, key⟩
  · intro hn
    by_contra hc
    push Not at hc
    rw [key hc] at hn
    simp at hn
  · intro h
    unfold trak
    dsimp only
    rw [h3 h]
    rfl

/-- The projected gradient of a sample, NaN entries counting as zero and the entries divided by the scale. -/
noncomputable def feature {n p q : ℕ} (ns : K) (c : KCkpt K n p q) (g : Fin p → Option K) : Fin q → K := c.proj fun k => zeroed g k / ns

/-- The Gram matrix of the training features, plus the regularisation. -/
noncomputable def gram {n p q : ℕ} (ns reg : K) (c : KCkpt K n p q) : Matrix (Fin q) (Fin q) K :=
  Matrix.of fun a b => (∑ i, feature ns c (c.train i) a * feature ns c (c.train i) b) + if a = b then reg else 0

/-- **C231** (TRAK). The scores of a training sample are NaN exactly if its correct probability is NaN at some checkpoint; gradients never
make them NaN. Otherwise the score is the product of two means over the checkpoints: of the form of the
inverse Gram matrix in the features of the two samples, and of one minus the probabilities. -/
theorem C231_trak {n p q : ℕ} [CharZero K] (ns reg : K) (ckpts : List (KCkpt K n p q)) (hne : ckpts ≠ []) (i : Fin n) (j : ℕ) :
    (trak ns reg ckpts i j = none ↔ ∃ c ∈ ckpts, c.Q i = none) ∧
    ((∀ c ∈ ckpts, c.Q i ≠ none) → trak ns reg ckpts i j = some ((ckpts.map fun c =>
        ∑ a, ∑ b, feature ns c (c.test j) a * ((gram ns reg c)⁻¹ : Matrix (Fin q) (Fin q) K) a b * feature ns c (c.train i) b).sum / ckpts.length *
      ((ckpts.map fun c => (c.Q i).getD 0).sum / ckpts.length))) := by
  obtain ⟨h1, h2⟩ := trak_value ns reg ckpts hne i j
  refine ⟨h1, fun hQ => ?_⟩
  rw [h2 hQ]
  have hrow : ∀ c : KCkpt K n p q, trakRow ns reg c j i =
      ∑ a, ∑ b, feature ns c (c.test j) a * ((gram ns reg c)⁻¹ : Matrix (Fin q) (Fin q) K) a b * feature ns c (c.train i) b := by
    intro c
    have hx : ∀ g : Fin p → Option K, (c.proj fun k => clean (g k) / ns) = feature ns c g := by
      intro g
      unfold feature
      congr 1
      funext k
      rw [← clean_zeroed]
    have hg : ((Matrix.of fun i => c.proj fun k => clean (c.train i k) / ns : Matrix (Fin n) (Fin q) K).transpose *
        (Matrix.of fun i => c.proj fun k => clean (c.train i k) / ns : Matrix (Fin n) (Fin q) K) + Matrix.diagonal fun _ => reg) = gram ns reg c := by
      ext a b
      simp only [gram, Matrix.add_apply, Matrix.mul_apply, Matrix.transpose_apply, Matrix.of_apply, hx, Matrix.diagonal_apply]
    unfold trakRow
    rw [hg, hx]
    simp only [Matrix.vecMul, dotProduct, Matrix.mul_apply, Matrix.transpose_apply, Matrix.of_apply, hx, Finset.mul_sum, mul_assoc]
  simp only [hrow]

/-- **C231** (TRAK, gradients). Only the gradients with NaN replaced by zero matter, and a training sample whose gradients are all NaN has
the score zero with every test sample (if its probabilities are numbers). -/
theorem C231_trak_zero {n p q : ℕ} [CharZero K] (ns reg : K) (ckpts : List (KCkpt K n p q)) (hP : ∀ c ∈ ckpts, c.proj 0 = 0) (i : Fin n)
    (h : ∀ c ∈ ckpts, ∀ k, c.train i k = none) (hQ : ∀ c ∈ ckpts, c.Q i ≠ none) (hne : ckpts ≠ []) (j : ℕ) :
    trak ns reg ckpts i j = some 0 := by
  rw [(trak_value ns reg ckpts hne i j).2 hQ]
  have : (ckpts.map fun c => trakRow ns reg c j i).sum = 0 := by
    apply List.sum_eq_zero
    intro x hx
    obtain ⟨c, hc, rfl⟩ := List.mem_map.1 hx
    unfold trakRow
    have hz : (fun k => clean (c.train i k) / ns) = 0 := by
      funext k
      simp [h c hc k, clean]
    simp only [Matrix.vecMul, dotProduct, Matrix.mul_apply, Matrix.transpose_apply, Matrix.of_apply]
    simp [hz, hP c hc]
  rw [this]
  simp

/-- **C231** (TRAK, equal cleaned data). -/
theorem C231_trak_clean {n p q : ℕ} (ns reg : K) (c : KCkpt K n p q) (j : ℕ) :
    trakRow ns reg c j = trakRow ns reg { c with train := fun i k => some (zeroed (c.train i) k), test := fun j k => some (zeroed (c.test j) k) } j := by
  have h : ∀ {m : ℕ} (g : Fin m → Option K) (k : Fin m), clean (some (zeroed g k)) = clean (g k) := by
    intro m g k
    have := congrFun (clean_zeroed g) k
    simpa [clean] using this.symm
  unfold trakRow
  simp only [h]

/-! ## Examples -/

/-- Rational numbers with NaN. -/
def ratArith : Arith (Option ℚ) where
  zero := some 0
  ofNat n := some n
  add := Option.map₂ (· + ·)
  sub := Option.map₂ (· - ·)
  mul := Option.map₂ (· * ·)
  div a b := if b = some 0 then none else Option.map₂ (· / ·) a b
  isNaN a := a = none
  add_left := by rintro _ b rfl; rfl
  add_right := by rintro a _ rfl; cases a <;> rfl
  sub_left := by rintro _ b rfl; rfl
  sub_right := by rintro a _ rfl; cases a <;> rfl
  mul_left := by rintro _ b rfl; rfl
  mul_right := by rintro a _ rfl; cases a <;> rfl
  div_left := by rintro _ b rfl; split <;> rfl
  div_right := by rintro a _ rfl; cases a <;> rfl

/-- A Hessian with a NaN and one without. -/
def exampleBad : List (List (Option ℚ)) := [[some 2, none], [none, some 2]]
def exampleGood : List (List (Option ℚ)) := [[some 2, some 0], [some 0, some 4]]

example : Square 2 exampleBad ∧ Square 2 exampleGood ∧ BadH ratArith exampleBad ∧ ¬BadH ratArith exampleGood := by
  refine ⟨⟨rfl, by simp [exampleBad]⟩, ⟨rfl, by simp [exampleGood]⟩, ⟨_, List.mem_cons_self, none, by simp, rfl⟩, ?_⟩
  rintro ⟨r, hr, x, hx, hn⟩
  simp only [exampleGood, List.mem_cons, List.not_mem_nil, or_false] at hr
  rcases hr with rfl | rfl <;> (obtain rfl : x = none := hn; simp at hx)

example : cg ratArith (some 0) 1 exampleBad [some 1, some 1] = [none, none] := by decide +kernel
example : cg ratArith (some 0) 2 exampleGood [some 1, some 1] = [some (1 / 2), some (1 / 4)] := by decide +kernel
example : transCG ratArith (some 0) 2 [exampleGood, exampleBad] [some 1, some 1] = [none, none] := by decide +kernel
example : lissa ratArith (some 1) (some 4) [[exampleGood], [exampleBad]] [some 1, some 1] = [none, none] := by decide +kernel
example : dataInf ratArith (some 1) [1, 1] [[some 1, some 1], [none, some 1]] [some 1, some 2] = [none, some 1] := by decide +kernel

/-- One NaN in one checkpoint and the score is lost, in CG and in DataInf. -/
example : entry ratArith [⟨fun _ => [some 1, some 1], fun _ => [some 1, some 1], transCG ratArith (some 0) 2 [exampleGood]⟩] 0 0 =
    some (3 / 4) := by decide +kernel
example : entry ratArith [⟨fun _ => [some 1, some 1], fun _ => [some 1, some 1], transCG ratArith (some 0) 2 [exampleBad]⟩,
    ⟨fun _ => [some 1, some 1], fun _ => [some 1, some 1], transCG ratArith (some 0) 2 [exampleGood]⟩] 0 0 = none := by decide +kernel

/-- TracIn with a NaN. -/
example : tracin (K := ℚ) (p := 2) (q := 2) (fun _ => 1) [⟨1, id, fun _ => ![none, some 2], fun _ => ![some 5, some 3]⟩] 0 0 = some 6 := by
  decide +kernel

end Verif.NaN
