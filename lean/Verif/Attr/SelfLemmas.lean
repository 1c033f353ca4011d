import Verif.Attr.Lemmas
import Verif.Attr.IFModel
import Mathlib.Algebra.BigOperators.Intervals

/-! # Helper lemmas: self attribution, call histories and IHVP accumulation -/

namespace Verif.Attr

variable {R X C : Type} {p d : Nat} [Field R]

lemma nb_pos {X : Type} {l : Loader X} (h : 0 < l.bs) (hn : l.data ≠ []) : 0 < l.nb :=
  (lt_numBatches_iff h).2 (by simpa using List.length_pos_iff.2 hn)

lemma nb_one {X : Type} {l : Loader X} (hn : l.data ≠ []) (hb : l.data.length ≤ l.bs) : l.nb = 1 := by
  have h0 := List.length_pos_iff.2 hn
  have h := nb_pos (l := l) (by omega) hn
  have h' : ¬ 1 < l.nb := by
    unfold Loader.nb; rw [lt_numBatches_iff (by omega)]; omega
  omega

lemma batch_zero {X : Type} {l : Loader X} (hb : l.data.length ≤ l.bs) : l.batch 0 = l.data := by
  unfold Loader.batch batchAt
  simp [hb]

/-- Running mean of a vector fold whose per-checkpoint body adds `g c`. -/
lemma runningMean_vec [CharZero R] (n : Nat) (body : C → Vec R → Except Err (Vec R)) (g : C → Nat → R)
    (hbody : ∀ c v, v.n = n → ∃ v', body c v = .ok v' ∧ v'.n = n ∧ ∀ i < n, v'.f i = v.f i + g c i) (ckpts : List C) :
    ∃ v, ckpts.zipIdx.foldlM (fun (v : Vec R) ci => do
        let v : Vec R := ⟨v.n, fun i => v.f i * (ci.2 : R)⟩
        let v ← body ci.1 v
        pure (⟨v.n, fun i => v.f i / ((ci.2 + 1 : Nat) : R)⟩ : Vec R)) ⟨n, fun _ => 0⟩ = Except.ok (ε := Err) v ∧ v.n = n ∧
      ∀ i < n, v.f i = (ckpts.map (fun c => g c i)).sum / (ckpts.length : R) := by
  induction ckpts using List.reverseRecOn with
  | nil => exact ⟨_, rfl, rfl, by simp⟩
  | append_singleton cs c ih =>
    obtain ⟨v, e, hn, hf⟩ := ih
    obtain ⟨v', e', hn', hf'⟩ := hbody c ⟨v.n, fun i => v.f i * (cs.length : R)⟩ hn
    refine ⟨⟨v'.n, fun i => v'.f i / ((cs.length + 1 : Nat) : R)⟩, ?_, hn', ?_⟩
    · rw [List.zipIdx_append, List.foldlM_append, e]
      simp only [List.zipIdx_singleton, List.foldlM_cons, List.foldlM_nil, Nat.zero_add, bind, Except.bind, pure,
        Except.pure, e']
    · intro i hi
      simp only [List.map_append, List.map_cons, List.map_nil, List.sum_append, List.sum_cons, List.sum_nil,
        add_zero, List.length_append, List.length_cons, List.length_nil, Nat.zero_add]
      rw [hf' i hi]
      simp only [hf i hi]
      congr 2
      by_cases h0 : cs = []
      · subst h0; simp
      · have : (cs.length : R) ≠ 0 := by
          rw [Nat.cast_ne_zero]; exact fun h => h0 (List.length_eq_zero_iff.1 h)
        field_simp

lemma batch_one {X : Type} (l : Loader X) (h : l.bs = 1) (b : Nat) (hb : b < l.data.length) :
    l.batch b = [l.data[b]] := by
  unfold Loader.batch batchAt
  rw [h]
  apply List.ext_getElem?
  intro i
  rcases i with _ | i
  · simp [hb]
  · simp

lemma nb_bs_one {X : Type} (l : Loader X) (h : l.bs = 1) : l.nb = l.data.length := by
  unfold Loader.nb
  apply le_antisymm
  · by_contra hc
    push Not at hc
    rw [lt_numBatches_iff (by omega), h] at hc
    omega
  · by_contra hc
    push Not at hc
    have := (lt_numBatches_iff (bs := l.bs) (n := l.data.length) (b := numBatches l.bs l.data.length) (by omega)).2
      (by rw [h] at hc ⊢; omega)
    omega

lemma accumulate_ok (solve : List X → (Fin p → R) → Option (Fin p → R)) (full : Loader X) (v : Fin p → R)
    (hs : full.supported = true) (u : Nat → Fin p → R)
    (hu : ∀ b < full.nb, solve (full.batch b) v = some (u b)) :
    accumulate solve full v = .ok (∑ b ∈ Finset.range full.nb, u b) := by
  unfold accumulate
  have key : ∀ k ≤ full.nb, (List.range k).foldlM (fun acc b =>
    if !full.supported then .error .typeError
    else match solve (full.batch b) v with
      | some u => .ok (acc + u)
      | none => .error .runtimeError) (0 : Fin p → R) = Except.ok (ε := Err) (∑ b ∈ Finset.range k, u b) := by
    intro k
    induction k with
    | zero => intro _; simp; rfl
    | succ k ih =>
      intro hk
      rw [List.range_succ, List.foldlM_append, ih (by omega)]
      simp only [bind, Except.bind, List.foldlM_cons, List.foldlM_nil, hs, Bool.not_true, Bool.false_eq_true, if_false,
        hu k (by omega), Finset.sum_range_succ]
      rfl
  exact key _ le_rfl

lemma accumulate_error (solve : List X → (Fin p → R) → Option (Fin p → R)) (full : Loader X) (v : Fin p → R)
    (hs : full.supported = true) (b : Nat) (hb : b < full.nb) (hn : solve (full.batch b) v = none) :
    accumulate solve full v = .error .runtimeError := by
  unfold accumulate
  have key : ∀ (l : List Nat) (a : Fin p → R), b ∈ l → l.foldlM (fun acc b =>
    if !full.supported then .error .typeError
    else match solve (full.batch b) v with
      | some u => .ok (acc + u)
      | none => .error .runtimeError) a = Except.error (α := Fin p → R) Err.runtimeError := by
    intro l
    induction l with
    | nil => intro a h; simp at h
    | cons x l ih =>
      intro a h
      simp only [List.foldlM_cons, hs, Bool.not_true, Bool.false_eq_true, if_false]
      rcases List.mem_cons.1 h with h | h
      · subst h; rw [hn]; rfl
      · cases hx : solve (full.batch x) v with
        | none => rfl
        | some u =>
          have := ih (a + u) h
          simp only [hs, Bool.not_true, Bool.false_eq_true, if_false] at this
          exact this
  exact key _ _ (List.mem_range.2 hb)

end Verif.Attr
