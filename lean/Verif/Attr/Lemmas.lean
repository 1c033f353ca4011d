import Verif.Attr.Spec
import Verif.Base.Blocks
import Mathlib.Algebra.BigOperators.Group.List.Basic
import Mathlib.Algebra.CharZero.Defs
import Mathlib.Algebra.Field.Basic
import Mathlib.Data.Nat.Cast.Basic
import Mathlib.Tactic.FieldSimp
import Mathlib.Tactic.Push

/-! # Helper lemmas for the inner-product attributor -/

namespace Verif.Attr

variable {R X C : Type} {p d : Nat} [Field R]

lemma block_val (S : Sub R X C p d) (full : Loader X) (c : C) (m : Option String) (tr te : Loader X)
    (h1 : 0 < tr.bs) (h2 : 0 < te.bs) (i j : Nat) (hi : i < tr.data.length) (hj : j < te.data.length) :
    (block S full c m (tr.batch (i / tr.bs)) (te.batch (j / te.bs))).f (i - i / tr.bs * tr.bs) (j - j / te.bs * te.bs)
      = score S full m c tr.data[i] te.data[j] := by
  unfold block Loader.batch
  simp only [getElem?_batchAt _ _ _ _ (sub_div_mul_lt (i := i) h1), getElem?_batchAt _ _ _ _ (sub_div_mul_lt (i := j) h2),
    div_mul_add_sub]
  simp only [hi, hj, List.getElem?_eq_getElem]
  cases m <;> rfl

lemma trainLoop_spec (S : Sub R X C p d) (full : Loader X) (c : C) (m : Option String) (tr te : Loader X)
    (h1 : 0 < tr.bs) (h2 : 0 < te.bs) (s1 : tr.supported = true) (s2 : te.supported = true)
    (hm : ∀ s, m = some s → S.methodOk s = true)
    (M : Mat R) (hr : M.r = tr.data.length) (hc : M.c = te.data.length) :
    ∃ M', trainLoop S full c m tr te M = .ok M' ∧ M'.r = tr.data.length ∧ M'.c = te.data.length ∧
      ∀ i (hi : i < tr.data.length) j (hj : j < te.data.length),
        M'.f i j = M.f i j + score S full m c tr.data[i] te.data[j] := by
  obtain ⟨M', e, hr', hc', hf⟩ := blockLoop tr.data.length te.data.length tr.bs te.bs h1 h2
    (fun b t => block S full c m (tr.batch b) (te.batch t))
    (fun b t _ _ => by simp [block, Loader.batch, length_batchAt])
    (fun b t _ _ => by simp [block, Loader.batch, length_batchAt])
    (numBatches tr.bs tr.data.length) le_rfl M hr hc
  refine ⟨M', ?_, hr', hc', ?_⟩
  · unfold trainLoop testLoop Loader.nb
    have hm' : badMethod S m = false := by
      cases m with
      | none => rfl
      | some s => simp [badMethod, hm s rfl]
    simp only [s1, s2, hm', Bool.not_true, Bool.false_eq_true, if_false]
    simp only [foldlM_liftO]
    rw [e]; rfl
  · intro i hi j hj
    rw [hf i hi j hj, if_pos (div_lt_numBatches h1 hi), block_val S full c m tr te h1 h2 i j hi hj]

lemma attributeLoop_spec [CharZero R] (S : Sub R X C p d) (full : Loader X) (m : Option String) (tr te : Loader X)
    (h1 : 0 < tr.bs) (h2 : 0 < te.bs) (s1 : tr.supported = true) (s2 : te.supported = true)
    (hm : ∀ s, m = some s → S.methodOk s = true) (ckpts : List C) :
    ∃ M, attributeLoop S full ckpts m tr te = .ok M ∧ M.r = tr.data.length ∧ M.c = te.data.length ∧
      ∀ i (hi : i < tr.data.length) j (hj : j < te.data.length),
        M.f i j = (ckpts.map (fun c => score S full m c tr.data[i] te.data[j])).sum / (ckpts.length : R) := by
  induction ckpts using List.reverseRecOn with
  | nil => exact ⟨_, rfl, rfl, rfl, by simp [Mat.zeros]⟩
  | append_singleton cs c ih =>
    obtain ⟨M, e, hr, hc, hf⟩ := ih
    obtain ⟨M', e', hr', hc', hf'⟩ := trainLoop_spec S full c m tr te h1 h2 s1 s2 hm (Mat.scale M (cs.length : R)) hr hc
    refine ⟨Mat.divBy M' ((cs.length + 1 : Nat) : R), ?_, hr', hc', ?_⟩
    · unfold attributeLoop at e ⊢
      rw [List.zipIdx_append, List.foldlM_append, e]
      simp only [List.zipIdx_singleton, List.foldlM_cons, List.foldlM_nil, Nat.zero_add, bind, Except.bind, pure,
        Except.pure, e']
    · intro i hi j hj
      simp only [Mat.divBy, List.map_append, List.map_cons, List.map_nil, List.sum_append, List.sum_cons, List.sum_nil,
        add_zero, List.length_append, List.length_cons, List.length_nil, Nat.zero_add]
      rw [hf' i hi j hj]
      simp only [Mat.scale]
      rw [hf i hi j hj]
      congr 2
      by_cases h0 : cs = []
      · subst h0; simp
      · have : (cs.length : R) ≠ 0 := by
          rw [Nat.cast_ne_zero]; exact fun h => h0 (List.length_eq_zero_iff.1 h)
        field_simp

end Verif.Attr
