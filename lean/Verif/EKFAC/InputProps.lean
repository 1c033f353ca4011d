import Verif.EKFAC.InputModel
import Verif.EKFAC.Stats
import Mathlib.Data.List.GetD

/-! # C202: inputs with batch dimensions are checked and cut into batches consistently -/

namespace Verif.EKFAC

/-! ## Specification -/

/-- The Python index `d` means axis `a` of a tensor of the given rank. -/
def Means (rank : ℕ) (d : ℤ) (a : ℕ) : Prop := a < rank ∧ (d = a ∨ d = (a : ℤ) - rank)

/-- The argument has size `n` along its batch dimension. -/
def HasSize (x : List ℕ × Option ℤ) (n : ℕ) : Prop :=
  ∃ d a, x.2 = some d ∧ Means x.1.length d a ∧ x.1[a]? = some n

/-- All batched arguments of the list have size `n`. -/
def AllSize (l : List (List ℕ × Option ℤ)) (n : ℕ) : Prop := ∀ x ∈ l, x.2 ≠ none → HasSize x n

/-- The element of `x` with index list `i`, where the entry at the batch axis is replaced by `k`. -/
def entryAt {α : Type} (x : Arr α) (a : ℕ) (i : List ℕ) (k : ℕ) : α := x.val (i.set a k)

/-! ## Lemmas -/

theorem axis_iff (rank : ℕ) (d : ℤ) (a : ℕ) : axis rank d = some a ↔ Means rank d a := by
  unfold axis Means
  split_ifs <;> simp <;> omega

theorem dimSize_iff (s : List ℕ) (d : ℤ) (n : ℕ) :
    dimSize s d = some n ↔ ∃ a, Means s.length d a ∧ s[a]? = some n := by
  unfold dimSize
  rw [Option.bind_eq_some_iff]
  simp only [axis_iff]

theorem dimSize_none (s : List ℕ) (d : ℤ) : dimSize s d = none ↔ ¬ ∃ a, Means s.length d a := by
  constructor
  · rintro h ⟨a, ha⟩
    have h2 : s[a]? = some (s[a]'ha.1) := List.getElem?_eq_getElem ha.1
    have := (dimSize_iff s d _).2 ⟨a, ha, h2⟩
    rw [h] at this
    cases this
  · intro h
    cases e : dimSize s d with
    | none => rfl
    | some n =>
        obtain ⟨a, ha, -⟩ := (dimSize_iff s d n).1 e
        exact absurd ⟨a, ha⟩ h

theorem hasSize_iff (s : List ℕ) (d : ℤ) (n : ℕ) : HasSize (s, some d) n ↔ dimSize s d = some n := by
  rw [dimSize_iff]
  constructor
  · rintro ⟨d', a, e, h, h'⟩
    injection e with e
    subst e
    exact ⟨a, h, h'⟩
  · rintro ⟨a, h, h'⟩
    exact ⟨d, a, rfl, h, h'⟩

theorem loop_some (n : ℕ) : ∀ (l : List (List ℕ × Option ℤ)) (r : Option ℕ),
    checkLoop (some n) l = .ok r ↔ (r = some n ∧ AllSize l n)
  | [], r => by simp [checkLoop, AllSize, eq_comm]
  | (s, none) :: l, r => by
      simp only [checkLoop]
      rw [loop_some n l r]
      simp [AllSize]
  | (s, some d) :: l, r => by
      have hr := loop_some n l r
      have hs := hasSize_iff s d n
      simp only [checkLoop]
      cases e : dimSize s d with
      | none =>
          simp only [AllSize, List.mem_cons, forall_eq_or_imp, ne_eq, reduceCtorEq,
            not_false_eq_true, forall_const, hs, e]
          simp
      | some m =>
          simp only [AllSize, List.mem_cons, forall_eq_or_imp, ne_eq, reduceCtorEq,
            not_false_eq_true, forall_const, hs, e]
          by_cases h : n = m
          · subst h
            simp only [ne_eq, not_true_eq_false, if_false, hr, AllSize, true_and]
          · simp only [h, not_false_eq_true, Option.some.injEq, eq_comm (a := m)]
            simp

theorem loop_none : ∀ (l : List (List ℕ × Option ℤ)) (r : Option ℕ),
    checkLoop none l = .ok r ↔
      ((r = none ∧ ∀ x ∈ l, x.2 = none) ∨ ∃ n, r = some n ∧ AllSize l n ∧ ∃ x ∈ l, x.2 ≠ none)
  | [], r => by simp [checkLoop, eq_comm]
  | (s, none) :: l, r => by
      simp only [checkLoop]
      rw [loop_none l r]
      simp [AllSize]
  | (s, some d) :: l, r => by
      have hs := hasSize_iff s d
      simp only [checkLoop]
      cases e : dimSize s d with
      | none =>
          simp only [AllSize, List.mem_cons, forall_eq_or_imp, ne_eq, reduceCtorEq,
            not_false_eq_true, forall_const, hs, e]
          simp
      | some m =>
          simp only [loop_some, AllSize, List.mem_cons, forall_eq_or_imp, ne_eq, reduceCtorEq,
            not_false_eq_true, forall_const, hs, e, Option.some.injEq, false_and, and_false,
            false_or, exists_eq_or_imp, true_or, and_true]
          constructor
          · rintro ⟨h, h'⟩
            exact ⟨m, h, rfl, h'⟩
          · rintro ⟨n, h, rfl, h'⟩
            exact ⟨h, h'⟩

/-- The loop stops at the first argument whose dimension does not exist or whose size differs. -/
theorem loop_error : ∀ (l : List (List ℕ × Option ℤ)) (b : Option ℕ) (e : InErr),
    checkLoop b l = .error e ↔ ∃ pre x post r, l = pre ++ x :: post ∧ checkLoop b pre = .ok r ∧
      ∃ d, x.2 = some d ∧ ((e = .index ∧ dimSize x.1 d = none) ∨
        (e = .usage ∧ ∃ n m, r = some n ∧ dimSize x.1 d = some m ∧ n ≠ m))
  | [], b, e => by cases b <;> simp [checkLoop]
  | (s, none) :: l, b, e => by
      have h := loop_error l b e
      have h1 : checkLoop b ((s, none) :: l) = checkLoop b l := by cases b <;> simp [checkLoop]
      rw [h1, h]
      constructor
      · rintro ⟨pre, x, post, r, rfl, hr, hx⟩
        refine ⟨(s, none) :: pre, x, post, r, rfl, ?_, hx⟩
        cases b <;> simpa [checkLoop] using hr
      · rintro ⟨pre, x, post, r, hl, hr, d, hd, hx⟩
        cases pre with
        | nil =>
            simp only [List.nil_append, List.cons.injEq] at hl
            rw [← hl.1] at hd
            simp at hd
        | cons y pre =>
            simp only [List.cons_append, List.cons.injEq] at hl
            refine ⟨pre, x, post, r, hl.2, ?_, d, hd, hx⟩
            rw [← hl.1] at hr
            cases b <;> simpa [checkLoop] using hr
  | (s, some d) :: l, b, e => by
      cases hs : dimSize s d with
      | none =>
          have h1 : checkLoop b ((s, some d) :: l) = .error .index := by
            cases b <;> simp [checkLoop, hs]
          rw [h1]
          constructor
          · intro he
            injection he with he
            exact ⟨[], (s, some d), l, b, rfl, by cases b <;> simp [checkLoop], d, rfl,
              Or.inl ⟨he.symm, hs⟩⟩
          · rintro ⟨pre, x, post, r, hl, hr, d', hd, hx⟩
            cases pre with
            | nil =>
                simp only [List.nil_append, List.cons.injEq] at hl
                rw [← hl.1] at hd hx
                injection hd with hd
                subst hd
                rcases hx with hx | ⟨-, n, m, -, hm, -⟩
                · rw [hx.1]
                · rw [hs] at hm; cases hm
            | cons y pre =>
                simp only [List.cons_append, List.cons.injEq] at hl
                rw [← hl.1] at hr
                cases b <;> simp [checkLoop, hs] at hr
      | some m =>
          by_cases hb : ∃ n, b = some n ∧ n ≠ m
          · obtain ⟨n, rfl, hnm⟩ := hb
            have h1 : checkLoop (some n) ((s, some d) :: l) = .error .usage := by
              simp [checkLoop, hs, hnm]
            rw [h1]
            constructor
            · intro he
              injection he with he
              exact ⟨[], (s, some d), l, some n, rfl, by simp [checkLoop], d, rfl,
                Or.inr ⟨he.symm, n, m, rfl, hs, hnm⟩⟩
            · rintro ⟨pre, x, post, r, hl, hr, d', hd, hx⟩
              cases pre with
              | nil =>
                  simp only [List.nil_append, List.cons.injEq] at hl
                  rw [← hl.1] at hd hx
                  injection hd with hd
                  subst hd
                  rcases hx with ⟨-, hx⟩ | hx
                  · rw [hs] at hx; cases hx
                  · rw [hx.1]
              | cons y pre =>
                  simp only [List.cons_append, List.cons.injEq] at hl
                  rw [← hl.1] at hr
                  simp [checkLoop, hs, hnm] at hr
          · have h1 : ∀ l', checkLoop b ((s, some d) :: l') = checkLoop (some m) l' := by
              intro l'
              cases b with
              | none => simp [checkLoop, hs]
              | some n =>
                  have : n = m := by
                    by_contra hne
                    exact hb ⟨n, rfl, hne⟩
                  subst this
                  simp [checkLoop, hs]
            rw [h1, loop_error l (some m) e]
            constructor
            · rintro ⟨pre, x, post, r, rfl, hr, hx⟩
              exact ⟨(s, some d) :: pre, x, post, r, rfl, by rw [h1]; exact hr, hx⟩
            · rintro ⟨pre, x, post, r, hl, hr, d', hd, hx⟩
              cases pre with
              | nil =>
                  simp only [List.nil_append, List.cons.injEq] at hl
                  rw [← hl.1] at hd hx
                  injection hd with hd
                  subst hd
                  rcases hx with ⟨-, hx⟩ | ⟨-, n, k, hr', hk, hne⟩
                  · rw [hs] at hx; cases hx
                  · have hbr : b = r := by cases b <;> simpa [checkLoop] using hr
                    rw [hs] at hk
                    injection hk with hk
                    exact absurd ⟨n, hbr.trans hr', hk ▸ hne⟩ hb
              | cons y pre =>
                  simp only [List.cons_append, List.cons.injEq] at hl
                  rw [← hl.1, h1] at hr
                  exact ⟨pre, x, post, r, hl.2, hr, d', hd, hx⟩

/-! ## Theorems -/

/-- A size is returned exactly if there is one entry of `in_dims` per argument and all batched arguments have that
size; without batched arguments it is 1. -/
theorem C202_size (shapes : List (List ℕ)) (inDims : Option (List (Option ℤ))) (n : ℕ) :
    checkInputSize shapes inDims = .ok n ↔
      (dimsOf shapes.length inDims).length = shapes.length ∧
        AllSize (shapes.zip (dimsOf shapes.length inDims)) n ∧
        ((∀ x ∈ shapes.zip (dimsOf shapes.length inDims), x.2 = none) → n = 1) := by
  unfold checkInputSize
  by_cases hl : (dimsOf shapes.length inDims).length = shapes.length
  · rw [if_neg (not_not.2 hl)]
    set l := shapes.zip (dimsOf shapes.length inDims)
    constructor
    · intro h
      cases e : checkLoop none l with
      | error x => rw [e] at h; cases h
      | ok r =>
          rw [e] at h
          injection h with h
          rcases (loop_none l r).1 e with ⟨rfl, hn⟩ | ⟨m, rfl, hm, x, hx, hxn⟩
          · refine ⟨hl, fun x hx hne => absurd (hn x hx) hne, fun _ => h.symm⟩
          · simp only [Option.getD_some] at h
            subst h
            exact ⟨hl, hm, fun hn => absurd (hn x hx) hxn⟩
    · rintro ⟨-, ha, h1⟩
      by_cases hn : ∀ x ∈ l, x.2 = none
      · rw [(loop_none l none).2 (Or.inl ⟨rfl, hn⟩), h1 hn]
        rfl
      · push Not at hn
        rw [(loop_none l (some n)).2 (Or.inr ⟨n, rfl, ha, hn⟩)]
        rfl
  · rw [if_pos hl]
    simp [hl]

/-- Without `in_dims` the first dimension of every argument counts. -/
theorem C202_default (shapes : List (List ℕ)) :
    checkInputSize shapes none = checkInputSize shapes (some (List.replicate shapes.length (some 0))) := rfl

/-- The errors: `IFVPUsageError` for a wrong number of entries; otherwise the first argument that does not fit decides:
`IndexError` if it has no such dimension, `IFVPUsageError` if its size differs from the batched ones before it. -/
theorem C202_errors (shapes : List (List ℕ)) (inDims : Option (List (Option ℤ))) (e : InErr) :
    checkInputSize shapes inDims = .error e ↔
      (e = .usage ∧ (dimsOf shapes.length inDims).length ≠ shapes.length) ∨
      ((dimsOf shapes.length inDims).length = shapes.length ∧
        ∃ pre s d post, shapes.zip (dimsOf shapes.length inDims) = pre ++ (s, some d) :: post ∧
          ((e = .index ∧ (¬ ∃ a, Means s.length d a) ∧ ∃ n, AllSize pre n) ∨
            (e = .usage ∧ ∃ n m, n ≠ m ∧ AllSize pre n ∧ (∃ x ∈ pre, x.2 ≠ none) ∧ HasSize (s, some d) m))) := by
  unfold checkInputSize
  by_cases hl : (dimsOf shapes.length inDims).length = shapes.length
  · rw [if_neg (not_not.2 hl)]
    set l := shapes.zip (dimsOf shapes.length inDims)
    refine Iff.trans (b := checkLoop none l = .error e) (by cases checkLoop none l <;> simp) ?_
    rw [loop_error]
    simp only [hl, ne_eq, not_true_eq_false, and_false, false_or, true_and]
    constructor
    · rintro ⟨pre, ⟨s, dd⟩, post, r, hpre, hr, d, hd, hx⟩
      simp only at hd hx
      subst hd
      refine ⟨pre, s, d, post, hpre, ?_⟩
      rcases hx with ⟨he, hx⟩ | ⟨he, n, m, rfl, hm, hne⟩
      · refine Or.inl ⟨he, (dimSize_none s d).1 hx, ?_⟩
        rcases (loop_none pre r).1 hr with ⟨-, hn⟩ | ⟨n, -, hn, -⟩
        · exact ⟨0, fun x hx hne => absurd (hn x hx) hne⟩
        · exact ⟨n, hn⟩
      · rcases (loop_none pre _).1 hr with ⟨h, -⟩ | ⟨n', h, hn, hx⟩
        · cases h
        · injection h with h
          subst h
          exact Or.inr ⟨he, n, m, hne, hn, hx, (hasSize_iff s d m).2 hm⟩
    · rintro ⟨pre, s, d, post, hpre, ⟨he, hx, n, hn⟩ | ⟨he, n, m, hne, hn, hx, hm⟩⟩
      · by_cases hall : ∀ x ∈ pre, x.2 = none
        · exact ⟨pre, (s, some d), post, none, hpre, (loop_none pre none).2 (Or.inl ⟨rfl, hall⟩), d, rfl,
            Or.inl ⟨he, (dimSize_none s d).2 hx⟩⟩
        · push Not at hall
          exact ⟨pre, (s, some d), post, some n, hpre, (loop_none pre (some n)).2 (Or.inr ⟨n, rfl, hn, hall⟩), d,
            rfl, Or.inl ⟨he, (dimSize_none s d).2 hx⟩⟩
      · exact ⟨pre, (s, some d), post, some n, hpre, (loop_none pre (some n)).2 (Or.inr ⟨n, rfl, hn, hx⟩), d,
          rfl, Or.inr ⟨he, n, m, rfl, (hasSize_iff s d m).1 hm, hne⟩⟩
  · rw [if_pos hl]
    simp only [hl, ne_eq, not_false_eq_true, and_true, false_and, or_false, Except.error.injEq]
    exact eq_comm

variable {α : Type}

/-- After a successful check, the batches contain every sample exactly once, and in every batch position `j` of every
batched argument is the same sample: the argument's slice at the `j`-th drawn index; arguments without batch dimension
are passed on unchanged to every batch. -/
theorem C202_batches (perm : List ℕ) (xs : List (Arr α)) (n bs : ℕ) (inDims : Option (List (Option ℤ)))
    (hp : perm.Perm (List.range n)) (hn : 0 < n) (hb : 0 < bs)
    (hc : checkInputSize (xs.map Arr.shape) inDims = .ok n) :
    ∃ drawn : List (List ℕ), drawn.flatten.Perm (List.range n) ∧
      ∃ out, batchIterator perm xs n inDims bs = .ok out ∧ out.length = drawn.length ∧
        ∀ b (h : b < drawn.length) (h' : b < out.length), out[b].length = xs.length ∧
          ∀ k (hk : k < xs.length) (hk' : k < out[b].length) (hd : k < (dimsOf xs.length inDims).length),
            ((dimsOf xs.length inDims)[k] = none → out[b][k] = xs[k]) ∧
            (∀ d, (dimsOf xs.length inDims)[k] = some d → ∃ a, Means xs[k].shape.length d a ∧
              xs[k].shape[a]? = some n ∧ out[b][k].shape = xs[k].shape.set a drawn[b].length ∧
              ∀ j (hj : j < drawn[b].length) (i : List ℕ), i[a]? = some j →
                drawn[b][j] < n ∧ out[b][k].val i = entryAt xs[k] a i drawn[b][j]) := by
  obtain ⟨drawn, hd, hperm, -, -⟩ := (C20_random_batches n bs perm hp).2 hn hb
  refine ⟨drawn, hperm, drawn.map (collate xs inDims), by simp [batchIterator, hd], by simp, ?_⟩
  obtain ⟨hl, hs, -⟩ := (C202_size _ _ _).1 hc
  simp only [List.length_map] at hl hs
  intro b h h'
  simp only [List.getElem_map]
  have hlen : (collate xs inDims drawn[b]).length = xs.length := by simp [collate, hl]
  refine ⟨hlen, ?_⟩
  intro k hk hk' hdk
  have hget : (collate xs inDims drawn[b])[k] = indexSelect xs[k] (dimsOf xs.length inDims)[k] drawn[b] := by
    simp [collate]
  rw [hget]
  constructor
  · intro e
    rw [e]
    rfl
  · intro d e
    have hmem : (xs[k].shape, (dimsOf xs.length inDims)[k]) ∈
        (xs.map Arr.shape).zip (dimsOf xs.length inDims) := by
      rw [List.mem_iff_getElem]
      exact ⟨k, by simp [hk, hdk], by simp⟩
    obtain ⟨d', a, e', hm, hsz⟩ := hs _ hmem (by simp [e])
    simp only [e, Option.some.injEq] at e' hm hsz
    subst e'
    have hax := (axis_iff _ _ _).2 hm
    refine ⟨a, hm, hsz, by simp [e, indexSelect, hax], ?_⟩
    intro j hj i hi
    have hlt : drawn[b][j] < n := by
      have h1 : drawn[b][j] ∈ drawn.flatten :=
        List.mem_flatten.2 ⟨drawn[b], List.getElem_mem h, List.getElem_mem hj⟩
      simpa using hperm.mem_iff.1 h1
    refine ⟨hlt, ?_⟩
    have h1 : i.getD a 0 = j := by rw [List.getD_eq_getElem?_getD, hi]; rfl
    have h2 : drawn[b].getD j 0 = drawn[b][j] := by
      rw [List.getD_eq_getElem?_getD, List.getElem?_eq_getElem hj]; rfl
    simp only [e, indexSelect, hax, entryAt, h1, h2]

/-! ## Examples -/

example : checkInputSize [[4, 3], [2, 4], [7]] (some [some 0, some (-1), none]) = .ok 4 := by decide
example : checkInputSize [[4, 3], [2, 4]] none = .error .usage := by decide
example : checkInputSize [[4, 3], []] none = .error .index := by decide
example : checkInputSize [[4, 3]] (some []) = .error .usage := by decide
example : checkInputSize [] none = .ok 1 := by decide

/-- The hypotheses of `C202_batches` hold for two arguments with batch axes 0 and 1 and a shared third one. -/
example : ∃ drawn : List (List ℕ), drawn.flatten.Perm (List.range 3) ∧
    ∃ out, batchIterator [2, 0, 1] [⟨[3, 2], fun i => i.sum⟩, ⟨[2, 3], fun i => 2 * i.sum⟩, ⟨[5], fun _ => 7⟩] 3
      (some [some 0, some (-1), none]) 2 = .ok out ∧ out.length = drawn.length := by
  obtain ⟨d, h, o, h1, h2, -⟩ := C202_batches [2, 0, 1]
    [⟨[3, 2], fun i => i.sum⟩, ⟨[2, 3], fun i => 2 * i.sum⟩, ⟨[5], fun _ => 7⟩] 3 2
    (some [some 0, some (-1), none]) (by decide) (by decide) (by decide) (by decide)
  exact ⟨d, h, o, h1, h2⟩

end Verif.EKFAC
