import Verif.Disk.PrefetchModel
import Verif.Disk.ExactProps

/-!
# C65, C98: the prefetching data set
-/

namespace Verif.Disk.Prefetch

variable {R : Type} {n pf : ℕ}

/-- `x` is a content that the chunk at `idx` has had. -/
def Had (n : ℕ) (past : List (ℕ → Except Err (Item R))) (idx : ℤ) (x : Item R) : Prop :=
  ∃ p f, position n idx = some p ∧ f ∈ past ∧ f p = .ok x

theorem Had.mono {past : List (ℕ → Except Err (Item R))} {idx : ℤ} {x : Item R}
    (h : Had n past idx x) (g : ℕ → Except Err (Item R)) : Had n (g :: past) idx x := by
  obtain ⟨p, f, h1, h2, h3⟩ := h
  exact ⟨p, f, h1, List.mem_cons_of_mem _ h2, h3⟩

/-- What the prefetch thread holds. -/
def WOk (n : ℕ) (past : List (ℕ → Except Err (Item R))) : WPc R → Prop
  | .insert _ idx x _ => Had n past idx x
  | _ => True

/-- What the reader holds. -/
def FOk (n : ℕ) (past : List (ℕ → Except Err (Item R))) : FPc R → Prop
  | .insert idx x => Had n past idx x
  | _ => True

/-- The invariant of all schedules. -/
structure Inv (n : ℕ) (st : St R) : Prop where
  cache : ∀ idx x, PyDict.get? st.cache idx = some x → Had n st.past idx x
  wpc : WOk n st.past st.wpc
  fpc : FOk n st.past st.fpc
  file : st.file ∈ st.past
  logOk : ∀ idx x, (idx, .ok x) ∈ st.log →
    Had n st.past idx x ∨ (x = ([], []) ∧ idx ∈ st.fails)
  logErr : ∀ idx e, (idx, .error e) ∈ st.log → e = .indexError ∧ position n idx = none
  failsIn : ∀ idx ∈ st.fails, ∃ p, position n idx = some p

theorem inv_init (file : ℕ → Except Err (Item R)) : Inv n (St.init file) where
  cache := by intro idx x h; cases h
  wpc := trivial
  fpc := trivial
  file := List.mem_singleton.2 rfl
  logOk := by intro idx x h; cases h
  logErr := by intro idx x h; cases h
  failsIn := by intro idx h; cases h

theorem get_filter {κ α : Type} [DecidableEq κ] (q : κ → Bool) (m : List (κ × α)) (k : κ) (v : α)
    (h : PyDict.get? (m.filter fun e => q e.1) k = some v) : PyDict.get? m k = some v := by
  induction m with
  | nil => cases h
  | cons e t ih =>
    by_cases he : q e.1 = true
    · rw [List.filter_cons_of_pos (p := fun e : κ × α => q e.1) he] at h
      unfold PyDict.get? at h ⊢
      split_ifs at h ⊢ with h1
      · exact h
      · exact ih h
    · rw [List.filter_cons_of_neg (by simpa using he)] at h
      have h2 := ih h
      unfold PyDict.get?
      rw [if_neg]
      · exact h2
      · intro h1
        rw [h1] at he
        have : ∀ l : List (κ × α), PyDict.get? (l.filter fun e => q e.1) k = none := by
          intro l
          induction l with
          | nil => rfl
          | cons a s ihs =>
            by_cases ha : q a.1 = true
            · rw [List.filter_cons_of_pos (p := fun e : κ × α => q e.1) ha]
              unfold PyDict.get?
              rw [if_neg]
              · exact ihs
              · intro h3; rw [h3] at ha; exact he ha
            · rw [List.filter_cons_of_neg (by simpa using ha)]; exact ihs
        rw [this t] at h
        cases h

theorem get_insertEvict {c idx : ℤ} {x : Item R} {m : List (ℤ × Item R)} {k : ℤ} {v : Item R}
    (h : PyDict.get? (insertEvict pf c idx x m) k = some v) : (k = idx ∧ v = x) ∨ PyDict.get? m k = some v := by
  have h1 : PyDict.get? (PyDict.set idx x m) k = some v := by
    unfold insertEvict at h
    simp only at h
    split_ifs at h
    · exact get_filter (fun e => !decide (e < c - 1)) _ _ _ h
    · exact h
  rw [PyDict.get?_set] at h1
  split_ifs at h1 with h2
  · cases h1; exact Or.inl ⟨h2, rfl⟩
  · exact Or.inr h1

theorem position_ge {idx : ℤ} (h : idx ≥ n) : position n idx = none := by
  unfold position
  rw [if_neg (by omega), if_neg (by omega)]

theorem inv_step {st st' : St R} {a : Act R} (h : Inv n st) (hs : step n pf st a = some st') :
    Inv n st' := by
  cases a with
  | get idx =>
    simp only [step] at hs
    split_ifs at hs
    unfold getStep at hs
    cases hp : st.fpc <;> rw [hp] at hs <;> simp only [reduceCtorEq] at hs
    split_ifs at hs with h1
    · cases hs
      refine { h with fpc := trivial, logOk := ?_, logErr := ?_ }
      · intro i x hm
        simp only [List.mem_cons, Prod.mk.injEq, reduceCtorEq, and_false, false_or] at hm
        exact h.logOk i x hm
      · intro i e hm
        simp only [List.mem_cons, Prod.mk.injEq] at hm
        rcases hm with ⟨rfl, h2⟩ | hm
        · cases h2; exact ⟨rfl, position_ge h1⟩
        · exact h.logErr i e hm
    · cases hs
      exact { h with fpc := trivial }
  | fg =>
    simp only [step] at hs
    unfold fgStep at hs
    cases hp : st.fpc with
    | idle => rw [hp] at hs; cases hs
    | check idx =>
      rw [hp] at hs
      simp only at hs
      cases hc : PyDict.get? st.cache idx with
      | none => rw [hc] at hs; cases hs; exact { h with fpc := trivial }
      | some x =>
        rw [hc] at hs
        cases hs
        refine { h with fpc := trivial, logOk := ?_, logErr := ?_ }
        · intro i y hm
          simp only [List.mem_cons, Prod.mk.injEq, Except.ok.injEq] at hm
          rcases hm with ⟨rfl, rfl⟩ | hm
          · exact Or.inl (h.cache _ _ hc)
          · exact h.logOk i y hm
        · intro i e hm
          simp only [List.mem_cons, Prod.mk.injEq, reduceCtorEq, and_false, false_or] at hm
          exact h.logErr i e hm
    | miss idx =>
      rw [hp] at hs
      simp only at hs
      cases hq : position n idx with
      | none =>
        rw [hq] at hs
        cases hs
        refine { h with fpc := trivial, logOk := ?_, logErr := ?_ }
        · intro i x hm
          simp only [List.mem_cons, Prod.mk.injEq, reduceCtorEq, and_false, false_or] at hm
          exact h.logOk i x hm
        · intro i e hm
          simp only [List.mem_cons, Prod.mk.injEq] at hm
          rcases hm with ⟨rfl, h2⟩ | hm
          · cases h2; exact ⟨rfl, hq⟩
          · exact h.logErr i e hm
      | some p =>
        rw [hq] at hs
        simp only at hs
        cases hf : st.file p with
        | ok x =>
          rw [hf] at hs
          cases hs
          exact { h with fpc := ⟨p, st.file, hq, h.file, hf⟩ }
        | error e =>
          rw [hf] at hs
          cases hs
          refine { h with fpc := trivial, logOk := ?_, logErr := ?_, failsIn := ?_ }
          · intro i y hm
            simp only [List.mem_cons, Prod.mk.injEq, Except.ok.injEq] at hm
            rcases hm with ⟨rfl, rfl⟩ | hm
            · exact Or.inr ⟨rfl, List.mem_cons_self⟩
            · rcases h.logOk i y hm with h1 | ⟨h1, h2⟩
              · exact Or.inl h1
              · exact Or.inr ⟨h1, List.mem_cons_of_mem _ h2⟩
          · intro i e hm
            simp only [List.mem_cons, Prod.mk.injEq, reduceCtorEq, and_false, false_or] at hm
            exact h.logErr i e hm
          · intro i hi
            rcases List.mem_cons.1 hi with rfl | hi
            · exact ⟨p, hq⟩
            · exact h.failsIn i hi
    | insert idx x =>
      rw [hp] at hs
      cases hs
      have hx : Had n st.past idx x := by have := h.fpc; rw [hp] at this; exact this
      refine { h with fpc := trivial, cache := ?_, logOk := ?_, logErr := ?_ }
      · intro i y hm
        rw [PyDict.get?_set] at hm
        split_ifs at hm with h1
        · cases hm; subst h1; exact hx
        · exact h.cache i y hm
      · intro i y hm
        simp only [List.mem_cons, Prod.mk.injEq, Except.ok.injEq] at hm
        rcases hm with ⟨rfl, rfl⟩ | hm
        · exact Or.inl hx
        · exact h.logOk i y hm
      · intro i e hm
        simp only [List.mem_cons, Prod.mk.injEq, reduceCtorEq, and_false, false_or] at hm
        exact h.logErr i e hm
  | fgFail =>
    simp only [step] at hs
    unfold fgFailStep at hs
    cases hp : st.fpc <;> rw [hp] at hs <;> simp only [reduceCtorEq] at hs
    rename_i idx
    cases hq : position n idx with
    | none => rw [hq] at hs; cases hs
    | some p =>
      rw [hq] at hs
      cases hs
      refine { h with fpc := trivial, logOk := ?_, logErr := ?_, failsIn := ?_ }
      · intro i y hm
        simp only [List.mem_cons, Prod.mk.injEq, Except.ok.injEq] at hm
        rcases hm with ⟨rfl, rfl⟩ | hm
        · exact Or.inr ⟨rfl, List.mem_cons_self⟩
        · rcases h.logOk i y hm with h1 | ⟨h1, h2⟩
          · exact Or.inl h1
          · exact Or.inr ⟨h1, List.mem_cons_of_mem _ h2⟩
      · intro i e hm
        simp only [List.mem_cons, Prod.mk.injEq, reduceCtorEq, and_false, false_or] at hm
        exact h.logErr i e hm
      · intro i hi
        rcases List.mem_cons.1 hi with rfl | hi
        · exact ⟨p, hq⟩
        · exact h.failsIn i hi
  | wk =>
    simp only [step] at hs
    unfold wkStep at hs
    cases hp : st.wpc with
    | top =>
      rw [hp] at hs
      cases hs
      refine { h with wpc := ?_ }
      cases st.stop <;> trivial
    | scan c i acc =>
      rw [hp] at hs
      simp only at hs
      split_ifs at hs <;> cases hs <;> exact { h with wpc := trivial }
    | load c todo =>
      rw [hp] at hs
      cases todo with
      | nil => cases hs; exact { h with wpc := trivial }
      | cons idx todo =>
        simp only at hs
        split_ifs at hs with h1
        · cases hs; exact { h with wpc := trivial }
        · cases hq : position n idx with
          | none => rw [hq] at hs; cases hs; exact { h with wpc := trivial }
          | some p =>
            rw [hq] at hs
            simp only at hs
            cases hf : st.file p with
            | ok x =>
              rw [hf] at hs
              cases hs
              exact { h with wpc := ⟨p, st.file, hq, h.file, hf⟩ }
            | error e => rw [hf] at hs; cases hs; exact { h with wpc := trivial }
    | insert c idx x todo =>
      rw [hp] at hs
      cases hs
      have hx : Had n st.past idx x := by have := h.wpc; rw [hp] at this; exact this
      refine { h with wpc := trivial, cache := ?_ }
      intro i y hm
      rcases get_insertEvict hm with ⟨rfl, rfl⟩ | hm
      · exact hx
      · exact h.cache i y hm
    | ended => rw [hp] at hs; cases hs
  | wkFail =>
    simp only [step] at hs
    unfold wkFailStep at hs
    cases hp : st.wpc with
    | load c todo =>
      rw [hp] at hs
      cases todo with
      | nil => cases hs
      | cons idx todo => cases hs; exact { h with wpc := trivial }
    | _ => rw [hp] at hs; cases hs
  | write p x =>
    cases hs
    refine ⟨fun i y hm => (h.cache i y hm).mono _, ?_, ?_, List.mem_cons_self, ?_, h.logErr, h.failsIn⟩
    · have := h.wpc
      revert this
      cases st.wpc <;> first | exact fun _ => trivial | exact fun h => Had.mono h _
    · have := h.fpc
      revert this
      cases st.fpc <;> first | exact fun _ => trivial | exact fun h => Had.mono h _
    · intro i y hm
      rcases h.logOk i y hm with h1 | h1
      · exact Or.inl (h1.mono _)
      · exact Or.inr h1
  | drop =>
    simp only [step] at hs
    cases hp : st.fpc <;> rw [hp] at hs <;> simp only [reduceCtorEq, Option.some.injEq] at hs
    subst hs
    exact { h with fpc := trivial }
  | del =>
    simp only [step] at hs
    unfold delStep at hs
    split_ifs at hs
    cases hs
    exact { h with }

theorem exec_cons {st : St R} {a : Act R} {t : List (Act R)} :
    exec n pf st (a :: t) = (step n pf st a).bind fun s => exec n pf s t := rfl

theorem inv_exec {st st' : St R} {acts : List (Act R)} (h : Inv n st)
    (hs : exec n pf st acts = some st') : Inv n st' := by
  induction acts generalizing st with
  | nil => cases hs; exact h
  | cons a t ih =>
    rw [exec_cons] at hs
    obtain ⟨s1, h1, h2⟩ := Option.bind_eq_some_iff.1 hs
    exact ih (inv_step h h1) h2

/-- What was returned (in the words of the model; see `C65_coherent`). -/
theorem coherent (file : ℕ → Except Err (Item R)) (acts : List (Act R)) {st : St R}
    (hex : exec n pf (St.init file) acts = some st) (idx : ℤ) (r : Except Err (Item R))
    (hm : (idx, r) ∈ st.log) :
    (position n idx = none ∧ r = .error .indexError) ∨
    ∃ p, position n idx = some p ∧ ((∃ f ∈ st.past, ∃ x, f p = .ok x ∧ r = .ok x) ∨
      (r = .ok ([], []) ∧ idx ∈ st.fails)) := by
  have h := inv_exec (inv_init file) hex
  cases r with
  | error e =>
    obtain ⟨rfl, h2⟩ := h.logErr idx e hm
    exact Or.inl ⟨h2, rfl⟩
  | ok x =>
    rcases h.logOk idx x hm with ⟨p, f, h1, h2, h3⟩ | ⟨rfl, h1⟩
    · exact Or.inr ⟨p, h1, Or.inl ⟨f, h2, x, h3, rfl⟩⟩
    · obtain ⟨p, h2⟩ := h.failsIn idx h1
      exact Or.inr ⟨p, h2, Or.inr ⟨rfl, h1⟩⟩

/-! ### Files that do not change -/

/-- No file is rewritten and no synchronous load raises on its own. -/
def Act.quiet : Act R → Prop
  | .write _ _ => False
  | .fgFail => False
  | _ => True

/-- The indices asked for. -/
def gets : List (Act R) → List ℤ
  | [] => []
  | .get idx :: r => idx :: gets r
  | _ :: r => gets r

/-- The index of the call in progress. -/
def FPc.now : FPc R → List ℤ
  | .idle => []
  | .check idx => [idx]
  | .miss idx => [idx]
  | .insert idx _ => [idx]

/-- The new indices of one action. -/
def getOf : Act R → List ℤ
  | .get idx => [idx]
  | _ => []

theorem gets_cons (a : Act R) (t : List (Act R)) : gets (a :: t) = getOf a ++ gets t := by
  cases a <;> rfl

theorem log_step {st st' : St R} {a : Act R} (hs : step n pf st a = some st') :
    (st'.log.map Prod.fst).reverse ++ st'.fpc.now =
      (st.log.map Prod.fst).reverse ++ st.fpc.now ++ getOf a := by
  cases a with
  | get idx =>
    simp only [step] at hs
    split_ifs at hs
    unfold getStep at hs
    cases hp : st.fpc <;> rw [hp] at hs <;> simp only [reduceCtorEq] at hs
    split_ifs at hs with h1
    · cases hs; simp [FPc.now, getOf]
    · cases hs; simp [FPc.now, getOf]
  | fg =>
    simp only [step] at hs
    unfold fgStep at hs
    cases hp : st.fpc with
    | idle => rw [hp] at hs; cases hs
    | check idx =>
      rw [hp] at hs
      simp only at hs
      cases hc : PyDict.get? st.cache idx <;> rw [hc] at hs <;> cases hs <;> simp [FPc.now, getOf]
    | miss idx =>
      rw [hp] at hs
      simp only at hs
      cases hq : position n idx with
      | none => rw [hq] at hs; cases hs; simp [FPc.now, getOf]
      | some p =>
        rw [hq] at hs
        simp only at hs
        cases hf : st.file p <;> rw [hf] at hs <;> cases hs <;> simp [FPc.now, getOf]
    | insert idx x => rw [hp] at hs; cases hs; simp [FPc.now, getOf]
  | fgFail =>
    simp only [step] at hs
    unfold fgFailStep at hs
    cases hp : st.fpc <;> rw [hp] at hs <;> simp only [reduceCtorEq] at hs
    rename_i idx
    cases hq : position n idx <;> rw [hq] at hs <;> cases hs
    simp [FPc.now, getOf]
  | wk =>
    simp only [step] at hs
    unfold wkStep at hs
    cases hp : st.wpc with
    | top => rw [hp] at hs; cases hs; simp [getOf]
    | scan c i acc =>
      rw [hp] at hs
      simp only at hs
      split_ifs at hs <;> cases hs <;> simp [getOf]
    | load c todo =>
      rw [hp] at hs
      cases todo with
      | nil => cases hs; simp [getOf]
      | cons idx todo =>
        simp only at hs
        split_ifs at hs with h1
        · cases hs; simp [getOf]
        · cases hq : position n idx with
          | none => rw [hq] at hs; cases hs; simp [getOf]
          | some p =>
            rw [hq] at hs
            simp only at hs
            cases hf : st.file p <;> rw [hf] at hs <;> cases hs <;> simp [getOf]
    | insert c idx x todo => rw [hp] at hs; cases hs; simp [getOf]
    | ended => rw [hp] at hs; cases hs
  | wkFail =>
    simp only [step] at hs
    unfold wkFailStep at hs
    cases hp : st.wpc with
    | load c todo =>
      rw [hp] at hs
      cases todo <;> cases hs
      simp [getOf]
    | _ => rw [hp] at hs; cases hs
  | write p x => cases hs; simp [getOf]
  | drop =>
    simp only [step] at hs
    cases hp : st.fpc <;> rw [hp] at hs <;> simp only [reduceCtorEq, Option.some.injEq] at hs
    subst hs
    simp [getOf]
  | del =>
    simp only [step] at hs
    unfold delStep at hs
    split_ifs at hs
    cases hs
    simp [getOf]

theorem log_exec {st st' : St R} {acts : List (Act R)} (hs : exec n pf st acts = some st') :
    (st'.log.map Prod.fst).reverse ++ st'.fpc.now =
      (st.log.map Prod.fst).reverse ++ st.fpc.now ++ gets acts := by
  induction acts generalizing st with
  | nil => cases hs; simp [gets]
  | cons a t ih =>
    rw [exec_cons] at hs
    obtain ⟨s1, h1, h2⟩ := Option.bind_eq_some_iff.1 hs
    rw [ih h2, log_step h1, gets_cons, List.append_assoc]

theorem quiet_step {st st' : St R} {a : Act R} (ha : a.quiet) (hs : step n pf st a = some st') :
    st'.file = st.file ∧ st'.past = st.past ∧
      ∀ idx, idx ∈ st'.fails → idx ∈ st.fails ∨ ∃ p e, position n idx = some p ∧ st.file p = .error e := by
  cases a with
  | get idx =>
    simp only [step] at hs
    split_ifs at hs
    unfold getStep at hs
    cases hp : st.fpc <;> rw [hp] at hs <;> simp only [reduceCtorEq] at hs
    split_ifs at hs with h1 <;> cases hs <;> exact ⟨rfl, rfl, fun _ h => Or.inl h⟩
  | fg =>
    simp only [step] at hs
    unfold fgStep at hs
    cases hp : st.fpc with
    | idle => rw [hp] at hs; cases hs
    | check idx =>
      rw [hp] at hs
      simp only at hs
      cases hc : PyDict.get? st.cache idx <;> rw [hc] at hs <;> cases hs <;>
        exact ⟨rfl, rfl, fun _ h => Or.inl h⟩
    | miss idx =>
      rw [hp] at hs
      simp only at hs
      cases hq : position n idx with
      | none => rw [hq] at hs; cases hs; exact ⟨rfl, rfl, fun _ h => Or.inl h⟩
      | some p =>
        rw [hq] at hs
        simp only at hs
        cases hf : st.file p with
        | ok x => rw [hf] at hs; cases hs; exact ⟨rfl, rfl, fun _ h => Or.inl h⟩
        | error e =>
          rw [hf] at hs
          cases hs
          refine ⟨rfl, rfl, fun i hi => ?_⟩
          rcases List.mem_cons.1 hi with rfl | hi
          · exact Or.inr ⟨p, e, hq, hf⟩
          · exact Or.inl hi
    | insert idx x => rw [hp] at hs; cases hs; exact ⟨rfl, rfl, fun _ h => Or.inl h⟩
  | fgFail => exact ha.elim
  | wk =>
    simp only [step] at hs
    unfold wkStep at hs
    cases hp : st.wpc with
    | top => rw [hp] at hs; cases hs; exact ⟨rfl, rfl, fun _ h => Or.inl h⟩
    | scan c i acc =>
      rw [hp] at hs
      simp only at hs
      split_ifs at hs <;> cases hs <;> exact ⟨rfl, rfl, fun _ h => Or.inl h⟩
    | load c todo =>
      rw [hp] at hs
      cases todo with
      | nil => cases hs; exact ⟨rfl, rfl, fun _ h => Or.inl h⟩
      | cons idx todo =>
        simp only at hs
        split_ifs at hs with h1
        · cases hs; exact ⟨rfl, rfl, fun _ h => Or.inl h⟩
        · cases hq : position n idx with
          | none => rw [hq] at hs; cases hs; exact ⟨rfl, rfl, fun _ h => Or.inl h⟩
          | some p =>
            rw [hq] at hs
            simp only at hs
            cases hf : st.file p <;> rw [hf] at hs <;> cases hs <;>
              exact ⟨rfl, rfl, fun _ h => Or.inl h⟩
    | insert c idx x todo => rw [hp] at hs; cases hs; exact ⟨rfl, rfl, fun _ h => Or.inl h⟩
    | ended => rw [hp] at hs; cases hs
  | wkFail =>
    simp only [step] at hs
    unfold wkFailStep at hs
    cases hp : st.wpc with
    | load c todo =>
      rw [hp] at hs
      cases todo <;> cases hs
      exact ⟨rfl, rfl, fun _ h => Or.inl h⟩
    | _ => rw [hp] at hs; cases hs
  | write p x => exact ha.elim
  | drop =>
    simp only [step] at hs
    cases hp : st.fpc <;> rw [hp] at hs <;> simp only [reduceCtorEq, Option.some.injEq] at hs
    subst hs
    exact ⟨rfl, rfl, fun _ h => Or.inl h⟩
  | del =>
    simp only [step] at hs
    unfold delStep at hs
    split_ifs at hs
    cases hs
    exact ⟨rfl, rfl, fun _ h => Or.inl h⟩

theorem quiet_exec {file : ℕ → Except Err (Item R)} {acts : List (Act R)} {st : St R}
    (ha : ∀ a ∈ acts, a.quiet) (hex : exec n pf (St.init file) acts = some st) :
    st.past = [file] ∧ ∀ idx ∈ st.fails, ∃ p e, position n idx = some p ∧ file p = .error e := by
  have key : ∀ (acts : List (Act R)) (s : St R), (∀ a ∈ acts, a.quiet) → exec n pf s acts = some st →
      s.file = file → s.past = [file] →
      (∀ idx ∈ s.fails, ∃ p e, position n idx = some p ∧ file p = .error e) →
      st.past = [file] ∧ ∀ idx ∈ st.fails, ∃ p e, position n idx = some p ∧ file p = .error e := by
    intro acts
    induction acts with
    | nil => intro s _ h h1 h2 h3; cases h; exact ⟨h2, h3⟩
    | cons a t ih =>
      intro s hq h h1 h2 h3
      rw [exec_cons] at h
      obtain ⟨s1, e1, e2⟩ := Option.bind_eq_some_iff.1 h
      obtain ⟨q1, q2, q3⟩ := quiet_step (hq a List.mem_cons_self) e1
      refine ih s1 (fun b hb => hq b (List.mem_cons_of_mem _ hb)) e2 (q1.trans h1) (q2.trans h2) ?_
      intro idx hi
      rcases q3 idx hi with h4 | ⟨p, e, h4, h5⟩
      · exact h3 idx h4
      · exact ⟨p, e, h4, by rw [← h1]; exact h5⟩
  exact key acts _ ha hex rfl rfl (by intro idx h; cases h)

/-- Specification: `p` is the position a Python list of length `n` has for the index `idx`. -/
def IsPosition (n : ℕ) (idx : ℤ) (p : ℕ) : Prop := p < n ∧ ((p : ℤ) = idx ∨ (p : ℤ) = idx + n)

theorem position_some {idx : ℤ} {p : ℕ} : position n idx = some p ↔ IsPosition n idx p := by
  unfold position IsPosition
  split_ifs with h1 h2
  · rw [Option.some.injEq]; omega
  · rw [Option.some.injEq]; omega
  · simp only [false_iff]; omega

theorem position_none {idx : ℤ} : position n idx = none ↔ ∀ p, ¬ IsPosition n idx p := by
  constructor
  · intro h p hp
    rw [← position_some, h] at hp
    cases hp
  · intro h
    cases hq : position n idx with
    | none => rfl
    | some p => exact absurd (position_some.1 hq) (h p)

/-- **C65** (the cache is coherent).  In every schedule of the reader, the prefetch thread, failing loads
and rewritten files, what a call returns for a valid index is a content which that very chunk has had
since the data set was created, or the empty item after a load that raised; an invalid index raises
`IndexError` and nothing else does. -/
theorem C65_coherent (file : ℕ → Except Err (Item R)) (acts : List (Act R)) {st : St R}
    (hex : exec n pf (St.init file) acts = some st) (idx : ℤ) (r : Except Err (Item R))
    (hm : (idx, r) ∈ st.log) :
    ((∀ p, ¬ IsPosition n idx p) ∧ r = .error .indexError) ∨
    ∃ p, IsPosition n idx p ∧ ((∃ f ∈ st.past, ∃ x, f p = .ok x ∧ r = .ok x) ∨
      (r = .ok ([], []) ∧ idx ∈ st.fails)) := by
  rcases coherent file acts hex idx r hm with ⟨h1, h2⟩ | ⟨p, h1, h2⟩
  · exact Or.inl ⟨position_none.1 h1, h2⟩
  · exact Or.inr ⟨p, position_some.1 h1, h2⟩

/-- What a call returns when the files do not change: the file, the empty item for a file that cannot be
loaded, `IndexError` for an invalid index. -/
def answer (n : ℕ) (file : ℕ → Except Err (Item R)) (idx : ℤ) : Except Err (Item R) :=
  match position n idx with
  | none => .error .indexError
  | some p =>
    match file p with
    | .ok x => .ok x
    | .error _ => .ok ([], [])

/-- The answers (in the words of the model; see `C65_answers`). -/
theorem answers_eq (file : ℕ → Except Err (Item R)) (acts : List (Act R)) {st : St R}
    (ha : ∀ a ∈ acts, a.quiet) (hex : exec n pf (St.init file) acts = some st) (hidle : st.fpc = .idle) :
    st.log.reverse = (gets acts).map fun idx => (idx, answer n file idx) := by
  obtain ⟨q1, q2⟩ := quiet_exec ha hex
  have hlog := log_exec hex
  rw [hidle] at hlog
  simp only [St.init, FPc.now, List.map_nil, List.reverse_nil, List.append_nil, List.nil_append] at hlog
  rw [← hlog, List.map_reverse, List.map_map]
  congr 1
  symm
  conv_rhs => rw [← List.map_id st.log]
  refine List.map_congr_left ?_
  rintro ⟨idx, r⟩ hm
  have : answer n file idx = r := by
    unfold answer
    rcases coherent file acts hex idx r hm with ⟨h1, rfl⟩ | ⟨p, h1, ⟨f, hf, x, h2, rfl⟩ | ⟨rfl, h2⟩⟩
    · rw [h1]
    · rw [q1, List.mem_singleton] at hf
      subst hf
      rw [h1]
      simp only [h2]
    · obtain ⟨p', e, h3, h4⟩ := q2 idx h2
      rw [h1] at h3
      cases h3
      rw [h1]
      simp only [h4]
  simp [this]

/-- Specification of the answer for unchanging files: the content of the file at that position, the empty item if
it cannot be loaded, `IndexError` if there is no such position. -/
def Answer (n : ℕ) (file : ℕ → Except Err (Item R)) (idx : ℤ) (r : Except Err (Item R)) : Prop :=
  ((∀ p, ¬ IsPosition n idx p) ∧ r = .error .indexError) ∨
  ∃ p, IsPosition n idx p ∧ ((∃ x, file p = .ok x ∧ r = .ok x) ∨ ((∃ e, file p = .error e) ∧ r = .ok ([], [])))

theorem answer_spec (file : ℕ → Except Err (Item R)) (idx : ℤ) : Answer n file idx (answer n file idx) := by
  unfold answer
  cases hq : position n idx with
  | none => exact Or.inl ⟨position_none.1 hq, rfl⟩
  | some p =>
    refine Or.inr ⟨p, position_some.1 hq, ?_⟩
    simp only
    cases hf : file p with
    | ok x => exact Or.inl ⟨x, rfl, rfl⟩
    | error e => exact Or.inr ⟨⟨e, rfl⟩, rfl⟩

/-- **C65** (prefetching is invisible).  While the files do not change and no load fails by chance, in
every schedule, every sequence of calls is answered in order with the contents of the files: what the
prefetch thread does, including its failed loads, has no effect on any answer. -/
theorem C65_answers (file : ℕ → Except Err (Item R)) (acts : List (Act R)) {st : St R}
    (ha : ∀ a ∈ acts, a.quiet) (hex : exec n pf (St.init file) acts = some st) (hidle : st.fpc = .idle) :
    st.log.reverse.map Prod.fst = gets acts ∧ ∀ idx r, (idx, r) ∈ st.log → Answer n file idx r := by
  have h := answers_eq file acts ha hex hidle
  refine ⟨by rw [h, List.map_map]; simp [Function.comp_def], fun idx r hm => ?_⟩
  have hm' : (idx, r) ∈ st.log.reverse := List.mem_reverse.2 hm
  rw [h] at hm'
  obtain ⟨i, _, e⟩ := List.mem_map.1 hm'
  cases e
  exact answer_spec file idx

/-- The chunks of a data set as the prefetcher sees them. -/
def fileOf (fs : Files R) (rng : Option (ℕ × ℕ)) (ps : List Path) (p : ℕ) : Except Err (Item R) :=
  match ps[p]? with
  | some q => loadFile fs rng q
  | none => .error .indexError

theorem position_nat {i : ℕ} (h : i < n) : position n (i : ℤ) = some i := by
  unfold position
  rw [if_pos ⟨by omega, by omega⟩, Int.toNat_natCast]

/-- **C65** (one pass).  Reading the chunks one after the other, in whatever schedule, gives the items of
the files in order; with C96 these are the stored batches. -/
theorem C65_pass {fs : Files R} {dt : DT} {rng : Option (ℕ × ℕ)} {items : List (Item R)}
    (hload : (chunkInfo fs dt rng).mapM (loadFile fs rng) = .ok items) (acts : List (Act R)) {st : St R}
    (ha : ∀ a ∈ acts, a.quiet)
    (hex : exec (chunkInfo fs dt rng).length pf (St.init (fileOf fs rng (chunkInfo fs dt rng))) acts =
      some st)
    (hidle : st.fpc = .idle)
    (hgets : gets acts = (List.range (chunkInfo fs dt rng).length).map fun i : ℕ => (i : ℤ)) :
    (st.log.reverse.map Prod.snd) = items.map .ok := by
  rw [answers_eq _ acts ha hex hidle, hgets, List.map_map, List.map_map]
  generalize chunkInfo fs dt rng = ps at *
  have hget : ∀ (ps : List Path) (items : List (Item R)), ps.mapM (loadFile fs rng) = .ok items →
      ps.map (loadFile fs rng) = items.map .ok := by
    intro ps
    induction ps with
    | nil => intro items h; cases h; rfl
    | cons q t ih =>
      intro items h
      rw [List.mapM_cons] at h
      cases h1 : loadFile fs rng q with
      | error e => rw [h1] at h; cases h
      | ok x =>
        rw [h1] at h
        cases h2 : t.mapM (loadFile fs rng) with
        | error e => rw [h2] at h; cases h
        | ok xs =>
          rw [h2] at h
          cases h
          rw [List.map_cons, List.map_cons, ih xs h2, h1]
  rw [← hget ps items hload]
  apply List.ext_getElem
  · simp
  · intro i h1 h2
    simp only [List.length_map, List.length_range] at h1
    have h3 : i < items.length := by
      have := congrArg List.length (hget ps items hload)
      simp only [List.length_map] at this
      omega
    have h4 : loadFile fs rng ps[i] = .ok items[i] := by
      have := congrArg (fun l => l[i]?) (hget ps items hload)
      simpa [h1, h3] using this
    simp [answer, position_nat h1, fileOf, h1, h4]

/-! ### Calls come back -/

/-- Steps left of the call in progress. -/
def FPc.left : FPc R → ℕ
  | .idle => 0
  | .insert _ _ => 1
  | .miss _ => 2
  | .check _ => 3

/-- **C65** (no blocking).  A call in progress can always go on, whatever the prefetch thread is doing;
each of its steps brings it nearer to its return, and no step of anybody else sets it back. -/
theorem C65_progress (st : St R) (hp : st.fpc ≠ .idle) :
    (∃ st', step n pf st .fg = some st' ∧ st'.fpc.left < st.fpc.left) ∧
    ∀ a st', step n pf st a = some st' → st'.fpc.left ≤ st.fpc.left := by
  constructor
  · simp only [step]
    unfold fgStep
    cases h : st.fpc with
    | idle => exact absurd h hp
    | check idx =>
      simp only
      cases PyDict.get? st.cache idx with
      | none => exact ⟨_, rfl, by simp [FPc.left]⟩
      | some x => exact ⟨_, rfl, by simp [FPc.left]⟩
    | miss idx =>
      simp only
      cases position n idx with
      | none => exact ⟨_, rfl, by simp [FPc.left]⟩
      | some p =>
        simp only
        cases st.file p with
        | ok x => exact ⟨_, rfl, by simp [FPc.left]⟩
        | error e => exact ⟨_, rfl, by simp [FPc.left]⟩
    | insert idx x => exact ⟨_, rfl, by simp [FPc.left]⟩
  · intro a st' hs
    cases a with
    | get idx =>
      simp only [step] at hs
      split_ifs at hs
      unfold getStep at hs
      cases h : st.fpc <;> rw [h] at hs <;> simp only [reduceCtorEq] at hs
      exact absurd h hp
    | fg =>
      simp only [step] at hs
      unfold fgStep at hs
      cases h : st.fpc with
      | idle => exact absurd h hp
      | check idx =>
        rw [h] at hs
        simp only at hs
        cases hc : PyDict.get? st.cache idx <;> rw [hc] at hs <;> cases hs <;> simp [FPc.left]
      | miss idx =>
        rw [h] at hs
        simp only at hs
        cases hq : position n idx with
        | none => rw [hq] at hs; cases hs; simp [FPc.left]
        | some p =>
          rw [hq] at hs
          simp only at hs
          cases hf : st.file p <;> rw [hf] at hs <;> cases hs <;> simp [FPc.left]
      | insert idx x => rw [h] at hs; cases hs; simp [FPc.left]
    | fgFail =>
      simp only [step] at hs
      unfold fgFailStep at hs
      cases h : st.fpc <;> rw [h] at hs <;> simp only [reduceCtorEq] at hs
      rename_i idx
      cases hq : position n idx <;> rw [hq] at hs <;> cases hs
      simp [FPc.left]
    | wk =>
      simp only [step] at hs
      unfold wkStep at hs
      cases h : st.wpc with
      | top => rw [h] at hs; cases hs; exact le_refl _
      | scan c i acc =>
        rw [h] at hs
        simp only at hs
        split_ifs at hs <;> cases hs <;> exact le_refl _
      | load c todo =>
        rw [h] at hs
        cases todo with
        | nil => cases hs; exact le_refl _
        | cons idx todo =>
          simp only at hs
          split_ifs at hs with h1
          · cases hs; exact le_refl _
          · cases hq : position n idx with
            | none => rw [hq] at hs; cases hs; exact le_refl _
            | some p =>
              rw [hq] at hs
              simp only at hs
              cases hf : st.file p <;> rw [hf] at hs <;> cases hs <;> exact le_refl _
      | insert c idx x todo => rw [h] at hs; cases hs; exact le_refl _
      | ended => rw [h] at hs; cases hs
    | wkFail =>
      simp only [step] at hs
      unfold wkFailStep at hs
      cases h : st.wpc with
      | load c todo =>
        rw [h] at hs
        cases todo <;> cases hs
        exact le_refl _
      | _ => rw [h] at hs; cases hs
    | write p x => cases hs; exact le_refl _
    | drop =>
      simp only [step] at hs
      cases h : st.fpc with
      | idle => exact absurd h hp
      | _ => simp at hs
    | del =>
      simp only [step] at hs
      unfold delStep at hs
      split_ifs at hs
      cases hs
      exact le_refl _

/-! ### What the cache does not do -/

/-- **C65** (stale answers).  The cache is never invalidated: a chunk read once and then rewritten is
answered with its old content, whatever it was. -/
theorem C65_stale (file : ℕ → Except Err (Item R)) (old new : Item R) (hn : 0 < n)
    (hold : file 0 = .ok old) :
    ∃ st, exec n pf (St.init file) [.get 0, .fg, .fg, .fg, .write 0 (.ok new), .get 0, .fg] = some st ∧
      st.file 0 = .ok new ∧ st.log = [(0, .ok old), (0, .ok old)] := by
  have hp : position n 0 = some 0 := position_nat (i := 0) hn
  have h0 : ¬ (n = 0) := by omega
  refine ⟨_, by simp [exec, step, St.init, getStep, fgStep, h0, hp, hold, PyDict.get?, PyDict.set]; rfl, ?_, ?_⟩
  · simp
  · simp

/-- The reads of the first `k` chunks by the reader alone. -/
def readAll : ℕ → List (Act R)
  | 0 => []
  | k + 1 => readAll k ++ [.get k, .fg, .fg, .fg]

theorem exec_append {st : St R} {l r : List (Act R)} :
    exec n pf st (l ++ r) = (exec n pf st l).bind fun s => exec n pf s r := by
  unfold exec
  rw [List.foldlM_append]; rfl

/-- **C65** (the cache is not bounded).  For every number of chunks and every prefetch factor there is a
schedule after which every chunk is in the cache. -/
theorem C65_unbounded (x : ℕ → Item R) (k : ℕ) (hk : k ≤ n) :
    ∃ st, exec n pf (St.init fun p => .ok (x p)) (readAll k) = some st ∧ st.fpc = .idle ∧
      st.held = true ∧ (st.file = fun p => .ok (x p)) ∧
      st.cache = (List.range k).map fun i : ℕ => ((i : ℤ), x i) := by
  induction k with
  | zero => exact ⟨_, rfl, rfl, rfl, rfl, rfl⟩
  | succ k ih =>
    obtain ⟨st, h1, h2, h3, h4, h5⟩ := ih (by omega)
    have hp : position n (k : ℤ) = some k := position_nat (by omega)
    have hno : (k : ℤ) ∉ PyDict.keys st.cache := by
      rw [h5]
      simp [PyDict.keys]
    have hget : PyDict.get? st.cache (k : ℤ) = none := by
      cases hc : PyDict.get? st.cache (k : ℤ) with
      | none => rfl
      | some y => exact absurd ((PyDict.get?_isSome _ _).1 (by rw [hc]; rfl)) hno
    have hge : ¬ (n ≤ k) := by omega
    refine ⟨{ st with cur := k, cache := PyDict.set (k : ℤ) (x k) st.cache,
                      log := ((k : ℤ), .ok (x k)) :: st.log }, ?_, h2, h3, h4, ?_⟩
    · rw [readAll, exec_append, h1]
      simp [exec, step, getStep, fgStep, h2, h3, h4, hp, hget, hge]
    · show PyDict.set (k : ℤ) (x k) st.cache = _
      rw [set_fresh hno, h5, List.range_succ, List.map_append]
      rfl

/-! ### The thread of a dropped data set -/

/-- **C98** (the prefetch thread never ends).  In every schedule, also after the caller has dropped its
last reference, the prefetch thread is running and can go on, the stop flag is not set and the
finaliser that would set it does not run. -/
theorem C98_never_ends (file : ℕ → Except Err (Item R)) (acts : List (Act R)) {st : St R}
    (hex : exec n pf (St.init file) acts = some st) :
    st.stop = false ∧ (∃ st', step n pf st .wk = some st') ∧ step n pf st .del = none := by
  have key : ∀ (acts : List (Act R)) (s : St R), exec n pf s acts = some st →
      s.stop = false → s.wpc.running = true → st.stop = false ∧ st.wpc.running = true := by
    intro acts
    induction acts with
    | nil => intro s h h1 h2; cases h; exact ⟨h1, h2⟩
    | cons a t ih =>
      intro s h h1 h2
      rw [exec_cons] at h
      obtain ⟨s1, e1, e2⟩ := Option.bind_eq_some_iff.1 h
      have : s1.stop = false ∧ s1.wpc.running = true := by
        cases a with
        | get idx =>
          simp only [step] at e1
          split_ifs at e1
          unfold getStep at e1
          cases hp : s.fpc <;> rw [hp] at e1 <;> simp only [reduceCtorEq] at e1
          split_ifs at e1 <;> cases e1 <;> exact ⟨h1, h2⟩
        | fg =>
          simp only [step] at e1
          unfold fgStep at e1
          cases hp : s.fpc with
          | idle => rw [hp] at e1; cases e1
          | check idx =>
            rw [hp] at e1
            simp only at e1
            cases hc : PyDict.get? s.cache idx <;> rw [hc] at e1 <;> cases e1 <;> exact ⟨h1, h2⟩
          | miss idx =>
            rw [hp] at e1
            simp only at e1
            cases hq : position n idx with
            | none => rw [hq] at e1; cases e1; exact ⟨h1, h2⟩
            | some p =>
              rw [hq] at e1
              simp only at e1
              cases hf : s.file p <;> rw [hf] at e1 <;> cases e1 <;> exact ⟨h1, h2⟩
          | insert idx x => rw [hp] at e1; cases e1; exact ⟨h1, h2⟩
        | fgFail =>
          simp only [step] at e1
          unfold fgFailStep at e1
          cases hp : s.fpc <;> rw [hp] at e1 <;> simp only [reduceCtorEq] at e1
          rename_i idx
          cases hq : position n idx <;> rw [hq] at e1 <;> cases e1
          exact ⟨h1, h2⟩
        | wk =>
          simp only [step] at e1
          unfold wkStep at e1
          cases hp : s.wpc with
          | top => rw [hp] at e1; cases e1; simp [h1, WPc.running]
          | scan c i acc =>
            rw [hp] at e1
            simp only at e1
            split_ifs at e1 <;> cases e1 <;> exact ⟨h1, rfl⟩
          | load c todo =>
            rw [hp] at e1
            cases todo with
            | nil => cases e1; exact ⟨h1, rfl⟩
            | cons idx todo =>
              simp only at e1
              split_ifs at e1 with h3
              · cases e1; exact ⟨h1, rfl⟩
              · cases hq : position n idx with
                | none => rw [hq] at e1; cases e1; exact ⟨h1, rfl⟩
                | some p =>
                  rw [hq] at e1
                  simp only at e1
                  cases hf : s.file p <;> rw [hf] at e1 <;> cases e1 <;> exact ⟨h1, rfl⟩
          | insert c idx x todo => rw [hp] at e1; cases e1; exact ⟨h1, rfl⟩
          | ended => rw [hp] at e1; cases e1
        | wkFail =>
          simp only [step] at e1
          unfold wkFailStep at e1
          cases hp : s.wpc with
          | load c todo =>
            rw [hp] at e1
            cases todo <;> cases e1
            exact ⟨h1, rfl⟩
          | _ => rw [hp] at e1; cases e1
        | write p x => cases e1; exact ⟨h1, h2⟩
        | drop =>
          simp only [step] at e1
          cases hp : s.fpc <;> rw [hp] at e1 <;> simp only [reduceCtorEq, Option.some.injEq] at e1
          subst e1
          exact ⟨h1, h2⟩
        | del =>
          simp only [step] at e1
          unfold delStep at e1
          rw [if_neg (by rw [h2]; simp)] at e1
          cases e1
      exact ih s1 e2 this.1 this.2
  obtain ⟨k1, k2⟩ := key acts _ hex rfl rfl
  refine ⟨k1, ?_, ?_⟩
  · simp only [step]
    unfold wkStep
    cases hp : st.wpc with
    | top => exact ⟨_, rfl⟩
    | scan c i acc =>
      simp only
      split_ifs <;> exact ⟨_, rfl⟩
    | load c todo =>
      cases todo with
      | nil => exact ⟨_, rfl⟩
      | cons idx todo =>
        simp only
        split_ifs
        · exact ⟨_, rfl⟩
        · cases position n idx with
          | none => exact ⟨_, rfl⟩
          | some p =>
            simp only
            cases st.file p <;> exact ⟨_, rfl⟩
    | insert c idx x todo => exact ⟨_, rfl⟩
    | ended => rw [hp] at k2; cases k2
  · simp only [step]
    unfold delStep
    rw [if_neg (by rw [k2]; simp)]

/-! ### Non-trivial cases -/

/-- Three chunks, the prefetch thread ahead of the reader. -/
def exFile (p : ℕ) : Except Err (Item ℕ) := if p = 2 then .error .runtimeError else .ok ([p], [(p, (0, 1))])

/-- A schedule in which the prefetch thread loads chunks 0 and 1, chunk 0 is answered from the cache,
chunk 2 cannot be loaded, chunk -3 is chunk 0 and chunk 3 does not exist. -/
def exActs : List (Act ℕ) :=
  [.wk, .wk, .wk, .wk, .wk, .wk, .get 0, .fg, .wk, .wk, .get 2, .fg, .fg, .get (-3), .fg, .fg, .wk, .fg,
    .get 3, .drop, .wk]

example : (∀ a ∈ exActs, a.quiet) ∧ (exec 3 2 (St.init exFile) exActs).map (fun st => st.log.reverse) =
    some [(0, .ok ([0], [(0, (0, 1))])), (2, .ok ([], [])), (-3, .ok ([0], [(0, (0, 1))])),
      (3, .error .indexError)] := by
  constructor
  · simp [exActs, Act.quiet]
  · rfl

end Verif.Disk.Prefetch
