import Verif.Attr.PrecModel

/-! # Lemmas on the model of precisions -/

namespace Verif.Prec

open Verif DT

variable {S : Type}

theorem times_zero (body : S → Except Err S) (s : S) : times 0 body s = .ok s := rfl

theorem times_succ (n : ℕ) (body : S → Except Err S) (s : S) :
    times (n + 1) body s = (body s >>= fun t : S => times n body t) := by
  unfold times
  rw [List.range_succ_eq_map, List.foldlM_cons]
  congr 1
  funext t
  rw [List.foldlM_map]

theorem times_fix {body : S → Except Err S} {s : S} (h : body s = .ok s) (n : ℕ) : times n body s = .ok s := by
  induction n with
  | zero => rfl
  | succ n ih => rw [times_succ, h]; exact ih

theorem times_err {body : S → Except Err S} {s : S} {e : Err} (h : body s = .error e) {n : ℕ} (hn : n ≠ 0) :
    times n body s = .error e := by
  cases n with
  | zero => exact absurd rfl hn
  | succ n => rw [times_succ, h]; rfl

theorem times_push {T : Type} {c : Except Err T} {x : T} (h : c = .ok x) (n : ℕ) (l : List T) :
    times n (fun l : List T => do
      let y ← c
      pure (l ++ [y])) l = .ok (l ++ List.replicate n x) := by
  subst h
  induction n generalizing l with
  | zero => simp [times_zero]
  | succ n ih =>
    rw [times_succ]
    have : ((do let y ← (Except.ok x : Except Err T); pure (l ++ [y])) : Except Err (List T)) = .ok (l ++ [x]) := rfl
    rw [this]
    refine (ih (l ++ [x])).trans ?_
    simp [List.replicate_succ]

theorem ew_self (a : DT) : ew a a = a := by simp [ew]

theorem mm_self (a : DT) : mm a a = .ok a := by simp [mm]

theorem foldl_ew_replicate (n : ℕ) (a : DT) : (List.replicate n a).foldl ew a = a := by
  induction n with
  | zero => rfl
  | succ n ih => rw [List.replicate_succ, List.foldl_cons, ew_self]; exact ih

theorem cat_replicate {n : ℕ} (hn : n ≠ 0) (a : DT) : cat (List.replicate n a) = .ok a := by
  cases n with
  | zero => exact absurd rfl hn
  | succ n => rw [List.replicate_succ]; simp only [cat, foldl_ew_replicate]

theorem cat_all {l : List DT} (hl : l ≠ []) {a : DT} (h : ∀ x ∈ l, x = a) : cat l = .ok a := by
  rw [List.eq_replicate_of_mem h]
  exact cat_replicate (by simpa using hl) a

/-! ## Conjugate gradients -/

theorem cgStep_fix (m : DT) : cgStep m (m, m, m, m) = .ok (m, m, m, m) := by
  simp [cgStep, hvpAt, ew_self, mm_self, inPlace, bind, Except.bind, pure, Except.pure]

theorem ihvpCG_ok (n : ℕ) (m : DT) : ihvpCG n m m = .ok m := by
  unfold ihvpCG
  simp only [hvpAt, ew_self]
  rw [times_fix (cgStep_fix m)]
  rfl

/-! ## LiSSA -/

theorem lissaStep_single (d : DT) : lissaStep single d single single = .ok single := rfl

theorem lissaStep_other {m : DT} (hm : m ≠ single) (d v c : DT) : lissaStep m d v c = .error .runtimeError := by
  simp [lissaStep, lissaCollate, lossOf, mm, hm, bind, Except.bind]

theorem ihvpLissa_ok {r d : ℕ} (hr : r ≠ 0) {m : DT} (h : d = 0 ∨ m = single) (x : DT) : ihvpLissa r d m x m = .ok m := by
  unfold ihvpLissa
  have hc : times d (lissaStep m x m) m = .ok m := by
    rcases h with rfl | rfl
    · rfl
    · exact times_fix (lissaStep_single x) d
  rw [times_push hc]
  show cat _ = _
  rw [List.nil_append]
  exact cat_replicate hr m

theorem ihvpLissa_err {r d : ℕ} {m : DT} (h : ¬(r ≠ 0 ∧ (d = 0 ∨ m = single))) (x : DT) :
    ihvpLissa r d m x m = .error .runtimeError := by
  unfold ihvpLissa
  rcases Nat.eq_zero_or_pos r with rfl | hr
  · rfl
  · have hr' : r ≠ 0 := Nat.pos_iff_ne_zero.1 hr
    have hd : d ≠ 0 ∧ m ≠ single := by
      constructor <;> intro h' <;> exact h ⟨hr', by simp [h']⟩
    have hc : times d (lissaStep m x m) m = .error .runtimeError := times_err (lissaStep_other hd.2 _ _ _) hd.1
    rw [times_err (e := .runtimeError) (by rw [hc]; rfl) hr']
    rfl

/-! ## Sums over the full training set -/

theorem overFull_ok {ihvp : DT → Except Err DT} {v x : DT} (h : ihvp v = .ok x) {full : ℕ} (hf : full ≠ 0) :
    overFull full ihvp v = .ok (some x) := by
  unfold overFull
  cases full with
  | zero => exact absurd rfl hf
  | succ n =>
    rw [times_succ, h]
    exact times_fix (s := some x) (body := fun acc : Option DT => (do
      let y ← (Except.ok x : Except Err DT)
      pure (accum acc y))) rfl n

theorem overFull_err {ihvp : DT → Except Err DT} {v : DT} {e : Err} (h : ihvp v = .error e) {full : ℕ} (hf : full ≠ 0) :
    overFull full ihvp v = .error e := by
  unfold overFull
  exact times_err (by rw [h]; rfl) hf

/-! ## Arnoldi -/

theorem arnoldiOrth_same {h : DT} {l : List DT} (hl : ∀ x ∈ l, x = h) : arnoldiOrth h l = .ok h := by
  unfold arnoldiOrth
  induction l with
  | nil => rfl
  | cons a l ih =>
    rw [List.foldlM_cons, hl a (by simp), mm_self]
    exact ih (fun x hx => hl x (by simp [hx]))

theorem getLastD_of_all {l : List DT} (hl : ∀ x ∈ l, x = single) : l.getLastD single = single := by
  rcases List.eq_nil_or_concat l with rfl | ⟨l', a, rfl⟩
  · rfl
  · have := hl a (by simp)
    simp [this]

theorem arnoldiStep_single {m : DT} (hm : m ≠ double) (small : ℕ → Bool) (s : List DT × Bool) (hs : s.1 ≠ [] ∧ ∀ x ∈ s.1, x = single)
    (n : ℕ) : ∃ t : List DT × Bool, arnoldiStep m small s n = .ok t ∧ t.1 ≠ [] ∧ ∀ x ∈ t.1, x = single := by
  unfold arnoldiStep
  split
  · exact ⟨s, rfl, hs⟩
  · have e : hvpAt m single = single := by cases m <;> first | rfl | exact absurd rfl hm
    rw [getLastD_of_all hs.2, e, arnoldiOrth_same hs.2]
    refine ⟨_, rfl, by simp, ?_⟩
    intro x hx
    rcases List.mem_append.1 hx with h | h
    · exact hs.2 x h
    · simpa using h

theorem arnoldiLoop_single {m : DT} (hm : m ≠ double) (small : ℕ → Bool) (l : List ℕ) (s : List DT × Bool)
    (hs : s.1 ≠ [] ∧ ∀ x ∈ s.1, x = single) :
    ∃ t : List DT × Bool, l.foldlM (arnoldiStep m small) s = .ok t ∧ t.1 ≠ [] ∧ ∀ x ∈ t.1, x = single := by
  induction l generalizing s with
  | nil => exact ⟨s, rfl, hs⟩
  | cons a l ih =>
    obtain ⟨t, ht, h'⟩ := arnoldiStep_single hm small s hs a
    rw [List.foldlM_cons, ht]
    exact ih t h'

theorem arnoldiSpace_ok {m : DT} (hm : m ≠ double) (small : ℕ → Bool) (n : ℕ) : arnoldiSpace m small n = .ok single := by
  obtain ⟨t, ht, h0, h1⟩ := arnoldiLoop_single hm small (List.range n) ([single], false) ⟨by simp, by simp⟩
  unfold arnoldiSpace
  rw [ht]
  show (cat t.1 >>= fun proj : DT => eigh single >>= fun q : DT => mm q proj) = _
  rw [cat_all h0 h1]
  rfl

theorem arnoldiProject_single (small : ℕ → Bool) (n : ℕ) : arnoldiProject single small n single = .ok single := by
  unfold arnoldiProject
  rw [arnoldiSpace_ok (by decide) small n]
  rfl

theorem arnoldiProject_other {m : DT} (hm : m ≠ single) (small : ℕ → Bool) (n : ℕ) :
    arnoldiProject m small n m = .error .runtimeError := by
  unfold arnoldiProject
  cases m with
  | half => rw [arnoldiSpace_ok (by decide) small n]; rfl
  | single => exact absurd rfl hm
  | double =>
    cases n with
    | zero => rfl
    | succ n =>
      have : arnoldiSpace double small (n + 1) = .error .runtimeError := by
        unfold arnoldiSpace
        rw [List.range_succ_eq_map, List.foldlM_cons]
        rfl
      rw [this]
      rfl

/-! ## DataInf -/

theorem dataInfTransform_ok {l : ℕ} (hl : l ≠ 0) (c : ℕ) (m : DT) : dataInfTransform l c m m = .ok single := by
  unfold dataInfTransform
  have h : times c (fun run : DT => do
      let c ← dataInfOne m m
      pure (inPlace run c)) single = .ok single := by
    apply times_fix
    simp [dataInfOne, mm_self, inPlace, bind, Except.bind, pure, Except.pure]
  rw [times_push h]
  show cat _ = _
  rw [List.nil_append]
  exact cat_replicate hl single

theorem dataInfTransform_zero (c : ℕ) (m : DT) : dataInfTransform 0 c m m = .error .runtimeError := rfl

end Verif.Prec
