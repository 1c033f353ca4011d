import Verif.TRAK.Model
import Verif.Base.Blocks
import Mathlib.Algebra.CharZero.Defs
import Mathlib.Tactic.FieldSimp

/-! # Helper lemmas for TRAK -/

namespace Verif.TRAK

open Matrix

variable {R X C : Type} {d : Nat}

lemma catRows_ok {α : Type} (l : Loader X) (f : X → α) (hb : 0 < l.bs) (hs : l.supported = true) (hne : l.data ≠ []) :
    catRows l f = .ok (l.data.map f) := by
  have key : ∀ k, (List.range k).foldlM (fun acc b =>
    if !l.supported then .error .typeError else .ok (acc ++ [(l.batch b).map f])) ([] : List (List α))
      = Except.ok (ε := Err) ((List.range k).map (fun b => (l.batch b).map f)) := by
    intro k
    induction k with
    | zero => rfl
    | succ k ih =>
      rw [List.range_succ, List.foldlM_append, ih]
      simp [bind, Except.bind, hs, pure, Except.pure]
  have hnb : 0 < l.nb := (lt_numBatches_iff hb).2 (by simpa using List.length_pos_iff.2 hne)
  unfold catRows
  rw [key]
  simp only [bind, Except.bind, List.length_map, List.length_range]
  rw [if_neg (by omega)]
  simp only [pure, Except.pure, Except.ok.injEq]
  have := flatten_batches l.bs hb l.data
  conv_rhs => rw [← this]
  rw [batches, List.map_flatten, List.map_map]
  rfl

lemma catRows_error {α β : Type} (l : Loader X) (f : X → α) (g : X → β) (e : Err) (h : catRows l f = .error e) :
    catRows l g = .error e := by
  have key : ∀ {α : Type} (f : X → α) k, (List.range k).foldlM (fun acc b =>
    if !l.supported then .error .typeError else .ok (acc ++ [(l.batch b).map f])) ([] : List (List α))
      = if !l.supported && 0 < k then Except.error Err.typeError else Except.ok ((List.range k).map (fun b => (l.batch b).map f)) := by
    intro α f k
    induction k with
    | zero => simp; rfl
    | succ k ih =>
      rw [List.range_succ, List.foldlM_append, ih]
      cases hs : l.supported <;> rcases k with _ | k <;> simp [bind, Except.bind, pure, Except.pure]
  unfold catRows at h ⊢
  rw [key] at h ⊢
  by_cases hc : (!l.supported && 0 < l.nb) = true
  · rw [if_pos hc] at h ⊢; cases h; rfl
  · rw [if_neg hc] at h ⊢
    simp only [bind, Except.bind, List.length_map, List.length_range] at h ⊢
    by_cases h0 : l.nb = 0
    · rw [if_pos h0] at h ⊢; cases h; rfl
    · rw [if_neg h0] at h; cases h

variable [Field R]

/-- The fold inside `cache`. -/
noncomputable def cacheFold (A : Attributor R X C d) (full : Loader X) (cs : List C) :
    Except Err (List (List (Fin d → R)) × Option (List R)) :=
  cs.zipIdx.foldlM (fun (s : List (List (Fin d → R)) × Option (List R)) ci => do
    let (Φ, q) ← trainPart A ci.1 full
    let inv ← solveT A.reg Φ
    pure (s.1 ++ [inv], some (runQ s.2 ci.2 q))) ([], none)

lemma bind_ok {α β : Type} {x : Except Err α} {f : α → Except Err β} {b : β} (h : (x >>= f) = .ok b) :
    ∃ a, x = .ok a ∧ f a = .ok b := by
  cases x with
  | error e => cases h
  | ok a => exact ⟨a, rfl, h⟩

lemma cacheFold_snoc (A : Attributor R X C d) (full : Loader X) (cs : List C) (c : C)
    (s : List (List (Fin d → R)) × Option (List R)) (h : cacheFold A full (cs ++ [c]) = .ok s) :
    ∃ s' Φ q inv, cacheFold A full cs = .ok s' ∧ trainPart A c full = .ok (Φ, q) ∧ solveT A.reg Φ = .ok inv ∧
      s = (s'.1 ++ [inv], some (runQ s'.2 cs.length q)) := by
  unfold cacheFold at h ⊢
  rw [List.zipIdx_append, List.foldlM_append] at h
  obtain ⟨s', h1, h2⟩ := bind_ok h
  simp only [List.zipIdx_singleton, Nat.zero_add, List.foldlM_cons, List.foldlM_nil] at h2
  obtain ⟨s2, h3, h4⟩ := bind_ok h2
  obtain ⟨⟨Φ, q⟩, h5, h6⟩ := bind_ok h3
  obtain ⟨inv, h7, h8⟩ := bind_ok h6
  refine ⟨s', Φ, q, inv, h1, h5, h7, ?_⟩
  cases h8; cases h4; rfl

lemma cacheFold_length (A : Attributor R X C d) (full : Loader X) (cs : List C)
    (s : List (List (Fin d → R)) × Option (List R)) (h : cacheFold A full cs = .ok s) : s.1.length = cs.length := by
  induction cs using List.reverseRecOn generalizing s with
  | nil => cases h; rfl
  | append_singleton cs c ih =>
    obtain ⟨s', Φ, q, inv, h1, -, -, rfl⟩ := cacheFold_snoc A full cs c s h
    simp [ih s' h1]

/-- The cached loop and the uncached loop run in lockstep. -/
lemma lockstep (A : Attributor R X C d) (full te : Loader X) (st : State R X d) (cs : List C)
    (s : List (List (Fin d → R)) × Option (List R)) (h : cacheFold A full cs = .ok s) (hp : s.1 <+: st.inv) :
    (cs.zipIdx.foldlM (attrStep A fresh (some full) te) (none, none)) =
      (cs.zipIdx.foldlM (attrStep A st none te) (none, none)).map (fun p => (p.1, s.2)) := by
  induction cs using List.reverseRecOn generalizing s with
  | nil => cases h; rfl
  | append_singleton cs c ih =>
    obtain ⟨s', Φ, q, inv, h1, h2, h3, rfl⟩ := cacheFold_snoc A full cs c s h
    have hlen := cacheFold_length A full cs s' h1
    have hget : st.inv[cs.length]? = some inv := by
      obtain ⟨t, ht⟩ := hp
      rw [← ht]; simp [← hlen]
    have := ih s' h1 ((List.prefix_append _ _).trans hp)
    rw [List.zipIdx_append, List.foldlM_append, List.foldlM_append, this]
    cases hc : cs.zipIdx.foldlM (attrStep A st none te) (none, none) with
    | error e => rfl
    | ok p =>
      simp only [Except.map, bind, Except.bind, List.zipIdx_singleton, Nat.zero_add, List.foldlM_cons, List.foldlM_nil,
        attrStep, h2, hget]
      cases catRows te (A.phiTarget c) with
      | error e => rfl
      | ok Ψ => simp [h3, pure, Except.pure]

end Verif.TRAK
