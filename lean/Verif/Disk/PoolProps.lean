import Verif.Disk.PoolModel
import Mathlib.Data.List.Nodup

/-! # C205: recycling buffers is invisible -/

namespace Verif.Disk.Pool

open Verif Verif.Disk

variable {R : Type}

/-! ## Specification: every chunk has a buffer of its own -/

/-- The open chunks with what was stored in them; no buffer is ever used twice. -/
abbrev Ideal (R : Type) := List (Key × Buffer R)

/-- One operation without a pool. -/
def stepI (maxRows : ℕ) (s : Ideal R) : POp R → Ideal R × POut R
  | .openBuf k => (if k ∈ PyDict.keys s then s else s ++ [(k, ⟨[], []⟩)], .nothing)
  | .append k b rows =>
    match PyDict.get? s k with
    | none => (s, .raised .keyError)
    | some buf =>
      if buf.tensor.length + rows.length > maxRows then (s, .raised .runtimeError)
      else (PyDict.set k ⟨buf.tensor ++ rows,
        buf.info ++ [⟨b, buf.tensor.length, buf.tensor.length + rows.length⟩]⟩ s, .nothing)
  | .take k =>
    match PyDict.get? s k with
    | none => (s, .nothing)
    | some buf => (PyDict.erase k s, .task buf)
  | .overflow k =>
    match PyDict.get? s k with
    | none => (s, .nothing)
    | some buf => (PyDict.erase k s ++ [(k, ⟨[], []⟩)], .task buf)

/-- A sequence of operations without a pool. -/
def runI (maxRows : ℕ) (s : Ideal R) : List (POp R) → Ideal R × List (POut R)
  | [] => (s, [])
  | o :: os => ((runI maxRows (stepI maxRows s o).1 os).1,
      (stepI maxRows s o).2 :: (runI maxRows (stepI maxRows s o).1 os).2)

/-- What a buffer object holds for its chunk. -/
def Obj.view (o : Obj R) : Buffer R := ⟨o.tensor.take o.row, o.info⟩

/-- The open chunks of a state with what their buffers hold. -/
def view (s : PSt R) : Ideal R := s.bufs.map fun p => (p.1, (s.heap p.2).view)

/-- Number of open chunks of a data type. -/
def openCount (s : PSt R) (dt : DT) : ℕ := (s.bufs.filter fun p => decide (p.1.1 = dt)).length

/-! ## Invariant -/

/-- No buffer is at two places, neither pool holds more than its size, and together with the buffers in use it holds at least as many. -/
structure Good (cfg : PCfg) (s : PSt R) : Prop where
  keys : (PyDict.keys s.bufs).Nodup
  ids : (s.avail .gradients ++ s.avail .ifvp ++ s.bufs.map Prod.snd).Nodup
  old : ∀ a ∈ s.avail .gradients ++ s.avail .ifvp ++ s.bufs.map Prod.snd, a < s.next
  len : ∀ a, (s.heap a).tensor.length = cfg.maxRows
  row : ∀ p ∈ s.bufs, (s.heap p.2).row ≤ cfg.maxRows
  cap : ∀ dt, (s.avail dt).length ≤ cfg.size
  enough : ∀ dt, cfg.size ≤ (s.avail dt).length + openCount s dt

/-! ## Lemmas on dictionaries -/

theorem map_set {κ α β : Type} [DecidableEq κ] (f : α → β) (k : κ) (v : α) (m : List (κ × α)) :
    (PyDict.set k v m).map (fun p => (p.1, f p.2)) = PyDict.set k (f v) (m.map fun p => (p.1, f p.2)) := by
  induction m with
  | nil => rfl
  | cons p t ih =>
      obtain ⟨k', v'⟩ := p
      simp only [PyDict.set, List.map_cons]
      split_ifs <;> simp [ih]

theorem map_get {κ α β : Type} [DecidableEq κ] (f : α → β) (m : List (κ × α)) (k : κ) :
    PyDict.get? (m.map fun p => (p.1, f p.2)) k = (PyDict.get? m k).map f := by
  induction m with
  | nil => rfl
  | cons p t ih =>
      obtain ⟨k', v'⟩ := p
      simp only [PyDict.get?, List.map_cons]
      split_ifs <;> simp [ih]

theorem map_erase {κ α β : Type} [DecidableEq κ] (f : α → β) (k : κ) (m : List (κ × α)) :
    (PyDict.erase k m).map (fun p => (p.1, f p.2)) = PyDict.erase k (m.map fun p => (p.1, f p.2)) := by
  unfold PyDict.erase
  rw [List.filter_map]
  rfl

theorem set_absent {κ α : Type} [DecidableEq κ] (k : κ) (v : α) (m : List (κ × α)) (h : k ∉ PyDict.keys m) :
    PyDict.set k v m = m ++ [(k, v)] := by
  induction m with
  | nil => rfl
  | cons p t ih =>
      obtain ⟨k', v'⟩ := p
      simp only [PyDict.keys, List.map_cons, List.mem_cons, not_or] at h ih
      rw [PyDict.set, if_neg (fun e => h.1 e.symm), ih h.2]
      rfl

/-- Changing the object of one open chunk changes the entry of that chunk only. -/
theorem view_update (heap : ℕ → Obj R) (m : List (Key × ℕ)) (k : Key) (a : ℕ) (o : Obj R)
    (hn : (m.map Prod.snd).Nodup) (hk : PyDict.get? m k = some a) :
    m.map (fun p => (p.1, (Function.update heap a o p.2).view)) =
      PyDict.set k o.view (m.map fun p => (p.1, (heap p.2).view)) := by
  induction m with
  | nil => simp [PyDict.get?] at hk
  | cons p t ih =>
      obtain ⟨k', a'⟩ := p
      simp only [List.map_cons, List.nodup_cons] at hn
      simp only [PyDict.get?] at hk
      simp only [List.map_cons, PyDict.set]
      split_ifs at hk with h
      · injection hk with hk
        subst hk
        subst h
        simp only [Function.update_self, if_true, List.cons.injEq, true_and]
        refine List.map_congr_left fun p hp => ?_
        rw [Function.update_of_ne]
        rintro rfl
        exact hn.1 (List.mem_map.2 ⟨p, hp, rfl⟩)
      · rw [if_neg h, ih hn.2 hk, Function.update_of_ne]
        rintro rfl
        exact hn.1 (List.mem_map.2 ⟨_, PyDict.mem_of_get? hk, rfl⟩)

theorem view_fresh (heap : ℕ → Obj R) (m : List (Key × ℕ)) (a : ℕ) (o : Obj R) (h : a ∉ m.map Prod.snd) :
    m.map (fun p => (p.1, (Function.update heap a o p.2).view)) = m.map fun p => (p.1, (heap p.2).view) := by
  refine List.map_congr_left fun p hp => ?_
  rw [Function.update_of_ne]
  rintro rfl
  exact h (List.mem_map.2 ⟨p, hp, rfl⟩)

theorem keys_view (s : PSt R) : PyDict.keys (view s) = PyDict.keys s.bufs := by
  simp [view, PyDict.keys, Function.comp_def]

/-! ## The invariant is kept -/

/-- All places where buffers are. -/
def ids (s : PSt R) : List ℕ := s.avail .gradients ++ s.avail .ifvp ++ s.bufs.map Prod.snd

theorem ids_pop (s : PSt R) (dt : DT) (a : ℕ) (rest : List ℕ) (h : s.avail dt = a :: rest) (heap : ℕ → Obj R) (n : ℕ) :
    (ids s).Perm (a :: ids ⟨heap, Function.update s.avail dt rest, s.bufs, n⟩) := by
  cases dt
  · simp only [ids, h, Function.update_self]
    rw [Function.update_of_ne (by simp)]
    exact List.Perm.refl _
  · simp only [ids, h, Function.update_self]
    rw [Function.update_of_ne (by simp), List.append_assoc, List.append_assoc, List.cons_append]
    exact List.perm_middle

theorem ids_push (s : PSt R) (dt : DT) (a : ℕ) :
    (ids { s with avail := Function.update s.avail dt (s.avail dt ++ [a]) }).Perm (a :: ids s) := by
  cases dt
  · simp only [ids, Function.update_self]
    rw [Function.update_of_ne (by simp)]
    simp only [List.append_assoc, List.singleton_append]
    exact List.perm_middle
  · simp only [ids, Function.update_self]
    rw [Function.update_of_ne (by simp)]
    simp only [List.append_assoc, List.singleton_append]
    rw [← List.append_assoc, ← List.append_assoc (s.avail .gradients)]
    exact List.perm_middle

theorem bufs_erase {m : List (Key × ℕ)} (hn : (PyDict.keys m).Nodup) {k : Key} {a : ℕ} (h : PyDict.get? m k = some a) :
    m.Perm ((k, a) :: PyDict.erase k m) := by
  induction m with
  | nil => simp [PyDict.get?] at h
  | cons p t ih =>
      obtain ⟨k', a'⟩ := p
      simp only [PyDict.keys, List.map_cons, List.nodup_cons] at hn ih
      simp only [PyDict.get?] at h
      split_ifs at h with e
      · injection h with h
        subst h
        subst e
        have : PyDict.erase k' ((k', a') :: t) = t := by
          unfold PyDict.erase
          rw [List.filter_cons_of_neg (by simp), List.filter_eq_self]
          intro p hp
          have : p.1 ≠ k' := fun e => hn.1 (List.mem_map.2 ⟨p, hp, e⟩)
          simpa using this
        rw [this]
      · have h2 : PyDict.erase k ((k', a') :: t) = (k', a') :: PyDict.erase k t := by
          unfold PyDict.erase
          rw [List.filter_cons_of_pos (by simpa using e)]
        rw [h2]
        exact ((ih hn.2 h).cons _).trans (List.Perm.swap _ _ _)

theorem init_good [Zero R] (cfg : PCfg) : Good cfg (PSt.init cfg : PSt R) := by
  constructor
  · simp [PSt.init, PyDict.keys]
  · simp only [PSt.init, List.map_nil, List.append_nil]
    rw [List.nodup_append]
    refine ⟨List.nodup_range, List.nodup_range', ?_⟩
    intro a ha b hb
    rw [List.mem_range] at ha
    rw [List.mem_range'_1] at hb
    omega
  · simp only [PSt.init, List.map_nil, List.append_nil, List.mem_append, List.mem_range, List.mem_range'_1]
    omega
  · intro a; simp [PSt.init, blank]
  · intro p hp; simp [PSt.init] at hp
  · intro dt; cases dt <;> simp [PSt.init]
  · intro dt; cases dt <;> simp [PSt.init]

theorem openC_avail [Zero R] (cfg : PCfg) (s : PSt R) (k : Key) (hk : PyDict.get? s.bufs k = none) (a : ℕ) (rest : List ℕ)
    (h : s.avail k.1 = a :: rest) : openC cfg s k =
      ⟨Function.update s.heap a { s.heap a with row := 0, info := [] }, Function.update s.avail k.1 rest, s.bufs ++ [(k, a)],
        s.next⟩ := by
  simp only [openC, hk, getBuffer, h]
  rw [set_absent _ _ _ ((PyDict.get?_eq_none _ _).1 hk)]

theorem openC_empty [Zero R] (cfg : PCfg) (s : PSt R) (k : Key) (hk : PyDict.get? s.bufs k = none) (h : s.avail k.1 = []) :
    openC cfg s k = ⟨Function.update s.heap s.next (blank cfg), s.avail, s.bufs ++ [(k, s.next)], s.next + 1⟩ := by
  simp only [openC, hk, getBuffer, h]
  rw [set_absent _ _ _ ((PyDict.get?_eq_none _ _).1 hk)]

theorem keys_append {m : List (Key × ℕ)} {k : Key} {a : ℕ} (hn : (PyDict.keys m).Nodup) (hk : PyDict.get? m k = none) :
    (PyDict.keys (m ++ [(k, a)])).Nodup := by
  have h := (PyDict.get?_eq_none _ _).1 hk
  unfold PyDict.keys at hn h ⊢
  rw [List.map_append, List.nodup_append]
  refine ⟨hn, by simp, ?_⟩
  intro x hx y hy e
  simp only [List.map_cons, List.map_nil, List.mem_singleton] at hy
  exact h (hy ▸ e ▸ hx)

theorem open_good [Zero R] (cfg : PCfg) (s : PSt R) (hs : Good cfg s) (k : Key) :
    Good cfg (openC cfg s k) ∧ view (openC cfg s k) = (stepI cfg.maxRows (view s) (.openBuf k)).1 := by
  have hkeys := keys_view s
  cases hk : PyDict.get? s.bufs k with
  | some a =>
      have h1 : openC cfg s k = s := by simp only [openC, hk]
      have h2 : k ∈ PyDict.keys (view s) := by
        rw [hkeys, ← PyDict.get?_isSome, hk]; rfl
      rw [h1]
      refine ⟨hs, ?_⟩
      simp only [stepI, if_pos h2]
  | none =>
      have h2 : k ∉ PyDict.keys (view s) := by
        rw [hkeys]; exact (PyDict.get?_eq_none _ _).1 hk
      simp only [stepI, if_neg h2]
      cases h : s.avail k.1 with
      | nil =>
          rw [openC_empty cfg s k hk h]
          have hnew : s.next ∉ ids s := fun hm => Nat.lt_irrefl _ (hs.old _ hm)
          have hnb : s.next ∉ s.bufs.map Prod.snd := fun hm => hnew (by simp only [ids, List.mem_append]; exact Or.inr hm)
          refine ⟨⟨keys_append hs.keys hk, ?_, ?_, ?_, ?_, hs.cap, ?_⟩, ?_⟩
          · simp only [List.map_append, List.map_cons, List.map_nil, ← List.append_assoc]
            rw [List.nodup_append]
            refine ⟨hs.ids, by simp, ?_⟩
            intro x hx y hy e
            simp only [List.mem_singleton] at hy
            exact hnew (hy ▸ e ▸ hx)
          · simp only [List.map_append, List.map_cons, List.map_nil, ← List.append_assoc]
            intro x hx
            rcases List.mem_append.1 hx with hx | hx
            · exact Nat.lt_succ_of_lt (hs.old x hx)
            · simp only [List.mem_singleton] at hx
              omega
          · intro a
            by_cases ha : a = s.next
            · subst ha; simp [blank]
            · simp only [Function.update_of_ne ha]; exact hs.len a
          · intro p hp
            rcases List.mem_append.1 hp with hp | hp
            · have : p.2 ≠ s.next := fun e => hnb (List.mem_map.2 ⟨p, hp, e⟩)
              simp only [Function.update_of_ne this]
              exact hs.row p hp
            · simp only [List.mem_singleton] at hp
              subst hp
              simp [blank]
          · intro dt
            have := hs.enough dt
            simp only [openCount, List.filter_append, List.length_append] at this ⊢
            omega
          · simp only [view, List.map_append, List.map_cons, List.map_nil, Function.update_self]
            rw [view_fresh s.heap s.bufs s.next (blank cfg) hnb]
            simp [blank, Obj.view]
      | cons a rest =>
          rw [openC_avail cfg s k hk a rest h]
          have hp := ids_pop s k.1 a rest h (Function.update s.heap a { s.heap a with row := 0, info := [] }) s.next
          have hnd := (hp.nodup_iff).1 hs.ids
          rw [List.nodup_cons] at hnd
          have hnb : a ∉ s.bufs.map Prod.snd := fun hm => hnd.1 (by simp only [ids, List.mem_append]; exact Or.inr hm)
          refine ⟨⟨keys_append hs.keys hk, ?_, ?_, ?_, ?_, ?_, ?_⟩, ?_⟩
          · simp only [List.map_append, List.map_cons, List.map_nil, ← List.append_assoc]
            rw [List.nodup_append]
            refine ⟨hnd.2, by simp, ?_⟩
            intro x hx y hy e
            simp only [List.mem_singleton] at hy
            exact hnd.1 (hy ▸ e ▸ hx)
          · simp only [List.map_append, List.map_cons, List.map_nil, ← List.append_assoc]
            intro x hx
            rcases List.mem_append.1 hx with hx | hx
            · exact hs.old x (hp.mem_iff.2 (List.mem_cons_of_mem _ hx))
            · simp only [List.mem_singleton] at hx
              subst hx
              exact hs.old x (hp.mem_iff.2 List.mem_cons_self)
          · intro b
            by_cases hb : b = a
            · subst hb; simp only [Function.update_self]; exact hs.len b
            · simp only [Function.update_of_ne hb]; exact hs.len b
          · intro p hp
            rcases List.mem_append.1 hp with hp | hp
            · have : p.2 ≠ a := fun e => hnb (List.mem_map.2 ⟨p, hp, e⟩)
              simp only [Function.update_of_ne this]
              exact hs.row p hp
            · simp only [List.mem_singleton] at hp
              subst hp
              simp
          · intro dt
            have := hs.cap dt
            by_cases hd : dt = k.1
            · subst hd
              simp only [Function.update_self]
              rw [h, List.length_cons] at this
              omega
            · simp only [Function.update_of_ne hd]; exact this
          · intro dt
            have := hs.enough dt
            simp only [openCount, List.filter_append, List.length_append] at this ⊢
            by_cases hd : dt = k.1
            · subst hd
              simp only [Function.update_self, decide_true, List.filter_cons_of_pos, List.filter_nil, List.length_singleton]
              rw [h, List.length_cons] at this
              omega
            · simp only [Function.update_of_ne hd]; omega
          · simp only [view, List.map_append, List.map_cons, List.map_nil, Function.update_self]
            rw [view_fresh s.heap s.bufs a _ hnb]
            simp [Obj.view]

theorem view_get (s : PSt R) (k : Key) : PyDict.get? (view s) k = (PyDict.get? s.bufs k).map fun a => (s.heap a).view :=
  map_get (fun a => (s.heap a).view) s.bufs k

theorem append_good [Zero R] (cfg : PCfg) (s : PSt R) (hs : Good cfg s) (k : Key) (b : ℕ) (rows : List R) :
    Good cfg (appendC cfg s k b rows).1 ∧
      (view (appendC cfg s k b rows).1, (appendC cfg s k b rows).2) = stepI cfg.maxRows (view s) (.append k b rows) := by
  have hg := view_get s k
  simp only [appendC, stepI, hg]
  cases hk : PyDict.get? s.bufs k with
  | none => exact ⟨hs, rfl⟩
  | some a =>
      have hmem := PyDict.mem_of_get? hk
      have hr := hs.row _ hmem
      have hl := hs.len a
      simp only at hr
      have hlen : ((s.heap a).tensor.take (s.heap a).row).length = (s.heap a).row := by
        rw [List.length_take]; omega
      simp only [Option.map_some, Obj.view, hlen]
      split_ifs with h
      · exact ⟨hs, rfl⟩
      · have hidn : (s.bufs.map Prod.snd).Nodup := (List.nodup_append.1 hs.ids).2.1
        refine ⟨⟨hs.keys, hs.ids, hs.old, ?_, ?_, hs.cap, hs.enough⟩, ?_⟩
        · intro x
          by_cases hx : x = a
          · subst hx
            simp only [Function.update_self, Obj.write, List.length_append, List.length_take, List.length_drop]
            omega
          · simp only [Function.update_of_ne hx]; exact hs.len x
        · intro p hp
          by_cases hx : p.2 = a
          · simp only [hx, Function.update_self, Obj.write]
            omega
          · simp only [Function.update_of_ne hx]; exact hs.row p hp
        · simp only [view, Prod.mk.injEq, and_true]
          rw [view_update s.heap s.bufs k a _ hidn hk]
          congr 1
          simp only [Obj.write, Obj.view, Buffer.mk.injEq, and_true]
          rw [List.take_append_of_le_length (by rw [List.length_append, hlen]; exact Nat.le_refl _)]
          rw [List.take_of_length_le (by rw [List.length_append, hlen]; exact Nat.le_refl _)]

theorem take_good [Zero R] (cfg : PCfg) (s : PSt R) (hs : Good cfg s) (k : Key) :
    Good cfg (takeC cfg s k).1 ∧ (view (takeC cfg s k).1, (takeC cfg s k).2) = stepI cfg.maxRows (view s) (.take k) := by
  have hg := view_get s k
  simp only [takeC, stepI, hg]
  cases hk : PyDict.get? s.bufs k with
  | none => exact ⟨hs, rfl⟩
  | some a =>
      have hp := bufs_erase hs.keys hk
      have hpi : (ids s).Perm (a :: ids { s with bufs := PyDict.erase k s.bufs }) := by
        refine ((hp.map Prod.snd).append_left (s.avail .gradients ++ s.avail .ifvp)).trans ?_
        simp only [List.map_cons, ids]
        exact List.perm_middle
      have hnd := hpi.nodup_iff.1 hs.ids
      rw [List.nodup_cons] at hnd
      have hkn : (PyDict.keys (PyDict.erase k s.bufs)).Nodup :=
        List.Nodup.sublist (List.Sublist.map _ List.filter_sublist) hs.keys
      have hrow : ∀ p ∈ PyDict.erase k s.bufs, (s.heap p.2).row ≤ cfg.maxRows :=
        fun p hp' => hs.row p (List.mem_of_mem_filter hp')
      have hcount : ∀ dt, openCount s dt = (if k.1 = dt then 1 else 0) +
          openCount { s with bufs := PyDict.erase k s.bufs } dt := by
        intro dt
        have := (hp.filter fun p => decide (p.1.1 = dt)).length_eq
        unfold openCount
        rw [this, List.filter_cons]
        by_cases hd : k.1 = dt
        · simp [hd, Nat.add_comm]
        · simp [hd]
      have hview : view { s with bufs := PyDict.erase k s.bufs } = PyDict.erase k (view s) :=
        map_erase (fun a => (s.heap a).view) k s.bufs
      simp only [Option.map_some, returnBuffer]
      split_ifs with hc
      · have hpush := ids_push { s with bufs := PyDict.erase k s.bufs } k.1 a
        have hsame : (ids (⟨s.heap, Function.update s.avail k.1 (s.avail k.1 ++ [a]),
            PyDict.erase k s.bufs, s.next⟩ : PSt R)).Perm (ids s) := hpush.trans hpi.symm
        refine ⟨⟨hkn, hsame.nodup_iff.2 hs.ids, fun x hx => hs.old x (hsame.mem_iff.1 hx), hs.len, hrow, ?_, ?_⟩, ?_⟩
        · intro dt
          have := hs.cap dt
          by_cases hd : dt = k.1
          · subst hd
            simp only [Function.update_self, List.length_append, List.length_singleton]
            omega
          · simp only [Function.update_of_ne hd]; exact this
        · intro dt
          have h1 := hs.enough dt
          rw [hcount dt] at h1
          by_cases hd : dt = k.1
          · subst hd
            simp only [Function.update_self, List.length_append, List.length_singleton, if_true, openCount] at h1 ⊢
            omega
          · simp only [Function.update_of_ne hd, openCount]
            rw [if_neg (fun e => hd e.symm)] at h1
            simp only [openCount] at h1
            omega
        · simp only [Prod.mk.injEq]
          exact ⟨hview, rfl⟩
      · refine ⟨⟨hkn, hnd.2, fun x hx => hs.old x (hpi.mem_iff.2 (List.mem_cons_of_mem _ hx)), hs.len, hrow, hs.cap, ?_⟩, ?_⟩
        · intro dt
          have h1 := hs.enough dt
          rw [hcount dt] at h1
          by_cases hd : k.1 = dt
          · subst hd
            have := hs.cap k.1
            simp only at hc ⊢
            omega
          · rw [if_neg hd] at h1
            simp only [openCount] at h1 ⊢
            omega
        · simp only [Prod.mk.injEq]
          exact ⟨hview, rfl⟩

/-- After a buffer was returned there is one to get. -/
theorem take_avail (cfg : PCfg) (hc : 0 < cfg.size) (s : PSt R) (k : Key) (a : ℕ) (hk : PyDict.get? s.bufs k = some a) :
    (takeC cfg s k).1.avail k.1 ≠ [] := by
  simp only [takeC, hk, returnBuffer]
  split_ifs with h
  · simp
  · intro e
    simp only at h e
    rw [e] at h
    simp only [List.length_nil] at h
    exact h hc

theorem overflow_good [Zero R] (cfg : PCfg) (hc : 0 < cfg.size) (s : PSt R) (hs : Good cfg s) (k : Key) :
    Good cfg (overflowC cfg s k).1 ∧
      (view (overflowC cfg s k).1, (overflowC cfg s k).2) = stepI cfg.maxRows (view s) (.overflow k) := by
  have hg := view_get s k
  cases hk : PyDict.get? s.bufs k with
  | none =>
      simp only [overflowC, stepI, hg, hk]
      exact ⟨hs, rfl⟩
  | some a =>
      obtain ⟨t1, t2⟩ := take_good cfg s hs k
      obtain ⟨o1, o2⟩ := open_good cfg (takeC cfg s k).1 t1 k
      have hne := take_avail cfg hc s k a hk
      have habs : PyDict.get? (takeC cfg s k).1.bufs k = none := by
        simp only [takeC, hk, returnBuffer]
        split_ifs <;> simp [PyDict.get?_erase]
      have heq : overflowC cfg s k = (openC cfg (takeC cfg s k).1 k, (takeC cfg s k).2) := by
        cases e : (takeC cfg s k).1.avail k.1 with
        | nil => exact absurd e hne
        | cons x rest =>
            simp only [overflowC, hk, openC, habs, getBuffer, e]
      rw [heq]
      refine ⟨o1, ?_⟩
      simp only [stepI, hg, hk, Option.map_some] at t2 ⊢
      rw [o2]
      have t2a := congrArg Prod.fst t2
      have t2b := congrArg Prod.snd t2
      simp only at t2a t2b
      rw [t2a, t2b]
      have : k ∉ PyDict.keys (PyDict.erase k (view s)) := by
        rw [PyDict.mem_keys_erase]; simp
      simp only [stepI, if_neg this]

theorem step_good [Zero R] (cfg : PCfg) (hc : 0 < cfg.size) (s : PSt R) (hs : Good cfg s) (o : POp R) :
    Good cfg (stepC cfg s o).1 ∧ (view (stepC cfg s o).1, (stepC cfg s o).2) = stepI cfg.maxRows (view s) o := by
  cases o with
  | openBuf k =>
      obtain ⟨h1, h2⟩ := open_good cfg s hs k
      exact ⟨h1, Prod.ext h2 rfl⟩
  | append k b rows => exact append_good cfg s hs k b rows
  | take k => exact take_good cfg s hs k
  | overflow k => exact overflow_good cfg hc s hs k

theorem run_good [Zero R] (cfg : PCfg) (hc : 0 < cfg.size) (os : List (POp R)) : ∀ s : PSt R, Good cfg s →
    Good cfg (runC cfg s os).1 ∧ (view (runC cfg s os).1, (runC cfg s os).2) = runI cfg.maxRows (view s) os := by
  induction os with
  | nil => intro s hs; exact ⟨hs, rfl⟩
  | cons o os ih =>
      intro s hs
      obtain ⟨h1, h2⟩ := step_good cfg hc s hs o
      obtain ⟨g1, g2⟩ := ih _ h1
      refine ⟨g1, ?_⟩
      have e1 := congrArg Prod.fst h2
      have e2 := congrArg Prod.snd h2
      have f1 := congrArg Prod.fst g2
      have f2 := congrArg Prod.snd g2
      simp only at e1 e2 f1 f2
      simp only [runC, runI, ← e1, ← e2, ← f1, ← f2]

theorem size_pos (n m : ℕ) : 0 < (mkCfg n m).size := by
  simp only [mkCfg]
  omega

/-! ## Theorems -/

/-- Recycling is invisible: whatever the operations, every task holds exactly what was stored in its chunk since it was opened, and
everything that is shown is as if every chunk had a new buffer of its own. -/
theorem C205_invisible [Zero R] (bufferPoolSize maxRows : ℕ) (os : List (POp R)) :
    (view (runC (mkCfg bufferPoolSize maxRows) (PSt.init (mkCfg bufferPoolSize maxRows)) os).1,
      (runC (mkCfg bufferPoolSize maxRows) (PSt.init (mkCfg bufferPoolSize maxRows)) os).2) = runI maxRows [] os :=
  (run_good (mkCfg bufferPoolSize maxRows) (size_pos _ _) os _ (init_good _)).2

/-- No buffer ever belongs to two chunks, or to a chunk and a pool, and no pool grows beyond its size. -/
theorem C205_exclusive [Zero R] (bufferPoolSize maxRows : ℕ) (os : List (POp R)) :
    let s := (runC (mkCfg bufferPoolSize maxRows) (PSt.init (mkCfg bufferPoolSize maxRows)) os).1
    (s.avail .gradients ++ s.avail .ifvp ++ s.bufs.map Prod.snd).Nodup ∧
      ∀ dt, (s.avail dt).length ≤ max 8 bufferPoolSize := by
  have h := (run_good (R := R) (mkCfg bufferPoolSize maxRows) (size_pos _ _) os _ (init_good _)).1
  exact ⟨h.ids, h.cap⟩

/-- A chunk gets its buffer without waiting as long as fewer chunks of its kind are open than the pool has buffers, so at least seven
others may be open. -/
theorem C205_no_wait [Zero R] (bufferPoolSize maxRows : ℕ) (os : List (POp R)) (dt : DT) :
    let s := (runC (mkCfg bufferPoolSize maxRows) (PSt.init (mkCfg bufferPoolSize maxRows)) os).1
    openCount s dt < max 8 bufferPoolSize → (getBuffer s dt).isSome := by
  intro s hlt
  have h := (run_good (R := R) (mkCfg bufferPoolSize maxRows) (size_pos _ _) os _ (init_good _)).1
  have he := h.enough dt
  simp only [mkCfg] at he
  unfold getBuffer
  cases e : s.avail dt with
  | nil =>
      exfalso
      have : (s.avail dt).length = 0 := by rw [e]; rfl
      simp only [s, mkCfg] at this hlt
      omega
  | cons a r => rfl

/-- The request for a new buffer after an overflow never fails, whatever happened before. -/
theorem C205_overflow [Zero R] (bufferPoolSize maxRows : ℕ) (os : List (POp R)) (k : Key) :
    let cfg := mkCfg bufferPoolSize maxRows
    (overflowC cfg (runC cfg (PSt.init cfg) os).1 k).2 ≠ .raised .runtimeError := by
  intro cfg
  have hc : 0 < cfg.size := size_pos _ _
  have h := (run_good (R := R) cfg hc os _ (init_good _)).1
  have h2 := congrArg Prod.snd (overflow_good cfg hc _ h k).2
  simp only at h2
  rw [h2]
  simp only [stepI]
  cases PyDict.get? (view (runC cfg (PSt.init cfg) os).1) k <;> simp

/-- The writer model (C62-C64, C95, C96) changes its buffers by the operations without a pool. -/
theorem C205_writer (cfg : Cfg) (st : St R) (k : Key) (b : ℕ) (rows : List R) (c : Cont R) :
    (openBuffer st k).1.buffers = (stepI cfg.maxRows st.buffers (.openBuf k)).1 ∧
    (beginFlush st k c).buffers = (stepI cfg.maxRows st.buffers (.take k)).1 ∧
    ((append cfg st k b rows).buffers = (runI cfg.maxRows st.buffers [.append k b rows]).1 ∨
      (append cfg st k b rows).buffers = (runI cfg.maxRows st.buffers [.append k b rows, .take k]).1) ∧
    (k ∈ PyDict.keys st.buffers →
      PyDict.set k ⟨[], []⟩ (beginFlush st k c).buffers = (stepI cfg.maxRows st.buffers (.overflow k)).1) := by
  refine ⟨?_, ?_, ?_, ?_⟩
  · simp only [openBuffer, stepI]
    cases h : PyDict.get? st.buffers k with
    | none =>
        have := (PyDict.get?_eq_none _ _).1 h
        simp only [if_neg this]
        exact set_absent _ _ _ this
    | some x =>
        have : k ∈ PyDict.keys st.buffers := by rw [← PyDict.get?_isSome, h]; rfl
        simp only [if_pos this]
  · simp only [beginFlush, stepI]
    cases h : PyDict.get? st.buffers k <;> rfl
  · simp only [append, runI, stepI]
    cases h : PyDict.get? st.buffers k with
    | none => exact Or.inl rfl
    | some x =>
        simp only
        split_ifs with h1 h2
        · exact Or.inl rfl
        · refine Or.inr ?_
          simp only [beginFlush]
          cases PyDict.get? (PyDict.set k (⟨x.tensor ++ rows,
            x.info ++ [⟨b, x.tensor.length, x.tensor.length + rows.length⟩]⟩ : Buffer R) st.buffers) k <;> rfl
        · exact Or.inl rfl
  · intro hm
    simp only [beginFlush, stepI]
    cases h : PyDict.get? st.buffers k with
    | none => exact absurd hm ((PyDict.get?_eq_none _ _).1 h)
    | some x =>
        simp only
        refine set_absent _ _ _ ?_
        rw [PyDict.mem_keys_erase]
        simp

/-! ## Examples -/

/-- A recycled buffer still holds old rows, but the task of the next chunk does not show them. -/
example : ((runC (R := ℕ) ⟨1, 3⟩ (PSt.init ⟨1, 3⟩)
    [.openBuf (.gradients, 0), .append (.gradients, 0) 0 [7, 8, 9], .take (.gradients, 0),
      .openBuf (.gradients, 1), .append (.gradients, 1) 1 [4]]).1.heap 0).tensor = [4, 8, 9] := by decide

example : (runC (R := ℕ) ⟨1, 3⟩ (PSt.init ⟨1, 3⟩)
    [.openBuf (.gradients, 0), .append (.gradients, 0) 0 [7, 8, 9], .take (.gradients, 0),
      .openBuf (.gradients, 1), .append (.gradients, 1) 1 [4], .take (.gradients, 1)]).2.map (fun o => match o with
        | .task b => some b.tensor
        | _ => none) = [none, none, some [7, 8, 9], none, none, some [4]] := by decide

/-- Eight chunks are open, the ninth gets a buffer outside the pool, and the first is given back. -/
example : ((runC (R := ℕ) (mkCfg 2 1) (PSt.init (mkCfg 2 1))
    ((List.range 9).map (fun i : ℕ => .openBuf (.ifvp, i)) ++ [.take (.ifvp, 0)])).1.avail .ifvp) = [8] := by decide

example : openCount (runC (R := ℕ) (mkCfg 2 1) (PSt.init (mkCfg 2 1))
    ((List.range 7).map (fun i : ℕ => .openBuf (.ifvp, i)))).1 .ifvp < max 8 2 := by decide

end Verif.Disk.Pool
