import Mathlib.Algebra.BigOperators.Group.List.Basic
import Mathlib.Tactic.Ring
import Mathlib.Tactic.Linarith
import Verif.BlockIF.MetaModel

/-!
# Lemmas about the metadata manager
-/

namespace Verif.BlockIF

open Verif

/-- Keys of `info` below `k`, their sizes added up. -/
def below (info : Info) (ks : List ℕ) (k : ℕ) : ℤ :=
  ((ks.filter fun e => decide (e < k)).map (countOf info)).sum

theorem recount_keys (info : Info) (ks : List ℕ) (cur : ℤ) :
    PyDict.keys (recount info ks cur).1 = ks := by
  induction ks generalizing cur with
  | nil => rfl
  | cons k ks ih =>
    have := ih (cur + countOf info k)
    unfold PyDict.keys at this ⊢
    simp [recount, this]

theorem recount_total (info : Info) (ks : List ℕ) (cur : ℤ) :
    (recount info ks cur).2 = cur + (ks.map (countOf info)).sum := by
  induction ks generalizing cur with
  | nil => simp [recount]
  | cons k ks ih => simp only [recount, ih, List.map_cons, List.sum_cons]; ring

theorem recount_get (info : Info) (ks : List ℕ) (cur : ℤ) (hs : ks.Pairwise (· < ·)) (k : ℕ)
    (hk : k ∈ ks) :
    PyDict.get? (recount info ks cur).1 k = some (countOf info k, cur + below info ks k) := by
  induction ks generalizing cur with
  | nil => cases hk
  | cons a ks ih =>
    rw [List.pairwise_cons] at hs
    simp only [recount, PyDict.get?]
    by_cases h : a = k
    · subst h
      rw [if_pos rfl]
      have : (a :: ks).filter (fun e => decide (e < a)) = [] := by
        rw [List.filter_eq_nil_iff]
        intro e he
        rcases List.mem_cons.1 he with rfl | he
        · simp
        · have := hs.1 e he
          simp; omega
      simp [below, this]
    · rw [if_neg h]
      have hk' : k ∈ ks := by
        rcases List.mem_cons.1 hk with rfl | h'
        · exact absurd rfl h
        · exact h'
      rw [ih _ hs.2 hk']
      have hlt := hs.1 k hk'
      simp only [below, List.filter_cons, decide_eq_true_eq, hlt, if_true, List.map_cons,
        List.sum_cons, Option.some.injEq, Prod.mk.injEq, true_and]
      ring

/-- The order used by `sorted`. -/
abbrev sorted (l : List ℕ) : List ℕ := l.mergeSort fun a b => decide (a ≤ b)

theorem sorted_lt {l : List ℕ} (h : l.Nodup) : (sorted l).Pairwise (· < ·) := by
  have h1 : (sorted l).Pairwise (fun a b => decide (a ≤ b) = true) :=
    List.pairwise_mergeSort (fun a b c hab hbc => by simp at *; omega)
      (fun a b => by simp; omega) l
  have h2 : (sorted l).Nodup := (List.mergeSort_perm l _).nodup_iff.2 h
  rw [List.Nodup] at h2
  have := h1.and h2
  exact this.imp fun ⟨a, b⟩ => lt_of_le_of_ne (by simpa using a) b

theorem sorted_perm (l : List ℕ) : (sorted l).Perm l := List.mergeSort_perm l _

theorem sorted_of_lt {l : List ℕ} (h : l.Pairwise (· < ·)) : sorted l = l :=
  List.mergeSort_of_pairwise (h.imp fun hab => by simp; omega)

theorem below_perm {info : Info} {a b : List ℕ} (h : a.Perm b) (k : ℕ) :
    below info a k = below info b k :=
  ((h.filter _).map _).sum_eq

theorem flush_nodup {m : Meta} (h : (PyDict.keys m.info).Nodup) :
    (PyDict.keys m.flush.info).Nodup := by
  unfold Meta.flush
  simp only
  generalize m.pending = p
  generalize m.info = i at h
  induction p generalizing i with
  | nil => exact h
  | cons a p ih => exact ih _ (PyDict.nodup_set h _ _)

theorem flush_of_empty {m : Meta} (h : m.pending = []) : m.flush = m := by
  unfold Meta.flush
  rw [h]
  obtain ⟨i, t, d, p, f⟩ := m
  simp only at h
  subst h
  rfl

theorem save_keys (m : Meta) : PyDict.keys m.save.info = sorted (PyDict.keys m.flush.info) := by
  unfold Meta.save
  exact recount_keys _ _ _

theorem save_pending (m : Meta) : m.save.pending = [] := rfl

theorem save_total (m : Meta) :
    m.save.total = ((PyDict.keys m.flush.info).map (countOf m.flush.info)).sum := by
  unfold Meta.save
  simp only [recount_total, zero_add]
  exact ((sorted_perm _).map _).sum_eq

theorem save_get {m : Meta} (h : (PyDict.keys m.info).Nodup) (k : ℕ)
    (hk : k ∈ PyDict.keys m.flush.info) :
    PyDict.get? m.save.info k =
      some (countOf m.flush.info k, below m.flush.info (PyDict.keys m.flush.info) k) := by
  unfold Meta.save
  simp only
  rw [recount_get _ _ _ (sorted_lt (flush_nodup h)) k ((sorted_perm _).mem_iff.2 hk), zero_add,
    below_perm (sorted_perm _)]

theorem save_nodup {m : Meta} (h : (PyDict.keys m.info).Nodup) :
    (PyDict.keys m.save.info).Nodup := by
  rw [save_keys]
  exact (sorted_perm _).nodup_iff.2 (flush_nodup h)

theorem countOf_set (info : Info) (k e : ℕ) (v : ℤ × ℤ) :
    countOf (PyDict.set k v info) e = if e = k then v.1 else countOf info e := by
  unfold countOf
  rw [PyDict.get?_set]
  split_ifs <;> rfl

theorem fill_count (l : Loader) (ks : List ℕ) (info : Info) (cur : ℤ) (e : ℕ) :
    countOf (fill l ks info cur).1 e = if e ∈ ks then l.count e else countOf info e := by
  induction ks generalizing info cur with
  | nil => simp [fill]
  | cons k ks ih =>
    simp only [fill, ih, countOf_set, List.mem_cons]
    by_cases h1 : e ∈ ks
    · simp [h1]
    · by_cases h2 : e = k
      · subst h2; simp [h1]
      · simp [h1, h2]

theorem fill_mem (l : Loader) (ks : List ℕ) (info : Info) (cur : ℤ) (e : ℕ) :
    e ∈ PyDict.keys (fill l ks info cur).1 ↔ e ∈ ks ∨ e ∈ PyDict.keys info := by
  induction ks generalizing info cur with
  | nil => simp [fill]
  | cons k ks ih =>
    simp only [fill, ih, PyDict.mem_keys_set, List.mem_cons]
    tauto

theorem fill_nodup (l : Loader) (ks : List ℕ) (info : Info) (cur : ℤ)
    (h : (PyDict.keys info).Nodup) : (PyDict.keys (fill l ks info cur).1).Nodup := by
  induction ks generalizing info cur with
  | nil => exact h
  | cons k ks ih => exact ih _ _ (PyDict.nodup_set h _ _)

theorem mapping_get (m : Meta) (k : ℕ) :
    PyDict.get? m.mapping k = (PyDict.get? m.flush.info k).map fun p => (p.2, p.2 + p.1) := by
  unfold Meta.mapping
  generalize m.flush.info = i
  induction i with
  | nil => rfl
  | cons a i ih =>
    obtain ⟨a, b, c⟩ := a
    simp only [List.map_cons, PyDict.get?]
    by_cases h : a = k
    · simp [h]
    · simp only [if_neg h, ih]

theorem mapping_keys (m : Meta) : PyDict.keys m.mapping = PyDict.keys m.flush.info := by
  unfold Meta.mapping PyDict.keys
  rw [List.map_map]
  rfl

end Verif.BlockIF
