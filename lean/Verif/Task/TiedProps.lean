import Verif.Task.TiedModel
import Mathlib.Analysis.Calculus.FDeriv.Comp
import Mathlib.Analysis.Calculus.FDeriv.Pi
import Mathlib.Data.Fintype.Sigma
import Mathlib.Data.Fin.VecNotation
import Mathlib.Tactic.FinCases

/-!
# C236: models in which several layers share a parameter
-/

namespace Verif.Tied

open Verif

variable {R : Type} (N : Net)

/-! ### Specification -/

/-- `k` is the first name of a trainable tensor. -/
def First (k : String) : Prop := ∃ s, N.name s = k ∧ (∀ t, t < s → N.obj t ≠ N.obj s) ∧ N.trainable (N.obj s) = true

/-! ### Helper lemmas -/

lemma mem_params (s : Fin N.n) : s ∈ params N ↔ (∀ t, t < s → N.obj t ≠ N.obj s) ∧ N.trainable (N.obj s) = true := by
  simp [params, namedParameters, List.mem_filter, and_comm]

lemma nodup_params : (params N).Nodup := ((List.nodup_finRange _).filter _).filter _

lemma first_iff (k : String) : First N k ↔ ∃ s ∈ params N, N.name s = k := by
  constructor
  · rintro ⟨s, h1, h2⟩
    exact ⟨s, (mem_params N s).2 h2, h1⟩
  · rintro ⟨s, h1, h2⟩
    exact ⟨s, h2, (mem_params N s).1 h1⟩

lemma exists_first (o : Fin N.m) : ∃ s, N.obj s = o ∧ ∀ t, t < s → N.obj t ≠ N.obj s := by
  obtain ⟨s0, hs0⟩ := N.obj_surj o
  obtain ⟨s, hs, hmin⟩ := Finset.exists_min_image (Finset.univ.filter fun s => N.obj s = o) id ⟨s0, by simpa using hs0⟩
  have hs' : N.obj s = o := by simpa using hs
  refine ⟨s, hs', fun t ht h => ?_⟩
  have := hmin t (by simp [h, hs'])
  exact absurd ht (not_lt.2 this)

lemma lookup_map (l : List (Fin N.n)) (g : Fin N.n → List R) (s : Fin N.n) :
    (l.map fun t => (N.name t, g t)).lookup (N.name s) = if s ∈ l then some (g s) else none := by
  induction l with
  | nil => rfl
  | cons t l ih =>
    rw [List.map_cons, List.lookup_cons]
    by_cases h : s = t
    · subst h
      simp
    · have hne : (N.name s == N.name t) = false := by
        simpa using fun he => h (N.name_inj he)
      rw [hne, ih]
      simp [h]

lemma lookup_none (l : List (Fin N.n)) (g : Fin N.n → List R) (k : String) (h : ∀ s ∈ l, N.name s ≠ k) :
    (l.map fun t => (N.name t, g t)).lookup k = none := by
  induction l with
  | nil => rfl
  | cons t l ih =>
    rw [List.map_cons, List.lookup_cons]
    have hne : (k == N.name t) = false := by
      simpa using fun he : k = N.name t => h t (by simp) he.symm
    rw [hne, ih fun s hs => h s (by simp [hs])]

lemma unflatten_flat (w w' : Fin N.m → List R) (ss : List (Fin N.n)) (hlen : ∀ s ∈ ss, (w' (N.obj s)).length = (w (N.obj s)).length) :
    unflatten N w ss (ss.map fun s => w' (N.obj s)).flatten = .ok (ss.map fun s => (N.name s, w' (N.obj s))) := by
  induction ss with
  | nil => rfl
  | cons s ss ih =>
    have h := hlen s (by simp)
    rw [List.map_cons, List.flatten_cons, unflatten, ← h, List.take_left, if_pos rfl, List.drop_left, ih fun t ht => hlen t (by simp [ht])]
    rfl

lemma filled_params (w w' : Fin N.m → List R) (s : Fin N.n) :
    filled N w ((params N).map fun s => (N.name s, w' (N.obj s))) s = if N.trainable (N.obj s) then w' (N.obj s) else w (N.obj s) := by
  unfold filled
  rw [lookup_map N (params N) (fun t => w' (N.obj t)) s]
  by_cases hs : s ∈ params N
  · rw [if_pos hs, if_pos ((mem_params N s).1 hs).2]
  · rw [if_neg hs]
    dsimp only
    cases hf : (List.finRange N.n).findSome? fun t => if N.obj t = N.obj s then
      ((params N).map fun s => (N.name s, w' (N.obj s))).lookup (N.name t) else none with
    | some x =>
      obtain ⟨t, -, ht⟩ := List.exists_of_findSome?_eq_some hf
      dsimp only
      by_cases h : N.obj t = N.obj s
      · rw [if_pos h, lookup_map N (params N) (fun t => w' (N.obj t)) t] at ht
        by_cases htp : t ∈ params N
        · rw [if_pos htp, h] at ht
          have := ((mem_params N t).1 htp).2
          rw [h] at this
          rw [if_pos this]
          exact (Option.some.inj ht).symm
        · rw [if_neg htp] at ht
          simp at ht
      · rw [if_neg h] at ht
        simp at ht
    | none =>
      dsimp only
      rw [if_neg]
      intro htr
      obtain ⟨t, h1, h2⟩ := exists_first N (N.obj s)
      have := List.findSome?_eq_none_iff.1 hf t (List.mem_finRange t)
      rw [if_pos h1, lookup_map N (params N) (fun t => w' (N.obj t)) t, if_pos ((mem_params N t).2 ⟨h2, by rw [h1]; exact htr⟩)] at this
      simp at this

lemma lossAt_flat {A : Type} (L : (Fin N.n → List R) → A) (w w' : Fin N.m → List R) (hlen : ∀ o, (w' o).length = (w o).length) :
    lossAt N L w ((params N).map fun s => w' (N.obj s)).flatten =
      .ok (L fun s => if N.trainable (N.obj s) then w' (N.obj s) else w (N.obj s)) := by
  unfold lossAt
  rw [unflatten_flat N w w' _ fun s _ => hlen _]
  dsimp only
  congr 2
  funext s
  exact filled_params N w w' s

lemma replace_ok (l : List (Fin N.n)) (ls : List String) (hnd : ls.Nodup) (u : Fin N.n → List R) (g : String → List R)
    (hk : ∀ k ∈ ls, ∃ s ∈ l, N.name s = k ∧ (g k).length = (u s).length) (rest : List R) :
    replaceLayers (l.map fun s => (N.name s, u s)) ls ((ls.map g).flatten ++ rest) =
      .ok (l.map fun s => (N.name s, if N.name s ∈ ls then g (N.name s) else u s)) := by
  induction ls generalizing u with
  | nil => simp [replaceLayers]
  | cons k ks ih =>
    obtain ⟨s, hs, rfl, hl⟩ := hk k (by simp)
    rw [List.nodup_cons] at hnd
    rw [replaceLayers, lookup_map N l u s, if_pos hs, List.map_cons, List.flatten_cons, List.append_assoc]
    dsimp only
    rw [← hl, List.take_left, List.drop_left]
    have hmap : ((l.map fun s => (N.name s, u s)).map fun p => if p.1 = N.name s then (N.name s, g (N.name s)) else p) =
        l.map fun t => (N.name t, if N.name t = N.name s then g (N.name s) else u t) := by
      rw [List.map_map]
      refine List.map_congr_left fun t _ => ?_
      simp only [Function.comp_apply]
      split_ifs with h
      · rw [h]
      · rfl
    rw [hmap, ih hnd.2]
    · congr 1
      refine List.map_congr_left fun t _ => ?_
      by_cases h1 : N.name t = N.name s
      · rw [h1]
        simp [hnd.1]
      · simp [h1]
    · intro k' hk'
      obtain ⟨t, h1, h2, h3⟩ := hk k' (by simp [hk'])
      refine ⟨t, h1, h2, ?_⟩
      rw [h3, if_neg]
      intro he
      exact hnd.1 (by rw [← he, h2]; exact hk')

lemma replace_error (l : List (Fin N.n)) (ls : List String) (u : Fin N.n → List R) (hk : ∃ k ∈ ls, ∀ s ∈ l, N.name s ≠ k) (v : List R) :
    replaceLayers (l.map fun s => (N.name s, u s)) ls v = .error .keyError := by
  induction ls generalizing u v with
  | nil => simp at hk
  | cons k ks ih =>
    rw [replaceLayers]
    by_cases hkl : ∃ s ∈ l, N.name s = k
    · obtain ⟨s, hs, rfl⟩ := hkl
      rw [lookup_map N l u s, if_pos hs]
      dsimp only
      have hmap : ((l.map fun s => (N.name s, u s)).map fun p => if p.1 = N.name s then (N.name s, v.take (u s).length) else p) =
          l.map fun t => (N.name t, if N.name t = N.name s then v.take (u s).length else u t) := by
        rw [List.map_map]
        refine List.map_congr_left fun t _ => ?_
        simp only [Function.comp_apply]
        split_ifs with h
        · rw [h]
        · rfl
      rw [hmap]
      refine ih _ ?_ _
      obtain ⟨k', h1, h2⟩ := hk
      rcases List.mem_cons.1 h1 with rfl | h1
      · exact absurd rfl (h2 s hs)
      · exact ⟨k', h1, h2⟩
    · rw [lookup_none N l u k fun s hs he => hkl ⟨s, hs, he⟩]

lemma eraseDups_nodup {ls : List String} (h : ls.Nodup) : ls.eraseDups = ls := by
  induction ls with
  | nil => rfl
  | cons a l ih =>
    rw [List.nodup_cons] at h
    rw [List.eraseDups_cons]
    congr 1
    rw [List.filter_eq_self.2, ih h.2]
    intro b hb
    have : b ≠ a := fun he => h.1 (he ▸ hb)
    simpa using this

lemma select_taskParams (w : Fin N.m → List R) {ls : List String} (h : ls.Nodup) :
    select (taskParams N w) (some ls) = ls.filterMap fun k => ((taskParams N w).lookup k).map fun x => (k, x) := by
  rw [select, eraseDups_nodup h]

lemma lookup_taskParams (w : Fin N.m → List R) (s : Fin N.n) (hs : s ∈ params N) : (taskParams N w).lookup (N.name s) = some (w (N.obj s)) := by
  rw [taskParams, lookup_map N (params N) (fun t => w (N.obj t)) s, if_pos hs]

lemma select_eq_nil (w : Fin N.m → List R) {ls : List String} (h : ls.Nodup) :
    select (taskParams N w) (some ls) = [] ↔ ∀ k ∈ ls, ¬ First N k := by
  rw [select_taskParams N w h, List.filterMap_eq_nil_iff]
  refine forall_congr' fun k => forall_congr' fun _ => ?_
  rw [Option.map_eq_none_iff, first_iff]
  constructor
  · rintro hl ⟨s, hs, rfl⟩
    rw [lookup_taskParams N w s hs] at hl
    simp at hl
  · intro hl
    exact lookup_none N _ _ k fun s hs he => hl ⟨s, hs, he⟩

/-! ### C236 -/

/-- **C236** (each tensor once). The parameters of a task are the trainable tensors, each once, under the first of its names. -/
theorem C236_names : ((params N).map N.obj).Nodup ∧ (∀ s ∈ params N, ∀ t, N.obj t = N.obj s → s ≤ t) ∧
    ∀ o, N.trainable o = true ↔ ∃ s ∈ params N, N.obj s = o := by
  refine ⟨?_, ?_, ?_⟩
  · refine (List.nodup_map_iff_inj_on (nodup_params N)).2 fun s hs t ht h => ?_
    rcases lt_trichotomy s t with h1 | h1 | h1
    · exact absurd h (((mem_params N t).1 ht).1 s h1)
    · exact h1
    · exact absurd h.symm (((mem_params N s).1 hs).1 t h1)
  · intro s hs t h
    by_contra hlt
    exact ((mem_params N s).1 hs).1 t (not_le.1 hlt) h
  · intro o
    constructor
    · intro h
      obtain ⟨s, rfl, h2⟩ := exists_first N o
      exact ⟨s, (mem_params N s).2 ⟨h2, h⟩, rfl⟩
    · rintro ⟨s, hs, rfl⟩
      exact ((mem_params N s).1 hs).2

/-- **C236** (all uses move together). Evaluated at the flattened values `w'` of the trainable tensors, the task's loss is the user's loss with `w'` in every place that
uses such a tensor, under whatever name. -/
theorem C236_values {A : Type} (L : (Fin N.n → List R) → A) (w w' : Fin N.m → List R) (hlen : ∀ o, (w' o).length = (w o).length)
    (ht : ∃ o, N.trainable o = true) :
    ∃ v, flattenParams (select (taskParams N w') none) = .ok v ∧
      lossFn N L w none v = .ok (L fun s => if N.trainable (N.obj s) then w' (N.obj s) else w (N.obj s)) := by
  obtain ⟨o, ho⟩ := ht
  obtain ⟨s, hs, -⟩ := ((C236_names N).2.2 o).1 ho
  refine ⟨((params N).map fun s => w' (N.obj s)).flatten, ?_, lossAt_flat N L w w' hlen⟩
  rw [flattenParams, if_neg]
  · simp [select, taskParams, Function.comp_def]
  · intro h
    simp only [select, taskParams, List.map_eq_nil_iff] at h
    rw [h] at hs
    simp at hs

lemma unflatten_short (w : Fin N.m → List R) (ss : List (Fin N.n)) (v : List R) :
    (v.length < (ss.map fun s => (w (N.obj s)).length).sum → unflatten N w ss v = .error .runtimeError) ∧
    ((ss.map fun s => (w (N.obj s)).length).sum ≤ v.length → unflatten N w ss v = unflatten N w ss (v.take (ss.map fun s => (w (N.obj s)).length).sum) ∧
      ∃ d, unflatten N w ss v = .ok d) := by
  induction ss generalizing v with
  | nil => exact ⟨fun h => by simp at h, fun _ => ⟨rfl, [], rfl⟩⟩
  | cons s ss ih =>
    simp only [List.map_cons, List.sum_cons]
    obtain ⟨i1, i2⟩ := ih (v.drop (w (N.obj s)).length)
    rw [List.length_drop] at i1 i2
    constructor
    · intro h
      rw [unflatten]
      split_ifs with hl
      · rw [List.length_take] at hl
        rw [i1 (by omega)]
      · rfl
    · intro h
      obtain ⟨i3, d, i4⟩ := i2 (by omega)
      have e1 : (v.take (w (N.obj s)).length).length = (w (N.obj s)).length := by rw [List.length_take]; omega
      have e2 : (v.take ((w (N.obj s)).length + (ss.map fun s => (w (N.obj s)).length).sum)).take (w (N.obj s)).length = v.take (w (N.obj s)).length := by
        rw [List.take_take]; congr 1; omega
      have e3 : (v.take ((w (N.obj s)).length + (ss.map fun s => (w (N.obj s)).length).sum)).drop (w (N.obj s)).length =
          (v.drop (w (N.obj s)).length).take (ss.map fun s => (w (N.obj s)).length).sum := by
        rw [List.drop_take]; congr 1; omega
      rw [unflatten, unflatten, e2, e3, if_pos e1, if_pos e1, ← i3, i4]
      exact ⟨rfl, _, rfl⟩

/-- **C236** (vectors of another length). A vector shorter than all trainable parameters together raises `RuntimeError`; numbers beyond that length are ignored. -/
theorem C236_length {A : Type} (L : (Fin N.n → List R) → A) (w : Fin N.m → List R) (v : List R) :
    (v.length < ((params N).map fun s => (w (N.obj s)).length).sum → lossFn N L w none v = .error .runtimeError) ∧
    (∀ u, v.length = ((params N).map fun s => (w (N.obj s)).length).sum → lossFn N L w none (v ++ u) = lossFn N L w none v ∧ ∃ a, lossFn N L w none v = .ok a) := by
  constructor
  · intro h
    dsimp only [lossFn, lossAt]
    rw [(unflatten_short N w (params N) v).1 h]
  · intro u h
    dsimp only [lossFn, lossAt]
    obtain ⟨h1, -⟩ := (unflatten_short N w (params N) (v ++ u)).2 (by rw [← h, List.length_append]; omega)
    obtain ⟨-, d, h3⟩ := (unflatten_short N w (params N) v).2 h.ge
    rw [h1, ← h, List.take_left, h3]
    exact ⟨rfl, _, rfl⟩

/-- **C236** (`layer_name`). With a list of distinct names the loss is evaluated at the model's parameters if the list is not empty and all names are first names of
trainable tensors. It raises `StopIteration` exactly when none is, and `KeyError` exactly when some are and some are not. -/
theorem C236_layer_name {A : Type} (L : (Fin N.n → List R) → A) (w : Fin N.m → List R) (ls : List String) (hnd : ls.Nodup) :
    (evaluate N L w (some ls) = .error .stopIteration ↔ ∀ k ∈ ls, ¬ First N k) ∧
    (evaluate N L w (some ls) = .error .keyError ↔ (∃ k ∈ ls, First N k) ∧ ∃ k ∈ ls, ¬ First N k) ∧
    (ls ≠ [] → (∀ k ∈ ls, First N k) → evaluate N L w (some ls) = .ok (L fun s => w (N.obj s))) := by
  have hA : (∀ k ∈ ls, ¬ First N k) → evaluate N L w (some ls) = .error .stopIteration := by
    intro h
    rw [evaluate, (select_eq_nil N w hnd).2 h]
    rfl
  have hB : (∃ k ∈ ls, First N k) → (∃ k ∈ ls, ¬ First N k) → evaluate N L w (some ls) = .error .keyError := by
    rintro ⟨k1, h1, h2⟩ ⟨k, hk, hf⟩
    have hne : select (taskParams N w) (some ls) ≠ [] := fun h => (select_eq_nil N w hnd).1 h k1 h1 h2
    rw [evaluate, flattenParams, if_neg hne]
    dsimp only [lossFn]
    rw [partialAt, taskParams, replace_error N (params N) ls (fun s => w (N.obj s)) ⟨k, hk, fun s hs he => hf ((first_iff N k).2 ⟨s, hs, he⟩)⟩]
  have hC : ls ≠ [] → (∀ k ∈ ls, First N k) → evaluate N L w (some ls) = .ok (L fun s => w (N.obj s)) := by
    intro hls hall
    have hsel : select (taskParams N w) (some ls) = ls.map fun k => (k, ((taskParams N w).lookup k).getD []) := by
      rw [select_taskParams N w hnd]
      rw [← List.filterMap_eq_map]
      refine List.filterMap_congr fun k hk => ?_
      obtain ⟨s, hs, rfl⟩ := (first_iff N k).1 (hall k hk)
      simp only [Function.comp_apply]
      rw [lookup_taskParams N w s hs]
      rfl
    have hne : select (taskParams N w) (some ls) ≠ [] := by
      rw [hsel]
      simpa using hls
    rw [evaluate, flattenParams, if_neg hne, hsel]
    dsimp only [lossFn]
    have hrep := replace_ok N (params N) ls hnd (fun s => w (N.obj s)) (fun k => ((taskParams N w).lookup k).getD []) (by
      intro k hk
      obtain ⟨s, hs, rfl⟩ := (first_iff N k).1 (hall k hk)
      exact ⟨s, hs, rfl, by rw [lookup_taskParams N w s hs]; rfl⟩) []
    rw [List.append_nil] at hrep
    have hsame : ((params N).map fun s => (N.name s, if N.name s ∈ ls then ((taskParams N w).lookup (N.name s)).getD [] else w (N.obj s))) =
        taskParams N w := by
      rw [taskParams]
      refine List.map_congr_left fun s hs => ?_
      rw [← taskParams, lookup_taskParams N w s hs]
      simp
    rw [hsame] at hrep
    change replaceLayers (taskParams N w) _ _ = _ at hrep
    have harg : (ls.map fun k => (k, ((taskParams N w).lookup k).getD [])).map (·.2) = ls.map fun k => ((taskParams N w).lookup k).getD [] := by
      rw [List.map_map]
      rfl
    rw [partialAt, harg, hrep]
    dsimp only
    have hne' : taskParams N w ≠ [] := by
      intro h
      apply hne
      rw [select_taskParams N w hnd, h]
      simp
    rw [flattenParams, if_neg hne']
    dsimp only
    have hflat : (taskParams N w).map (·.2) = (params N).map fun s => w (N.obj s) := by
      rw [taskParams, List.map_map]
      rfl
    rw [hflat, lossAt_flat N L w w fun _ => rfl]
    simp
  refine ⟨⟨fun h => ?_, hA⟩, ⟨fun h => ?_, fun h => hB h.1 h.2⟩, hC⟩
  · by_contra hn
    push Not at hn
    by_cases hall : ∀ k ∈ ls, First N k
    · obtain ⟨k, hk, -⟩ := hn
      rw [hC (List.ne_nil_of_mem hk) hall] at h
      simp at h
    · push Not at hall
      rw [hB hn hall] at h
      simp at h
  · by_cases h1 : ∀ k ∈ ls, ¬ First N k
    · rw [hA h1] at h
      simp at h
    · push Not at h1
      refine ⟨h1, ?_⟩
      by_contra h2
      push Not at h2
      obtain ⟨k, hk, -⟩ := h1
      rw [hC (List.ne_nil_of_mem hk) h2] at h
      simp at h

/-- **C236** (the restricted loss). For first names of trainable tensors the restricted loss at the new values of these tensors, one after the other as requested, is the
user's loss with the new values in every place that uses one of them and the checkpoint's elsewhere. -/
theorem C236_restricted {A : Type} (L : (Fin N.n → List R) → A) (w w' : Fin N.m → List R) (hlen : ∀ o, (w' o).length = (w o).length)
    (ss : List (Fin N.n)) (hnd : ss.Nodup) (hne : ss ≠ []) (hf : ∀ s ∈ ss, (∀ t, t < s → N.obj t ≠ N.obj s) ∧ N.trainable (N.obj s) = true) :
    lossFn N L w (some (ss.map N.name)) (ss.map fun s => w' (N.obj s)).flatten =
      .ok (L fun s => if ∃ t ∈ ss, N.obj t = N.obj s then w' (N.obj s) else w (N.obj s)) := by
  have hp : ∀ s ∈ ss, s ∈ params N := fun s hs => (mem_params N s).2 (hf s hs)
  have hrep := replace_ok N (params N) (ss.map N.name) (hnd.map N.name_inj) (fun s => w (N.obj s)) (fun k => ((taskParams N w').lookup k).getD []) (by
    intro k hk
    obtain ⟨s, hs, rfl⟩ := List.mem_map.1 hk
    refine ⟨s, hp s hs, rfl, ?_⟩
    rw [lookup_taskParams N w' s (hp s hs)]
    exact hlen _) []
  have harg : ((ss.map N.name).map fun k => ((taskParams N w').lookup k).getD []) = ss.map fun s => w' (N.obj s) := by
    rw [List.map_map]
    refine List.map_congr_left fun s hs => ?_
    rw [Function.comp_apply, lookup_taskParams N w' s (hp s hs)]
    rfl
  rw [harg, List.append_nil] at hrep
  let u : Fin N.m → List R := fun o => if ∃ t ∈ ss, N.obj t = o then w' o else w o
  have hu : ((params N).map fun s => (N.name s, if N.name s ∈ ss.map N.name then ((taskParams N w').lookup (N.name s)).getD [] else w (N.obj s))) =
      (params N).map fun s => (N.name s, u (N.obj s)) := by
    refine List.map_congr_left fun s hs => ?_
    rw [lookup_taskParams N w' s hs]
    have hiff : N.name s ∈ ss.map N.name ↔ ∃ t ∈ ss, N.obj t = N.obj s := by
      constructor
      · intro h
        obtain ⟨t, ht, he⟩ := List.mem_map.1 h
        exact ⟨t, ht, by rw [N.name_inj he]⟩
      · rintro ⟨t, ht, he⟩
        have h1 := ((mem_params N s).1 hs).1
        have h2 := (hf t ht).1
        have : t = s := by
          rcases lt_trichotomy t s with h | h | h
          · exact absurd he (h1 t h)
          · exact h
          · exact absurd he.symm (h2 s h)
        exact List.mem_map.2 ⟨t, ht, by rw [this]⟩
    simp only [hiff, u, Option.getD_some]
  rw [hu] at hrep
  change replaceLayers (taskParams N w) _ _ = _ at hrep
  dsimp only [lossFn]
  rw [partialAt, hrep]
  dsimp only
  have hne' : ((params N).map fun s => (N.name s, u (N.obj s))) ≠ [] := by
    obtain ⟨s, hs⟩ := List.exists_mem_of_ne_nil ss hne
    intro h
    rw [List.map_eq_nil_iff] at h
    have := hp s hs
    rw [h] at this
    simp at this
  rw [flattenParams, if_neg hne']
  dsimp only
  have hflat : ((params N).map fun s => (N.name s, u (N.obj s))).map (·.2) = (params N).map fun s => u (N.obj s) := by
    rw [List.map_map]
    rfl
  rw [hflat, lossAt_flat N L w u fun o => ?_]
  · congr 2
    funext s
    by_cases ht : N.trainable (N.obj s) = true
    · simp [ht, u]
    · have : ¬ ∃ t ∈ ss, N.obj t = N.obj s := by
        rintro ⟨t, h1, h2⟩
        exact ht (h2 ▸ (hf t h1).2)
      simp [ht, this]
  · dsimp only [u]
    split
    · exact hlen o
    · rfl

/-- **C236** (second names). The name of a place whose tensor is already used, and named, by an earlier place cannot be requested: the call raises. -/
theorem C236_second_name {A : Type} (L : (Fin N.n → List R) → A) (w : Fin N.m → List R) (ls : List String) (hnd : ls.Nodup) (s t : Fin N.n)
    (hts : t < s) (hobj : N.obj t = N.obj s) (hs : N.name s ∈ ls) :
    ((∃ k ∈ ls, First N k) → evaluate N L w (some ls) = .error .keyError) ∧
    ((∀ k ∈ ls, ¬ First N k) → evaluate N L w (some ls) = .error .stopIteration) := by
  have hf : ¬ First N (N.name s) := by
    rintro ⟨s', h1, h2, -⟩
    rw [N.name_inj h1] at h2
    exact h2 t hts hobj
  obtain ⟨h1, h2, -⟩ := C236_layer_name N L w ls hnd
  exact ⟨fun h => h2.2 ⟨h, _, hs, hf⟩, h1.2⟩

/-- **C236** (EK-FAC). If one of the requested modules (by default all linear layers) takes its weight from an earlier place, and another one has a trainable weight of
its own, attribution with EK-FAC raises `KeyError`. -/
theorem C236_ekfac {A : Type} (L : (Fin N.n → List R) → A) (w : Fin N.m → List R) (mods : List (Fin N.n × Option (Fin N.n)))
    (hnd : (ekfacNames N mods).Nodup) (q q' : Fin N.n × Option (Fin N.n)) (hq : q ∈ mods) (hq' : q' ∈ mods) (t : Fin N.n) (hts : t < q.1)
    (hobj : N.obj t = N.obj q.1) (hown : ∀ t, t < q'.1 → N.obj t ≠ N.obj q'.1) (htr : N.trainable (N.obj q'.1) = true) :
    evaluate N L w (some (ekfacNames N mods)) = .error .keyError := by
  have hin : ∀ z ∈ mods, N.name z.1 ∈ ekfacNames N mods := by
    intro z hz
    exact List.mem_flatMap.2 ⟨z, hz, by simp⟩
  exact (C236_second_name N L w _ hnd q.1 t hts hobj (hin q hq)).1 ⟨_, hin q' hq', q'.1, rfl, hown, htr⟩

/-- **C236** (checkpoints). Loading a checkpoint that has all names leaves in every tensor what the checkpoint has under the last of its names; a missing name, first or
not, raises `RuntimeError`. The `state_dict` of any such model is loaded back exactly. -/
theorem C236_load (c : Dict R) (w : Fin N.m → List R) :
    ((loadStateDict N c w).2 = .ok () ↔ ∀ s, ∃ x, c.lookup (N.name s) = some x) ∧
    (∀ s x, (∀ t, s < t → N.obj t ≠ N.obj s) → c.lookup (N.name s) = some x → (loadStateDict N c w).1 (N.obj s) = x) ∧
    ∀ w', loadStateDict N (stateDict N w') w = (w', .ok ()) := by
  have hlast : ∀ (c : Dict R) (s : Fin N.n) (x : List R), (∀ t, s < t → N.obj t ≠ N.obj s) → c.lookup (N.name s) = some x →
      (loadStateDict N c w).1 (N.obj s) = x := by
    intro c s x hs hx
    have key : ∀ (l : List (Fin N.n)) (u : Fin N.m → List R), l.Pairwise (· < ·) → s ∈ l →
        (l.foldl (fun u s => match c.lookup (N.name s) with
          | some x => fun o => if o = N.obj s then x else u o
          | none => u) u) (N.obj s) = x := by
      have hrest : ∀ (l : List (Fin N.n)) (u : Fin N.m → List R), (∀ t ∈ l, N.obj t ≠ N.obj s) →
          (l.foldl (fun u s => match c.lookup (N.name s) with
            | some x => fun o => if o = N.obj s then x else u o
            | none => u) u) (N.obj s) = u (N.obj s) := by
        intro l
        induction l with
        | nil => intro u _; rfl
        | cons t l ih =>
          intro u h
          rw [List.foldl_cons, ih _ fun t' ht' => h t' (by simp [ht'])]
          cases c.lookup (N.name t) with
          | none => rfl
          | some y => exact if_neg fun he => h t (by simp) he.symm
      intro l
      induction l with
      | nil => intro u _ h; simp at h
      | cons t l ih =>
        intro u hp hmem
        rw [List.pairwise_cons] at hp
        rw [List.foldl_cons]
        by_cases hts : s = t
        · subst hts
          rw [hrest l _ fun t' ht' => hs t' (hp.1 t' ht'), hx]
          exact if_pos rfl
        · exact ih _ hp.2 ((List.mem_cons.1 hmem).resolve_left hts)
    exact key _ _ (List.pairwise_lt_finRange _) (List.mem_finRange s)
  refine ⟨?_, hlast c, fun w' => ?_⟩
  · unfold loadStateDict
    dsimp only
    split_ifs with h
    · simp only [true_iff]
      intro s
      exact Option.isSome_iff_exists.1 (h s)
    · simp only [false_iff]
      intro h'
      exact h fun s => Option.isSome_iff_exists.2 (h' s)
  · have hlk : ∀ s, (stateDict N w').lookup (N.name s) = some (w' (N.obj s)) := by
      intro s
      rw [stateDict, lookup_map N _ (fun t => w' (N.obj t)) s, if_pos (List.mem_finRange s)]
    refine Prod.ext ?_ ?_
    · funext o
      obtain ⟨s0, hs0⟩ := N.obj_surj o
      obtain ⟨s, hs, hmax⟩ := Finset.exists_max_image (Finset.univ.filter fun s => N.obj s = o) id ⟨s0, by simpa using hs0⟩
      have hs' : N.obj s = o := by simpa using hs
      rw [← hs', hlast (stateDict N w') s (w' (N.obj s)) (fun t ht h => ?_) (hlk s)]
      exact absurd ht (not_lt.2 (hmax t (by simp [h, hs'])))
    · unfold loadStateDict
      dsimp only
      rw [if_pos fun s => by rw [hlk s]; rfl]

/-! ### Gradients -/

section Gradient

open Finset

variable (dim : Fin N.m → ℕ)

/-- The entries of all tensors. -/
abbrev Entry := Σ o : Fin N.m, Fin (dim o)

/-- The entries of all places. -/
abbrev Use := Σ s : Fin N.n, Fin (dim (N.obj s))

/-- The entry a place's entry is. -/
def entryOf (e : Use N dim) : Entry N dim := ⟨N.obj e.1, e.2⟩

/-- The tensors with the given entries. -/
def tensors (θ : Entry N dim → ℝ) (o : Fin N.m) : List ℝ := List.ofFn fun a => θ ⟨o, a⟩

/-- The user's loss is the function `f` of the entries of all places. -/
def Computes (L : (Fin N.n → List ℝ) → ℝ) (f : (Use N dim → ℝ) → ℝ) : Prop := ∀ x, L (fun s => List.ofFn fun a => x ⟨s, a⟩) = f x

/-- The derivative of a loss in the entry `e` of one place. -/
noncomputable def part (f : (Use N dim → ℝ) → ℝ) (x : Use N dim → ℝ) (e : Use N dim) : ℝ := fderiv ℝ f x (Pi.single e 1)

/-- The gradient the task computes is, in each trainable entry, the derivative of this function. -/
noncomputable def taskGrad (F : (Entry N dim → ℝ) → ℝ) (θ : Entry N dim → ℝ) (q : Entry N dim) : ℝ := fderiv ℝ F θ (Pi.single q 1)

/-- **C236** (gradients). The gradient of the task's loss in an entry of a trainable tensor is the sum of the derivatives of the user's loss over all places that use the
tensor. -/
theorem C236_gradient (L : (Fin N.n → List ℝ) → ℝ) (f : (Use N dim → ℝ) → ℝ) (hL : Computes N dim L f) (θ₀ : Entry N dim → ℝ)
    (hf : DifferentiableAt ℝ f fun e => θ₀ (entryOf N dim e)) (ht : ∃ o, N.trainable o = true) :
    ∃ F : (Entry N dim → ℝ) → ℝ,
      (∀ θ, ∃ v, flattenParams (select (taskParams N (tensors N dim θ)) none) = .ok v ∧ lossFn N L (tensors N dim θ₀) none v = .ok (F θ)) ∧
      ∀ q : Entry N dim, N.trainable q.1 = true → taskGrad N dim F θ₀ q =
        ∑ e : Use N dim, if entryOf N dim e = q then part N dim f (fun e => θ₀ (entryOf N dim e)) e else 0 := by
  let mix : (Entry N dim → ℝ) → Use N dim → ℝ := fun θ e => if N.trainable (N.obj e.1) then θ (entryOf N dim e) else θ₀ (entryOf N dim e)
  refine ⟨fun θ => f (mix θ), fun θ => ?_, fun q hq => ?_⟩
  · obtain ⟨v, h1, h2⟩ := C236_values N L (tensors N dim θ₀) (tensors N dim θ) (by simp [tensors]) ht
    refine ⟨v, h1, h2.trans ?_⟩
    congr 1
    show _ = f (mix θ)
    rw [← hL]
    congr 1
    funext s
    simp only [tensors, mix, entryOf]
    split_ifs <;> rfl
  · -- the linear part of `mix`
    let lin : (Entry N dim → ℝ) →L[ℝ] (Use N dim → ℝ) :=
      ContinuousLinearMap.pi fun e => if N.trainable (N.obj e.1) then ContinuousLinearMap.proj (R := ℝ) (φ := fun _ : Entry N dim => ℝ) (entryOf N dim e) else 0
    have hmix : HasFDerivAt mix lin θ₀ := by
      refine hasFDerivAt_pi.2 fun e => ?_
      by_cases h : N.trainable (N.obj e.1) = true
      · have e1 : (fun θ => mix θ e) = fun θ => θ (entryOf N dim e) := funext fun θ => if_pos h
        rw [e1, if_pos h]
        exact (ContinuousLinearMap.proj (R := ℝ) (φ := fun _ : Entry N dim => ℝ) (entryOf N dim e)).hasFDerivAt
      · have e1 : (fun θ => mix θ e) = fun _ => θ₀ (entryOf N dim e) := funext fun θ => if_neg h
        rw [e1, if_neg h]
        exact hasFDerivAt_const _ _
    have h0 : mix θ₀ = fun e => θ₀ (entryOf N dim e) := by
      funext e
      simp [mix]
    have hcomp : HasFDerivAt (fun θ => f (mix θ)) ((fderiv ℝ f (mix θ₀)).comp lin) θ₀ := by
      refine HasFDerivAt.comp θ₀ ?_ hmix
      rw [h0]
      exact hf.hasFDerivAt
    rw [taskGrad, hcomp.fderiv, ContinuousLinearMap.comp_apply, h0]
    have hlin : lin (Pi.single q 1) = ∑ e : Use N dim, if entryOf N dim e = q then Pi.single e 1 else 0 := by
      funext e
      simp only [lin, ContinuousLinearMap.pi_apply, Finset.sum_apply]
      rw [sum_eq_single e]
      · by_cases h : entryOf N dim e = q
        · have htr : N.trainable (N.obj e.1) = true := by
            have : (entryOf N dim e).1 = q.1 := by rw [h]
            rw [← this] at hq
            exact hq
          rw [if_pos htr, if_pos h, h]
          simp
        · rw [if_neg h]
          split_ifs
          · simp [Pi.single_eq_of_ne h]
          · simp
      · intro e' _ hne
        split_ifs
        · exact Pi.single_eq_of_ne (Ne.symm hne) _
        · rfl
      · simp
    rw [hlin, map_sum]
    refine sum_congr rfl fun e _ => ?_
    split_ifs
    · rfl
    · simp

/-- The inner product of two task gradients over the trainable entries (base.py:444-448, tracin.py:252-253; one checkpoint, weight 1). -/
noncomputable def innerScore (g h : Entry N dim → ℝ) : ℝ := ∑ q : Entry N dim, if N.trainable q.1 then g q * h q else 0

/-- The inner product of the gradients collected by hooks in the places `S` (block_projected_if/core/hook.py:159-206, before any compression): each place's own derivative. -/
noncomputable def hookScore (S : Finset (Fin N.n)) (g h : Use N dim → ℝ) : ℝ := ∑ e : Use N dim, if e.1 ∈ S then g e * h e else 0

/-- **C236** (scores). The inner product of the gradients of two losses has a product for every pair of places that use the same trainable tensor: those of each place
with itself, which are what hooks in all these places collect, and the mixed ones of different places. -/
theorem C236_score (f f' : (Use N dim → ℝ) → ℝ) (x : Use N dim → ℝ) (g g' : Entry N dim → ℝ)
    (hg : ∀ q : Entry N dim, N.trainable q.1 = true → g q = ∑ e : Use N dim, if entryOf N dim e = q then part N dim f x e else 0)
    (hg' : ∀ q : Entry N dim, N.trainable q.1 = true → g' q = ∑ e : Use N dim, if entryOf N dim e = q then part N dim f' x e else 0) :
    innerScore N dim g g' = hookScore N dim (univ.filter fun s => N.trainable (N.obj s) = true) (part N dim f x) (part N dim f' x) +
      ∑ e : Use N dim, ∑ e' : Use N dim,
        if N.trainable (N.obj e.1) = true ∧ e ≠ e' ∧ entryOf N dim e = entryOf N dim e' then part N dim f x e * part N dim f' x e' else 0 := by
  have h1 : innerScore N dim g g' = ∑ e : Use N dim, ∑ e' : Use N dim,
      if N.trainable (N.obj e.1) = true ∧ entryOf N dim e = entryOf N dim e' then part N dim f x e * part N dim f' x e' else 0 := by
    have h2 : ∀ q : Entry N dim, (if N.trainable q.1 then g q * g' q else 0) = ∑ e : Use N dim, ∑ e' : Use N dim,
        if entryOf N dim e = q then (if N.trainable (N.obj e.1) = true ∧ entryOf N dim e = entryOf N dim e' then part N dim f x e * part N dim f' x e' else 0)
          else 0 := by
      intro q
      by_cases hq : N.trainable q.1 = true
      · rw [if_pos hq, hg q hq, hg' q hq, sum_mul_sum]
        refine sum_congr rfl fun e _ => sum_congr rfl fun e' _ => ?_
        by_cases he : entryOf N dim e = q
        · subst he
          have : N.trainable (N.obj e.1) = true := hq
          simp [this, eq_comm]
        · simp [he]
      · rw [if_neg hq]
        symm
        refine sum_eq_zero fun e _ => sum_eq_zero fun e' _ => ?_
        by_cases he : entryOf N dim e = q
        · subst he
          have : ¬ N.trainable (N.obj e.1) = true := hq
          simp [this]
        · simp [he]
    rw [innerScore, sum_congr rfl fun q _ => h2 q, sum_comm]
    refine sum_congr rfl fun e _ => ?_
    rw [sum_comm]
    refine sum_congr rfl fun e' _ => ?_
    rw [sum_ite_eq univ (entryOf N dim e)]
    simp
  rw [h1, hookScore, ← sum_add_distrib]
  refine sum_congr rfl fun e _ => ?_
  have h3 : (if e.1 ∈ univ.filter (fun s => N.trainable (N.obj s) = true) then part N dim f x e * part N dim f' x e else 0) =
      ∑ e' : Use N dim, if e' = e then (if N.trainable (N.obj e.1) = true then part N dim f x e * part N dim f' x e else 0) else 0 := by
    rw [sum_ite_eq' univ e]
    simp
  rw [h3, ← sum_add_distrib]
  refine sum_congr rfl fun e' _ => ?_
  by_cases he : e' = e
  · subst he
    simp
  · have : e ≠ e' := Ne.symm he
    simp [he, this]

/-- **C236** (scores of a task). The score of a training loss `L` and a target `L'`, both functions that the task differentiates at the same checkpoint. -/
theorem C236_inner (L L' : (Fin N.n → List ℝ) → ℝ) (f f' : (Use N dim → ℝ) → ℝ) (hL : Computes N dim L f) (hL' : Computes N dim L' f')
    (θ₀ : Entry N dim → ℝ) (hf : DifferentiableAt ℝ f fun e => θ₀ (entryOf N dim e)) (hf' : DifferentiableAt ℝ f' fun e => θ₀ (entryOf N dim e))
    (ht : ∃ o, N.trainable o = true) :
    ∃ F F' : (Entry N dim → ℝ) → ℝ,
      (∀ θ, ∃ v, flattenParams (select (taskParams N (tensors N dim θ)) none) = .ok v ∧ lossFn N L (tensors N dim θ₀) none v = .ok (F θ) ∧
        lossFn N L' (tensors N dim θ₀) none v = .ok (F' θ)) ∧
      innerScore N dim (taskGrad N dim F θ₀) (taskGrad N dim F' θ₀) = ∑ e : Use N dim, ∑ e' : Use N dim,
        if N.trainable (N.obj e.1) = true ∧ entryOf N dim e = entryOf N dim e' then
          part N dim f (fun e => θ₀ (entryOf N dim e)) e * part N dim f' (fun e => θ₀ (entryOf N dim e)) e' else 0 := by
  obtain ⟨F, h1, h2⟩ := C236_gradient N dim L f hL θ₀ hf ht
  obtain ⟨F', h1', h2'⟩ := C236_gradient N dim L' f' hL' θ₀ hf' ht
  refine ⟨F, F', fun θ => ?_, ?_⟩
  · obtain ⟨v, hv, hv1⟩ := h1 θ
    obtain ⟨v', hv', hv1'⟩ := h1' θ
    rw [hv] at hv'
    rw [Except.ok.inj hv'] at hv hv1
    exact ⟨v', hv, hv1, hv1'⟩
  · rw [C236_score N dim f f' _ _ _ h2 h2', hookScore, ← sum_add_distrib]
    refine sum_congr rfl fun e _ => ?_
    have h3 : (if e.1 ∈ univ.filter (fun s => N.trainable (N.obj s) = true) then
        part N dim f (fun e => θ₀ (entryOf N dim e)) e * part N dim f' (fun e => θ₀ (entryOf N dim e)) e else 0) =
        ∑ e' : Use N dim, if e' = e then (if N.trainable (N.obj e.1) = true then
          part N dim f (fun e => θ₀ (entryOf N dim e)) e * part N dim f' (fun e => θ₀ (entryOf N dim e)) e else 0) else 0 := by
      rw [sum_ite_eq' univ e]
      simp
    rw [h3, ← sum_add_distrib]
    refine sum_congr rfl fun e' _ => ?_
    by_cases he : e' = e
    · subst he
      simp
    · have : e ≠ e' := Ne.symm he
      simp [he, this]

/-- **C236** (hooks see each place alone). Hooks in all trainable places give the same scores as the task's gradients for all losses exactly when no two places share a
trainable tensor with entries. -/
theorem C236_hooks (x : Use N dim → ℝ) :
    (∀ f f' : (Use N dim → ℝ) → ℝ, Differentiable ℝ f → Differentiable ℝ f' → ∀ g g' : Entry N dim → ℝ,
      (∀ q : Entry N dim, N.trainable q.1 = true → g q = ∑ e : Use N dim, if entryOf N dim e = q then part N dim f x e else 0) →
      (∀ q : Entry N dim, N.trainable q.1 = true → g' q = ∑ e : Use N dim, if entryOf N dim e = q then part N dim f' x e else 0) →
      innerScore N dim g g' = hookScore N dim (univ.filter fun s => N.trainable (N.obj s) = true) (part N dim f x) (part N dim f' x)) ↔
    ∀ s t : Fin N.n, N.trainable (N.obj s) = true → N.obj s = N.obj t → 0 < dim (N.obj s) → s = t := by
  constructor
  · intro h s t htr hobj hdim
    by_contra hne
    let e : Use N dim := ⟨s, ⟨0, hdim⟩⟩
    let e' : Use N dim := ⟨t, ⟨0, hobj ▸ hdim⟩⟩
    have hee : e ≠ e' := fun h => hne (congrArg Sigma.fst h)
    have hent : entryOf N dim e = entryOf N dim e' := by
      simp only [entryOf, e, e']
      refine Sigma.ext hobj ?_
      refine (Fin.heq_ext_iff (congrArg dim hobj)).2 rfl
    let p : Use N dim → (Use N dim → ℝ) → ℝ := fun z y => y z
    have hp : ∀ z, Differentiable ℝ (p z) := fun z => differentiable_apply z
    have hpart : ∀ z z', part N dim (p z) x z' = if z' = z then 1 else 0 := by
      intro z z'
      have : HasFDerivAt (p z) (ContinuousLinearMap.proj (R := ℝ) (φ := fun _ : Use N dim => ℝ) z) x :=
        (ContinuousLinearMap.proj (R := ℝ) (φ := fun _ : Use N dim => ℝ) z).hasFDerivAt
      rw [part, this.fderiv, ContinuousLinearMap.proj_apply, Pi.single_apply]
      simp [eq_comm]
    have := h (p e) (p e') (hp e) (hp e') (fun q => ∑ z : Use N dim, if entryOf N dim z = q then part N dim (p e) x z else 0)
      (fun q => ∑ z : Use N dim, if entryOf N dim z = q then part N dim (p e') x z else 0) (fun q _ => rfl) fun q _ => rfl
    rw [C236_score N dim (p e) (p e') x _ _ (fun q _ => rfl) fun q _ => rfl] at this
    have hz : ∑ z : Use N dim, ∑ z' : Use N dim, (if N.trainable (N.obj z.1) = true ∧ z ≠ z' ∧ entryOf N dim z = entryOf N dim z' then
        part N dim (p e) x z * part N dim (p e') x z' else 0) = 0 := by linarith
    rw [sum_eq_single e, sum_eq_single e'] at hz
    · rw [if_pos ⟨htr, hee, hent⟩, hpart, hpart, if_pos rfl, if_pos rfl] at hz
      norm_num at hz
    · intro z' _ hz'
      rw [hpart e' z', if_neg hz']
      simp
    · simp
    · intro z _ hz'
      refine sum_eq_zero fun z' _ => ?_
      rw [hpart e z, if_neg hz']
      simp
    · simp
  · intro h f f' _ _ g g' hg hg'
    rw [C236_score N dim f f' x g g' hg hg', add_eq_left]
    refine sum_eq_zero fun e _ => sum_eq_zero fun e' _ => if_neg ?_
    rintro ⟨h1, h2, h3⟩
    apply h2
    obtain ⟨s, a⟩ := e
    obtain ⟨t, b⟩ := e'
    have hobj : N.obj s = N.obj t := congrArg Sigma.fst h3
    have := h s t h1 hobj (Nat.pos_of_ne_zero fun h0 => by
      have := a.2
      omega)
    subst this
    simp only [entryOf, Sigma.mk.injEq, heq_eq_eq, true_and] at h3
    rw [h3]

end Gradient

/-! ### A concrete case -/

/-- A small nanoGPT: the output layer uses the token embedding (model.py:125-138). -/
def exNet : Net where
  n := 3
  m := 2
  name := !["transformer.wte.weight", "transformer.h.0.mlp.c_fc.weight", "lm_head.weight"]
  obj := ![0, 1, 0]
  trainable := fun _ => true
  name_inj := by decide
  obj_surj := by decide

instance : NeZero exNet.n := ⟨by decide⟩

instance : NeZero exNet.m := ⟨by decide⟩

/-- The task has two parameters. -/
example : (params exNet).map exNet.name = ["transformer.wte.weight", "transformer.h.0.mlp.c_fc.weight"] := by decide

/-- The values in the three places at the vector `[1, 2, 3]`, for an embedding of two entries and a layer of one. -/
example : lossFn exNet (fun x => [x 0, x 1, x 2]) ![[0, 0], [0]] none [1, 2, 3] = .ok [[1, 2], [3], [1, 2]] := by rfl

/-- A vector of two numbers is too short; a fourth number is ignored. -/
example : lossFn exNet (fun x => [x 0, x 1, x 2]) ![[0, 0], [0]] none [1, 2] = .error .runtimeError ∧
    lossFn exNet (fun x => [x 0, x 1, x 2]) ![[0, 0], [0]] none [1, 2, 3, 4] = .ok [[1, 2], [3], [1, 2]] := ⟨rfl, rfl⟩

/-- The output layer cannot be requested by its name, alone or with others; the embedding can. -/
example : evaluate exNet (fun x => x 0) ![[7, 8], [9]] (some ["lm_head.weight"]) = .error .stopIteration ∧
    evaluate exNet (fun x => x 0) ![[7, 8], [9]] (some ["transformer.h.0.mlp.c_fc.weight", "lm_head.weight"]) = .error .keyError ∧
    evaluate exNet (fun x => x 2) ![[7, 8], [9]] (some ["transformer.wte.weight"]) = .ok [7, 8] := ⟨rfl, rfl, rfl⟩

/-- EK-FAC asks for both linear layers. -/
example : ekfacNames exNet [(1, none), (2, none)] = ["transformer.h.0.mlp.c_fc.weight", "lm_head.weight"] := rfl

/-- A checkpoint of a model without sharing: the output layer's value is kept. -/
example : (loadStateDict exNet [("transformer.wte.weight", [1, 1]), ("transformer.h.0.mlp.c_fc.weight", [2]), ("lm_head.weight", [3, 3])] ![[0, 0], [0]]).1 0 =
    [3, 3] := by rfl

/-- The places 0 and 2 share the entries of tensor 0. -/
example : exNet.trainable (exNet.obj 0) = true ∧ exNet.obj 0 = exNet.obj 2 ∧ (0 : Fin 3) ≠ 2 := by decide

end Verif.Tied
