import Verif.Bench.PretrainedModel
import Mathlib.Algebra.BigOperators.Group.Finset.Basic
import Mathlib.Data.List.Induction
import Mathlib.Tactic.Ring
import Mathlib.Data.List.Nodup

/-!
# C191: loading pretrained GPT-2 weights
-/

namespace Verif.Pretrained

/-! ### Specification -/

/-- What a parameter with this name should hold: the transpose for the four kinds of matrices, the tensor itself otherwise. -/
def converted (k : String × Tens) : Tens := if isTransposed k.1 then ⟨k.2.shape.reverse, fun idx => k.2.val idx.reverse⟩ else k.2

/-- The tensor of the downloaded model fits the parameter at this place. -/
def Fits (net : Net) (k : String × Tens) : Prop :=
  ∃ a, net.keys.lookup k.1 = some a ∧ (converted k).shape = (net.heap a).shape ∧ (isTransposed k.1 = true → k.2.shape.length ≤ 2)

/-! ### Helper lemmas -/

theorem copyStep_ok (keys : List (String × ℕ)) (heap : ℕ → Tens) (k : String × Tens) (heap' : ℕ → Tens) :
    copyStep keys heap k = .ok heap' ↔
      ∃ a, keys.lookup k.1 = some a ∧ (converted k).shape = (heap a).shape ∧ (isTransposed k.1 = true → k.2.shape.length ≤ 2) ∧
        heap' = Function.update heap a (converted k) := by
  unfold copyStep converted
  cases h : keys.lookup k.1 with
  | none => simp
  | some a =>
    cases ht : isTransposed k.1 with
    | false =>
      by_cases hs : k.2.shape = (heap a).shape
      · simp [hs, eq_comm]
      · simp [hs]
    | true =>
      by_cases hs : k.2.shape.reverse = (heap a).shape
      · by_cases hl : k.2.shape.length ≤ 2
        · simp [hs, hl, Tens.t, eq_comm]
        · simp [hs, hl]
      · simp [hs]

theorem fold_ok (keys : List (String × ℕ)) (heap0 : ℕ → Tens) (l : List (String × Tens)) (heap : ℕ → Tens)
    (hsh : ∀ a, (heap a).shape = (heap0 a).shape) :
    (∃ h', l.foldlM (copyStep keys) heap = .ok h') ↔ ∀ k ∈ l, Fits ⟨keys, heap0⟩ k := by
  induction l generalizing heap with
  | nil => simp [pure, Except.pure]
  | cons k l ih =>
    rw [List.foldlM_cons, List.forall_mem_cons]
    cases hstep : copyStep keys heap k with
    | error e =>
      simp only [bind, Except.bind]
      refine ⟨fun h => by simp at h, fun h => ?_⟩
      obtain ⟨⟨a, h1, h2, h3⟩, -⟩ := h
      have := (copyStep_ok keys heap k (Function.update heap a (converted k))).2 ⟨a, h1, by rw [hsh a]; exact h2, h3, rfl⟩
      rw [hstep] at this
      cases this
    | ok heap1 =>
      obtain ⟨a, h1, h2, h3, rfl⟩ := (copyStep_ok keys heap k heap1).1 hstep
      simp only [bind, Except.bind]
      rw [ih (Function.update heap a (converted k)) fun b => by
        by_cases hb : b = a
        · subst hb
          rw [Function.update_self, h2, hsh b]
        · rw [Function.update_of_ne hb, hsh b]]
      exact ⟨fun h => ⟨⟨a, h1, by rw [h2]; exact hsh a, h3⟩, h⟩, fun h => h.2⟩

theorem fold_heap (keys : List (String × ℕ)) (l : List (String × Tens)) (heap heap' : ℕ → Tens) (h : l.foldlM (copyStep keys) heap = .ok heap') (a : ℕ) :
    heap' a = ((l.filter fun k => keys.lookup k.1 = some a).getLast?.map converted).getD (heap a) := by
  induction l using List.reverseRecOn generalizing heap' with
  | nil =>
    simp only [List.foldlM_nil, pure, Except.pure, Except.ok.injEq] at h
    subst h
    rfl
  | append_singleton l k ih =>
    rw [List.foldlM_append] at h
    cases hl : l.foldlM (copyStep keys) heap with
    | error e =>
      rw [hl] at h
      cases h
    | ok heap1 =>
      rw [hl] at h
      have h' : copyStep keys heap1 k = .ok heap' := by
        cases hk : copyStep keys heap1 k with
        | error e => simp [bind, Except.bind, hk] at h
        | ok z => simpa [bind, Except.bind, pure, Except.pure, hk] using h
      obtain ⟨b, h1, -, -, rfl⟩ := (copyStep_ok keys heap1 k heap').1 h'
      rw [List.filter_append]
      by_cases hb : a = b
      · subst hb
        simp [h1]
      · have : ¬ b = a := fun e => hb e.symm
        rw [Function.update_of_ne hb, ih heap1 hl]
        simp [h1, this]

/-! ### C191 -/

/-- **C191** (success). Loading succeeds exactly if both models have the same number of entries, masks left aside, and every downloaded entry has the name and, up to
the transposition, the shape of a parameter. -/
theorem C191_succeeds (net : Net) (hf : List (String × Tens)) :
    (∃ net', load net hf = .ok net') ↔ (hfKeys hf).length = (ownKeys net).length ∧ ∀ k ∈ hfKeys hf, Fits net k := by
  rw [← fold_ok net.keys net.heap (hfKeys hf) net.heap fun _ => rfl]
  unfold load
  by_cases hlen : (hfKeys hf).length = (ownKeys net).length
  · cases hfold : (hfKeys hf).foldlM (copyStep net.keys) net.heap with
    | error e => simp [hlen, bind, Except.bind]
    | ok z => simp [hlen, bind, Except.bind, pure, Except.pure]
  · simp [hlen, bind, Except.bind, throw, throwThe, MonadExceptOf.throw]

theorem load_heap (net net' : Net) (hf : List (String × Tens)) (h : load net hf = .ok net') :
    net'.keys = net.keys ∧ ∃ heap, (hfKeys hf).foldlM (copyStep net.keys) net.heap = .ok heap ∧ net'.heap = heap := by
  unfold load at h
  by_cases hlen : (hfKeys hf).length = (ownKeys net).length
  · cases hfold : (hfKeys hf).foldlM (copyStep net.keys) net.heap with
    | error e => simp [hlen, hfold, bind, Except.bind] at h
    | ok z =>
      simp [hlen, hfold, bind, Except.bind, pure, Except.pure] at h
      subst h
      exact ⟨rfl, z, rfl, rfl⟩
  · simp [hlen, bind, Except.bind, throw, throwThe, MonadExceptOf.throw] at h

/-- **C191** (the weights). After loading, every place holds the converted tensor of the last downloaded entry whose name leads there, and what it held before if there
is none. -/
theorem C191_places (net net' : Net) (hf : List (String × Tens)) (h : load net hf = .ok net') (a : ℕ) :
    net'.keys = net.keys ∧
      net'.heap a = (((hfKeys hf).filter fun k => net.keys.lookup k.1 = some a).getLast?.map converted).getD (net.heap a) := by
  obtain ⟨h1, heap, h2, h3⟩ := load_heap net net' hf h
  exact ⟨h1, by rw [h3]; exact fold_heap _ _ _ _ h2 a⟩

/-- **C191** (every parameter). If downloaded entries that go to the same place agree (as the tied embedding and output layer do), every downloaded entry is afterwards the
value of the parameter of its name. -/
theorem C191_values (net net' : Net) (hf : List (String × Tens)) (h : load net hf = .ok net')
    (htied : ∀ k ∈ hfKeys hf, ∀ k' ∈ hfKeys hf, net.keys.lookup k.1 = net.keys.lookup k'.1 → converted k = converted k') (k : String × Tens)
    (hk : k ∈ hfKeys hf) : ∃ a, net'.keys.lookup k.1 = some a ∧ net'.heap a = converted k := by
  obtain ⟨a, ha, -, -⟩ := ((C191_succeeds net hf).1 ⟨net', h⟩).2 k hk
  obtain ⟨hkeys, hheap⟩ := C191_places net net' hf h a
  refine ⟨a, by rw [hkeys, ha], ?_⟩
  have hne : (hfKeys hf).filter (fun k => net.keys.lookup k.1 = some a) ≠ [] := by
    intro he
    have : k ∈ (hfKeys hf).filter (fun k => net.keys.lookup k.1 = some a) := by simp [hk, ha]
    rw [he] at this
    simp at this
  rw [hheap, List.getLast?_eq_getLast_of_ne_nil hne]
  have hlast := List.mem_filter.1 (List.getLast_mem hne)
  have hlk : net.keys.lookup (List.getLast _ hne).1 = some a := by simpa using hlast.2
  exact htied _ hlast.1 k hk (hlk.trans ha.symm)

/-- **C191** (nothing left out). If the downloaded names are distinct, every parameter of the model other than masks gets a downloaded
value: no random initial weight remains. -/
theorem C191_complete (net net' : Net) (hf : List (String × Tens)) (h : load net hf = .ok net') (hd : (hf.map Prod.fst).Nodup) (name : String) (a : ℕ)
    (hkey : (name, a) ∈ net.keys) (hmask : endsWith name ".attn.bias" = false) : ∃ k ∈ hfKeys hf, k.1 = name := by
  obtain ⟨hlen, hfits⟩ := (C191_succeeds net hf).1 ⟨net', h⟩
  have hsub : ((hfKeys hf).map Prod.fst) ⊆ (ownKeys net).map Prod.fst := by
    intro n hn
    obtain ⟨k, hk, rfl⟩ := List.mem_map.1 hn
    obtain ⟨b, hb, -, -⟩ := hfits k hk
    have hmem : (k.1, b) ∈ net.keys := by
      obtain ⟨l1, l2, e, -⟩ := List.lookup_eq_some_iff.1 hb
      rw [e]
      simp
    refine List.mem_map.2 ⟨(k.1, b), List.mem_filter.2 ⟨hmem, ?_⟩, rfl⟩
    have := (List.mem_filter.1 hk).2
    simpa using this
  have hnd : ((hfKeys hf).map Prod.fst).Nodup := hd.sublist (((List.filter_sublist).trans List.filter_sublist).map _)
  have hperm : ((hfKeys hf).map Prod.fst).Perm ((ownKeys net).map Prod.fst) :=
    (hnd.subperm hsub).perm_of_length_le (by simp [hlen])
  have hown : name ∈ (ownKeys net).map Prod.fst := List.mem_map.2 ⟨(name, a), List.mem_filter.2 ⟨hkey, by simp [hmask]⟩, rfl⟩
  obtain ⟨k, hk, e⟩ := List.mem_map.1 (hperm.mem_iff.2 hown)
  exact ⟨k, hk, e⟩

/-- **C191** (why the transpose). A linear layer with the converted weight computes from `x` what the downloaded layer, whose weight is indexed by input first, computes. -/
theorem C191_forward (k : String × Tens) (hk : isTransposed k.1 = true) (d : ℕ) (x : ℕ → ℚ) (j : ℕ) :
    ∑ i ∈ Finset.range d, (converted k).val [j, i] * x i = ∑ i ∈ Finset.range d, x i * k.2.val [i, j] := by
  refine Finset.sum_congr rfl fun i _ => ?_
  simp [converted, hk, mul_comm]

/-- **C191** (sizes). Exactly four model types are accepted, and in each the width is 64 times the number of heads. -/
theorem C191_config (modelType : String) :
    ((∃ r, config modelType = .ok r) ↔ modelType ∈ ["gpt2", "gpt2-medium", "gpt2-large", "gpt2-xl"]) ∧
      (∀ l h w, config modelType = .ok (l, h, w) → w = 64 * h) ∧ ∀ e, config modelType = .error e → e = .assertionError := by
  unfold config
  by_cases h1 : modelType = "gpt2"
  · simp [h1]
  by_cases h2 : modelType = "gpt2-medium"
  · simp [h2]
  by_cases h3 : modelType = "gpt2-large"
  · simp [h3]
  by_cases h4 : modelType = "gpt2-xl"
  · simp [h4]
  simp [h1, h2, h3, h4, eq_comm]

/-- `k` is some text followed by `w`. -/
def TextEndsIn (k w : String) : Prop := ∃ pre : List Char, k.toList = pre ++ w.toList

theorem endsWith_iff (k w : String) : endsWith k w = true ↔ TextEndsIn k w := by
  unfold endsWith TextEndsIn
  rw [List.isSuffixOf_iff_suffix]
  exact ⟨fun ⟨p, h⟩ => ⟨p, h.symm⟩, fun ⟨p, h⟩ => ⟨p, h.symm⟩⟩

/-- **C191** (which names). Exactly the four matrices of each block are transposed; exactly the masks are not compared and not copied. -/
theorem C191_names (net : Net) (hf : List (String × Tens)) :
    (∀ k, isTransposed k = true ↔ TextEndsIn k "attn.c_attn.weight" ∨ TextEndsIn k "attn.c_proj.weight" ∨ TextEndsIn k "mlp.c_fc.weight" ∨
      TextEndsIn k "mlp.c_proj.weight") ∧
      (∀ k, k ∈ ownKeys net ↔ k ∈ net.keys ∧ ¬TextEndsIn k.1 ".attn.bias") ∧
      ∀ k, k ∈ hfKeys hf ↔ k ∈ hf ∧ ¬TextEndsIn k.1 ".attn.masked_bias" ∧ ¬TextEndsIn k.1 ".attn.bias" := by
  refine ⟨fun k => ?_, fun k => ?_, fun k => ?_⟩
  · rw [← endsWith_iff, ← endsWith_iff, ← endsWith_iff, ← endsWith_iff, isTransposed, transposed]
    simp only [List.any_cons, List.any_nil, Bool.or_false, Bool.or_eq_true]
  · rw [← endsWith_iff, ownKeys, List.mem_filter]
    simp only [Bool.not_eq_true', Bool.not_eq_true]
  · rw [← endsWith_iff, ← endsWith_iff, hfKeys, List.mem_filter, List.mem_filter]
    simp only [Bool.not_eq_true', Bool.not_eq_true, and_assoc]

example : isTransposed "transformer.h.0.attn.c_proj.weight" = true ∧ isTransposed "transformer.wte.weight" = false ∧
    endsWith "transformer.h.0.attn.bias" ".attn.bias" = true ∧ endsWith "transformer.h.0.attn.c_attn.bias" ".attn.bias" = false := by decide +kernel

/-- Two tied names and one transposed matrix. -/
def exPretrained : Net := ⟨[("wte.weight", 0), ("h.0.attn.c_proj.weight", 1), ("lm_head.weight", 0)], fun a => if a = 0 then ⟨[3, 2], fun _ => 0⟩ else ⟨[2, 2], fun _ => 0⟩⟩
def exDownloaded : List (String × Tens) :=
  [("wte.weight", ⟨[3, 2], fun i => i.sum⟩), ("h.0.attn.c_proj.weight", ⟨[2, 2], fun i => i.headD 0⟩), ("lm_head.weight", ⟨[3, 2], fun i => i.sum⟩)]
example : ∃ net', load exPretrained exDownloaded = .ok net' ∧ (net'.heap 1).val [0, 1] = 1 := ⟨_, rfl, by decide +kernel⟩

end Verif.Pretrained
