import Verif.BlockIF.IFProps

/-!
# C118: attribution after a failed `cache`

`cache` with the Fisher Hessian raises at the first layer whose damped matrix is singular. Its gradients are stored by then and the attributor
counts as cached, so a caller who catches the exception can go on to `attribute`.
-/

namespace Verif.BlockIF

open Verif

variable {K : Type} [Field K] [DecidableEq K] {L : ℕ} {d : Fin L → ℕ}

theorem preLoop_append (damping : Option K) (cs : List (List (Row K d) × List (ℕ × ℕ × ℕ))) (a b : List (Fin L))
    (p : (l : Fin L) → Option (Matrix (Fin (d l)) (Fin (d l)) K)) (h : (preLoop damping cs a p).2 = .ok ()) :
    preLoop damping cs (a ++ b) p = preLoop damping cs b (preLoop damping cs a p).1 := by
  induction a generalizing p with
  | nil => rfl
  | cons x a ih =>
    rw [List.cons_append]
    rw [preLoop] at h ⊢
    conv_rhs => rw [preLoop]
    split_ifs at h ⊢ with hc
    · exact ih p h
    · split at h
      · exact absurd h (by simp)
      · exact ih _ h

omit [DecidableEq K] in
/-- `attribute` without stored preconditioned gradients computes them first. -/
theorem attr_lazy {bl : List (List (Row K d))} {st : St K d} (hs : Stored bl st) (hne : bl ≠ []) (hc : st.comp = true)
    (hc' : st.cached = true) (hw : st.ifvp = []) :
    ∃ st', Ready (bl.map (List.map (applyPre st.pre))) st' ∧ ∀ train test,
      attributeCached .efim st train test = attributeCached .efim st' train test := by
  obtain ⟨st', h1, h2, h3, h4⟩ := ready_ifvp (w0 := []) hs hne hc hc' (by rw [hw]; exact holds_nil) (Nat.zero_le _) .efim
  simp only at h3
  refine ⟨st', h3, ?_⟩
  intro train test
  have e1 : ∀ s : St K d, s.comp = true → ({ s with comp := true } : St K d) = s := by
    intro s hs
    cases s
    simp only at hs
    rw [hs]
  unfold attributeCached
  simp only [sync_eq hs.layout hne (hs.known hne), sync_eq h2.layout hne (h2.known hne)]
  have n1 : ¬ (st.comp = false ∧ test.batches = []) := by rw [hc]; simp
  have n2 : ¬ (st'.comp = false ∧ test.batches = []) := by rw [h3.comp]; simp
  have n3 : ¬ (st.ifvp ≠ []) := by rw [hw]; simp
  rw [if_neg n1, if_neg n2, e1 st hc, e1 st' h3.comp, if_neg n3, h1, if_pos h3.ifvp_ne]

/-- Specification: the gradient preconditioned in the layers before `l0` and replaced by zeros from `l0` on. -/
noncomputable def truncated (δ : K) (samples : List (Row K d)) (l0 : Fin L) (g : Row K d) : Row K d :=
  fun l => if l < l0 then ((damped δ l samples)⁻¹).mulVec (g l) else 0

/-- **C118.** Cache a loader with the Fisher Hessian into a fresh directory, and let `l0` be the first layer (of positive dimension, with samples)
whose damped matrix is singular, e.g. a layer with zero gradients. Then `cache` raises `RuntimeError`, and a following `attribute` does not raise:
it returns a full matrix in which only the layers before `l0` contribute. -/
theorem C118_after_failure (damping : Option K) {D : Data K d} (hD : D.WF) (hne : D.batches ≠ []) (l0 : Fin L)
    (hact : d l0 ≠ 0 ∧ D.batches.flatten ≠ []) (hsing : (damped (damping.getD (1 / 100000)) l0 D.batches.flatten).det = 0)
    (hfirst : ∀ l, l < l0 → d l ≠ 0 → (damped (damping.getD (1 / 100000)) l D.batches.flatten).det ≠ 0) :
    ∃ st, cache .efim damping (St.new K d none) D = (st, .error .runtimeError) ∧
      ∀ train test : Data K d, test.batches.flatten ≠ [] →
        ∃ M, (attribute' .efim damping st train test).2 = .ok M ∧
          Scores M (D.batches.flatten.map (truncated (damping.getD (1 / 100000)) D.batches.flatten l0)) test.batches.flatten := by
  obtain ⟨s1, h1, h2, h3, h4, h5, h6⟩ := stored_cache stored_new hD hne (fun hl => by rw [List.length_eq_zero_iff.1 hl])
  rw [List.drop_nil, List.append_nil] at h2
  have hperm : ((sortedItems s1.grads).flatMap Prod.snd).Perm D.batches.flatten :=
    ((sortedItems_perm h2.grads.nodup).flatMap_right _).trans (holds_flatten h2.grads)
  obtain ⟨a, b, hab⟩ := List.append_of_mem (List.mem_finRange l0)
  have hsort := List.pairwise_lt_finRange L
  rw [hab, List.pairwise_append, List.pairwise_cons] at hsort
  have hnd := List.nodup_finRange L
  rw [hab, List.nodup_append] at hnd
  have hmem : ∀ l, l ∈ a ↔ l < l0 := by
    intro l
    constructor
    · intro h; exact hsort.2.2 l h l0 List.mem_cons_self
    · intro h
      have := List.mem_finRange l
      rw [hab, List.mem_append, List.mem_cons] at this
      rcases this with h' | rfl | h'
      · exact h'
      · exact absurd h (lt_irrefl _)
      · exact absurd (lt_trans h (hsort.2.1.1 l h')) (lt_irrefl _)
  have hA := preLoop_eq damping (g := 4) (by decide) s1.grads a hnd.1 s1.pre
  simp only [damped_perm _ _ hperm] at hA
  have hne' : (sortedItems s1.grads).flatMap Prod.snd ≠ [] := by
    intro h; rw [h] at hperm; exact hact.2 hperm.nil_eq.symm
  rcases hA with ⟨a1, a2, a3, a4⟩ | ⟨-, l, hl, hl2, hl3⟩
  swap
  · exact absurd hl3 (hfirst l ((hmem l).1 hl) hl2.1)
  set p1 := (preLoop damping (chunks 4 s1.grads) a s1.pre).1 with hp1
  have hloop : preLoop damping (chunks 4 s1.grads) (List.finRange L) s1.pre = (p1, .error .runtimeError) := by
    rw [hab, preLoop_append _ _ _ _ _ a1, ← hp1, preLoop]
    have hacc : accumulate l0 (chunks 4 s1.grads) =
        (gram l0 ((sortedItems s1.grads).flatMap Prod.snd), ((sortedItems s1.grads).flatMap Prod.snd).length) := by
      rw [accumulate_eq, chunks_rows 4 (by decide)]
    rw [if_neg, hacc]
    · simp only
      rw [stableInverse_eq, damped_perm _ _ hperm, if_pos hsing]
    · rw [hacc]
      rintro (h | h)
      · exact hact.1 h
      · exact hne' (List.length_eq_zero_iff.1 h)
  have hpre : computePre damping s1 = ({ s1 with pre := p1 }, .error .runtimeError) := by
    unfold computePre
    simp only [sync_eq h2.layout hne (h2.known hne)]
    rw [if_neg (by rw [h2.known hne]; simp), hloop]
  refine ⟨{ s1 with pre := p1 }, ?_, ?_⟩
  · unfold cache
    rw [h1]
    simp only [hpre]
  · intro train test ht
    have hS : Stored D.batches ({ s1 with pre := p1 } : St K d) := ⟨h2.layout, h2.grads, h2.known⟩
    obtain ⟨st', g1, g2⟩ := attr_lazy hS hne h5 h6 h4
    have hd : ∑ l, d l ≠ 0 := by
      intro h
      exact hact.1 (Finset.sum_eq_zero_iff.1 h l0 (Finset.mem_univ l0))
    obtain ⟨M, k1, k2⟩ := attr_ready g1 .efim train test ht hd
    refine ⟨M, ?_, ?_⟩
    · rw [attribute_cached (show ({ s1 with pre := p1 } : St K d).cached = true from h6), g2, k1]
    · have e : D.batches.map (List.map (applyPre p1)) =
          D.batches.map (List.map (truncated (damping.getD (1 / 100000)) D.batches.flatten l0)) := by
        apply List.map_congr_left
        intro x hx
        apply List.map_congr_left
        intro r hr
        funext l
        unfold applyPre applyLayer truncated
        by_cases hdl : d l = 0
        · funext i
          exact absurd i.2 (by omega)
        by_cases hl : l < l0
        · rw [if_pos hl, a3 l ((hmem l).2 hl) ⟨hdl, hne'⟩]
        · rw [if_neg hl, a4 l (fun h => hl ((hmem l).1 h.1)), h3]
          rfl
      change Scores M (D.batches.map (List.map (applyPre p1))).flatten _ at k2
      rw [e] at k2
      rw [List.map_flatten]
      exact k2

/-- A sample with two layers of dimension 1, the second one dead. -/
def deadRow : Row ℚ (fun _ : Fin 2 => 1) := fun l _ => if l = 0 then 2 else 0

/-- A case: `cache` raises on the dead second layer and the scores are those of the first layer. -/
example : ∃ st, cache .efim (some (1 / 2 : ℚ)) (St.new ℚ (fun _ : Fin 2 => 1) none) (Data.of 1 false [deadRow]) = (st, .error .runtimeError) := by
  have hb : (Data.of 1 false [deadRow]).batches.flatten = [deadRow] := of_flatten_all (by decide) _
  have h1 : (damped (Option.getD (some (1 / 2 : ℚ)) (1 / 100000)) 1 (Data.of 1 false [deadRow]).batches.flatten).det = 0 := by
    rw [hb]
    simp [damped, meanOuter, deadRow, Matrix.vecMulVec, Matrix.trace]
  have h2 : ∀ l : Fin 2, l < 1 → (1 : ℕ) ≠ 0 →
      (damped (Option.getD (some (1 / 2 : ℚ)) (1 / 100000)) l (Data.of 1 false [deadRow]).batches.flatten).det ≠ 0 := by
    intro l hl _
    have : l = 0 := by omega
    subst this
    rw [hb]
    exact C56_exists (by norm_num) 0 ⟨deadRow, by simp, fun h => by
      have := congrFun h 0; simp [deadRow] at this⟩
  obtain ⟨st, h, -⟩ := C118_after_failure (some (1 / 2 : ℚ)) (of_wf (bs := 1) (by decide) false [deadRow])
    (by simp [Data.of, batchCount]) 1 ⟨by decide, by rw [hb]; simp⟩ h1 h2
  exact ⟨st, h⟩

end Verif.BlockIF
