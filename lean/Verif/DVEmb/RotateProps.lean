import Verif.DVEmb.Model
import Verif.Hessian.RotateProps

/-!
# Data value embeddings in rotated coordinates (C208)
-/

namespace Verif.Rotate

open Matrix Verif.DVEmb

variable {K : Type} [Field K] {d : ℕ}

/-- Gradients in new coordinates. -/
def rotG (Q : Matrix (Fin d) (Fin d) K) (g : DVEmb.Dict (List (List (Fin d → K)))) : DVEmb.Dict (List (List (Fin d → K))) :=
  g.map fun p => (p.1, p.2.map fun l => l.map (Q *ᵥ ·))

/-- Embeddings in new coordinates. -/
def rotEmb (Q : Matrix (Fin d) (Fin d) K) (m : DVEmb.Dict (Emb K d)) : DVEmb.Dict (Emb K d) :=
  m.map fun p => (p.1, ⟨p.2.n, fun i => Q *ᵥ p.2.row i⟩)

/-- The attributor's dictionaries in new coordinates. -/
def rotState (Q : Matrix (Fin d) (Fin d) K) (s : St K d) : St K d := ⟨rotG Q s.grads, s.lrs, s.idxs, rotEmb Q s.emb⟩

/-- What a call of `cache` leaves behind, in new coordinates. -/
def rotOut (Q : Matrix (Fin d) (Fin d) K) (o : CacheOut K d) : CacheOut K d := ⟨rotState Q o.st, o.callerGrads.map (rotG Q), o.callerLrs, o.res⟩

/-- The running pair of the inner loop in new coordinates. -/
def rotPair (Q : Matrix (Fin d) (Fin d) K) (r : Matrix (Fin d) (Fin d) K × (ℕ → Fin d → K)) : Matrix (Fin d) (Fin d) K × (ℕ → Fin d → K) :=
  (Q * r.1 * Qᵀ, fun i => Q *ᵥ r.2 i)

theorem lookup_mapSnd {α β : Type} (f : α → β) (m : List (ℤ × α)) (e : ℤ) : (m.map fun p => (p.1, f p.2)).lookup e = (m.lookup e).map f := by
  induction m with
  | nil => rfl
  | cons p t ih =>
      obtain ⟨k, v⟩ := p
      simp only [List.map_cons, List.lookup_cons]
      cases e == k <;> simp [ih]

theorem getKey_rot {α β : Type} (f : α → β) (m : List (ℤ × α)) (e : ℤ) : getKey (m.map fun p => (p.1, f p.2)) e = (getKey m e).map f := by
  unfold getKey
  rw [lookup_mapSnd]
  cases m.lookup e <;> rfl

theorem getIdx_rot {α β : Type} (f : α → β) (l : List α) (t : ℕ) : getIdx (l.map f) t = (getIdx l t).map f := by
  unfold getIdx
  rw [List.getElem?_map]
  cases l[t]? <;> rfl

theorem dset_rot {α β : Type} (f : α → β) (e : ℤ) (v : α) (m : List (ℤ × α)) :
    dset e (f v) (m.map fun p => (p.1, f p.2)) = (dset e v m).map fun p => (p.1, f p.2) := by
  induction m with
  | nil => rfl
  | cons p t ih =>
      simp only [List.map_cons, dset]
      split_ifs
      · rfl
      · simp only [List.map_cons, ih]

theorem mulVec_sum_list (Q : Matrix (Fin d) (Fin d) K) (l : List (Fin d → K)) : (l.map (Q *ᵥ ·)).sum = Q *ᵥ l.sum := (mulVec_list_sum Q l).symm

theorem tick_rot (Q : Matrix (Fin d) (Fin d) K) (hQ : Qᵀ * Q = 1) (r : Matrix (Fin d) (Fin d) K × (ℕ → Fin d → K)) (eta : K) (idx : List ℕ)
    (g : List (Fin d → K)) :
    tick (rotPair Q r).1 (rotPair Q r).2 eta idx (g.map (Q *ᵥ ·)) = (tick r.1 r.2 eta idx g).map (rotPair Q) := by
  have hdv : (g.map (Q *ᵥ ·)).map (fun x => eta • x - eta • ((Q * r.1 * Qᵀ) *ᵥ x)) = (g.map fun x => eta • x - eta • (r.1 *ᵥ x)).map (Q *ᵥ ·) := by
    rw [List.map_map, List.map_map]
    refine List.map_congr_left fun x _ => ?_
    simp only [Function.comp, rot_mul Q r.1 hQ, mulVec_sub, mulVec_smul]
  simp only [tick, rotPair, hdv, List.length_map]
  split_ifs
  · rfl
  · simp only [Except.map]
    congr 1
    refine Prod.ext ?_ ?_
    · simp only [rotPair, Matrix.mul_add, Matrix.add_mul]
      congr 1
      generalize (g.map fun x => eta • x - eta • (r.1 *ᵥ x)) = dv
      rw [List.zip_map, List.map_map]
      generalize dv.zip g = z
      induction z with
      | nil => simp
      | cons p t ih =>
          simp only [List.map_cons, List.sum_cons, ih, Function.comp, Prod.map, Matrix.mul_add, Matrix.add_mul, mul_vecMulVec, vecMulVec_mul, vecMul_transpose]
    · simp only [rotPair]
      funext i
      rw [mulVec_add]
      congr 1
      generalize (g.map fun x => eta • x - eta • (r.1 *ᵥ x)) = dv
      rw [List.zip_map_right, List.filter_map, List.map_map, ← mulVec_sum_list, List.map_map]
      rfl

theorem iter_rot (Q : Matrix (Fin d) (Fin d) K) (hQ : Qᵀ * Q = 1) (s : St K d) (e : ℤ) (r : Matrix (Fin d) (Fin d) K × (ℕ → Fin d → K)) (t : ℕ) :
    iter (rotState Q s) e (rotPair Q r) t = (iter s e r t).map (rotPair Q) := by
  unfold iter
  have hg : getKey (rotState Q s).grads e = (getKey s.grads e).map fun l => l.map fun l => l.map (Q *ᵥ ·) := getKey_rot _ s.grads e
  simp only [hg]
  simp only [rotState]
  cases getKey s.lrs e with
  | error x => rfl
  | ok ls =>
  simp only [bind, Except.bind]
  cases getIdx ls t with
  | error x => rfl
  | ok eta =>
  simp only
  cases getKey s.idxs e with
  | error x => rfl
  | ok is =>
  simp only
  cases getIdx is t with
  | error x => rfl
  | ok idx =>
  simp only
  cases getKey s.grads e with
  | error x => rfl
  | ok gs =>
  simp only [Except.map, getIdx_rot]
  cases getIdx gs t with
  | error x => rfl
  | ok g => exact tick_rot Q hQ r eta idx g

theorem foldlM_rot {α β : Type} (f : β → β) (F F' : β → α → Except Err β) (hF : ∀ b a, F' (f b) a = (F b a).map f) (l : List α) : ∀ b : β,
    l.foldlM F' (f b) = (l.foldlM F b).map f := by
  induction l with
  | nil => intro b; rfl
  | cons a t ih =>
      intro b
      simp only [List.foldlM_cons, hF]
      cases F b a with
      | error e => rfl
      | ok b' => exact ih b'

theorem epochRun_rot (Q : Matrix (Fin d) (Fin d) K) (hQ : Qᵀ * Q = 1) (s : St K d) (e : ℤ) (M : Matrix (Fin d) (Fin d) K) :
    epochRun (rotState Q s) e (Q * M * Qᵀ) = (epochRun s e M).map (rotPair Q) := by
  unfold epochRun
  simp only [rotState]
  cases getKey s.lrs e with
  | error x => rfl
  | ok ls =>
      have := foldlM_rot (rotPair Q) (iter s e) (iter (rotState Q s) e) (fun b a => iter_rot Q hQ s e b a) (List.range ls.length).reverse (M, fun _ => 0)
      simp only [rotPair, mulVec_zero] at this
      exact this

theorem epochLoop_rot (Q : Matrix (Fin d) (Fin d) K) (hQ : Qᵀ * Q = 1) (s : St K d) (num : ℕ) (es : List ℤ) : ∀ (M : Matrix (Fin d) (Fin d) K)
    (emb : DVEmb.Dict (Emb K d)),
    epochLoop (rotState Q s) num es (Q * M * Qᵀ) (rotEmb Q emb) = (rotEmb Q (epochLoop s num es M emb).1, (epochLoop s num es M emb).2) := by
  induction es with
  | nil => intro M emb; rfl
  | cons e es ih =>
      intro M emb
      simp only [epochLoop, epochRun_rot Q hQ]
      cases epochRun s e M with
      | error x => rfl
      | ok r =>
          simp only [Except.map, rotPair]
          have : dset e (⟨num, fun i => Q *ᵥ r.2 i⟩ : Emb K d) (rotEmb Q emb) = rotEmb Q (dset e ⟨num, r.2⟩ emb) :=
            dset_rot (fun E : Emb K d => (⟨E.n, fun i => Q *ᵥ E.row i⟩ : Emb K d)) e ⟨num, r.2⟩ emb
          rw [this]
          exact ih r.1 _

theorem cache_rot_dvemb (Q : Matrix (Fin d) (Fin d) K) (hQ : Qᵀ * Q = 1) (factor : Bool) (s : St K d)
    (extG : Option (DVEmb.Dict (List (List (Fin d → K))))) (extL : Option (DVEmb.Dict (List K))) (ms : Bool) :
    DVEmb.cache factor (rotState Q s) (extG.map (rotG Q)) extL ms = rotOut Q (DVEmb.cache factor s extG extL ms) := by
  have key : ∀ s1 : St K d, (if ∀ p ∈ (rotState Q s1).grads, p.2 = [] then (⟨rotState Q s1, extG.map (rotG Q), extL, .error .valueError⟩ : CacheOut K d)
      else match numSamples s1.idxs with
      | .error x => ⟨rotState Q s1, extG.map (rotG Q), extL, .error x⟩
      | .ok num => match probe (rotState Q s1).grads with
        | .error x => ⟨rotState Q s1, extG.map (rotG Q), extL, .error x⟩
        | .ok _ =>
          let epochs := (s1.lrs.map Prod.fst).mergeSort fun a b => decide (b ≤ a)
          let r := epochLoop (rotState Q s1) num epochs 0 (rotState Q s1).emb
          let s2 : St K d := { rotState Q s1 with emb := r.1 }
          match r.2 with
          | .error x => ⟨s2, extG.map (rotG Q), extL, .error x⟩
          | .ok _ =>
            if ms then ⟨clearCache s2, (extG.map (rotG Q)).map fun _ => [], extL.map fun _ => [], .ok ()⟩
            else ⟨s2, extG.map (rotG Q), extL, .ok ()⟩) =
      rotOut Q (if ∀ p ∈ s1.grads, p.2 = [] then ⟨s1, extG, extL, .error .valueError⟩
      else match numSamples s1.idxs with
      | .error x => ⟨s1, extG, extL, .error x⟩
      | .ok num => match probe s1.grads with
        | .error x => ⟨s1, extG, extL, .error x⟩
        | .ok _ =>
          let epochs := (s1.lrs.map Prod.fst).mergeSort fun a b => decide (b ≤ a)
          let r := epochLoop s1 num epochs 0 s1.emb
          let s2 : St K d := { s1 with emb := r.1 }
          match r.2 with
          | .error x => ⟨s2, extG, extL, .error x⟩
          | .ok _ =>
            if ms then ⟨clearCache s2, extG.map fun _ => [], extL.map fun _ => [], .ok ()⟩
            else ⟨s2, extG, extL, .ok ()⟩) := by
    intro s1
    have hall : (∀ p ∈ (rotState Q s1).grads, p.2 = []) ↔ ∀ p ∈ s1.grads, p.2 = [] := by
      constructor
      · intro h p hp
        have := h _ (List.mem_map_of_mem hp)
        simpa using this
      · intro h p hp
        obtain ⟨p', hp', rfl⟩ := List.mem_map.1 hp
        simp [h p' hp']
    by_cases hc : ∀ p ∈ s1.grads, p.2 = []
    · rw [if_pos hc, if_pos (hall.2 hc)]
      rfl
    · rw [if_neg hc, if_neg fun h => hc (hall.1 h)]
      cases numSamples s1.idxs with
      | error x => rfl
      | ok num =>
        have hp : probe (rotState Q s1).grads = (probe s1.grads).map fun l => l.map (Q *ᵥ ·) := by
          unfold probe
          have hg : getKey (rotState Q s1).grads 0 = (getKey s1.grads 0).map fun l => l.map fun l => l.map (Q *ᵥ ·) := getKey_rot _ s1.grads 0
          rw [hg]
          cases getKey s1.grads 0 with
          | error x => rfl
          | ok l => exact getIdx_rot _ l 0
        simp only [hp]
        cases probe s1.grads with
        | error x => rfl
        | ok _ =>
          have hl := epochLoop_rot Q hQ s1 num ((s1.lrs.map Prod.fst).mergeSort fun a b => decide (b ≤ a)) 0 s1.emb
          simp only [Matrix.mul_zero, Matrix.zero_mul] at hl
          have he : (rotState Q s1).emb = rotEmb Q s1.emb := rfl
          simp only [Except.map, he, hl]
          cases (epochLoop s1 num ((s1.lrs.map Prod.fst).mergeSort fun a b => decide (b ≤ a)) 0 s1.emb).2 with
          | error x => rfl
          | ok _ =>
            cases ms <;> simp [rotOut, rotState, rotG, clearCache, Option.map_map, Function.comp_def]
  unfold DVEmb.cache
  by_cases hf : factor ∧ extG.isSome
  · have hf' : factor ∧ (extG.map (rotG Q)).isSome := by simpa using hf
    rw [if_pos hf, if_pos hf']
    rfl
  · have hf' : ¬ (factor ∧ (extG.map (rotG Q)).isSome) := by simpa using hf
    rw [if_neg hf, if_neg hf']
    have := key { s with grads := extG.getD s.grads, lrs := extL.getD s.lrs }
    cases extG with
    | none => exact this
    | some g => exact this

theorem attribute_rot (Q : Matrix (Fin d) (Fin d) K) (hQ : Qᵀ * Q = 1) (s : St K d) (test : List (List (Fin d → K))) (epoch : Option ℤ)
    (sel : Option (List ℤ)) :
    DVEmb.attribute' (rotState Q s) (test.map fun l => l.map (Q *ᵥ ·)) epoch sel = DVEmb.attribute' s test epoch sel := by
  have hact : active (rotEmb Q s.emb) epoch = (active s.emb epoch).map fun E => (⟨E.n, fun i => Q *ᵥ E.row i⟩ : Emb K d) := by
    cases epoch with
    | some e =>
        simp only [active, rotEmb]
        rw [lookup_mapSnd (fun E : Emb K d => (⟨E.n, fun i => Q *ᵥ E.row i⟩ : Emb K d))]
        cases s.emb.lookup e <;> rfl
    | none =>
        simp only [active, rotEmb]
        cases s.emb with
        | nil => rfl
        | cons p t =>
            simp only [List.map_cons, stackSum]
            have hiff : (∀ q ∈ t.map (fun p : ℤ × Emb K d => (p.1, (⟨p.2.n, fun i => Q *ᵥ p.2.row i⟩ : Emb K d))), q.2.n = p.2.n) ↔ ∀ q ∈ t, q.2.n = p.2.n := by
              rw [List.forall_mem_map]
            simp only [hiff]
            split_ifs
            · simp only [Except.map, List.map_map, Function.comp_def, List.sum_cons, mulVec_add, mulVec_list_sum]
            · rfl
  unfold DVEmb.attribute'
  have h1 : ((rotState Q s).emb = []) ↔ s.emb = [] := by simp [rotState, rotEmb]
  have h2 : (test.map (fun l => l.map (Q *ᵥ ·)) = []) ↔ test = [] := by simp
  simp only [h1, h2]
  split_ifs
  · rfl
  · rfl
  · have he : (rotState Q s).emb = rotEmb Q s.emb := rfl
    simp only [he, hact]
    cases active s.emb epoch with
    | error x => rfl
    | ok E =>
        simp only [Except.map, bind, Except.bind]
        cases selectRows E.n sel with
        | error x => rfl
        | ok rows =>
            simp only [← List.map_flatten, List.map_map, Function.comp_def, dot_rot Q hQ]

/-- Data value embeddings: with all recorded gradients rotated, the embeddings are rotated, and the scores of rotated test gradients are the same. -/
theorem C208_dvemb (Q : Matrix (Fin d) (Fin d) K) (hQ : Qᵀ * Q = 1) (factor : Bool) (s : St K d)
    (extG : Option (DVEmb.Dict (List (List (Fin d → K))))) (extL : Option (DVEmb.Dict (List K))) (ms : Bool) (test : List (List (Fin d → K)))
    (epoch : Option ℤ) (sel : Option (List ℤ)) :
    (DVEmb.cache factor (rotState Q s) (extG.map (rotG Q)) extL ms).res = (DVEmb.cache factor s extG extL ms).res ∧
      DVEmb.attribute' (DVEmb.cache factor (rotState Q s) (extG.map (rotG Q)) extL ms).st (test.map fun l => l.map (Q *ᵥ ·)) epoch sel =
        DVEmb.attribute' (DVEmb.cache factor s extG extL ms).st test epoch sel := by
  rw [cache_rot_dvemb Q hQ]
  exact ⟨rfl, attribute_rot Q hQ _ _ _ _⟩

end Verif.Rotate
