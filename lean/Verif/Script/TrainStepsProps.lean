import Verif.Script.TrainStepsModel
import Verif.Base.Blocks
import Mathlib.Data.List.Range
import Mathlib.Tactic.Linarith
import Mathlib.Tactic.Ring

/-!
# C197: steps, checkpoints and resuming in the GPT-2 experiment
-/

namespace Verif.TrainSteps

open Verif

/-! ### Specification -/

/-- The batches of an epoch from place `k` on. -/
def epochFrom (L e k : ℕ) : List (ℕ × ℕ) := ((List.range L).drop k).map fun j : ℕ => (e, j)

/-- The updates of the epochs before `N` from place `k` of epoch `e` on: `G` batches each, the last one of an epoch may have fewer. -/
def rest (L G N e k : ℕ) : List (List (ℕ × ℕ)) :=
  if e < N then batches G (epochFrom L e k) ++ (List.range' (e + 1) (N - (e + 1))).flatMap fun f : ℕ => batches G (epochFrom L f 0) else []

/-! ### Helper lemmas -/

theorem batches_nil' {α : Type} (G : ℕ) (hG : 0 < G) : batches G ([] : List α) = [] := by
  apply List.eq_nil_of_length_eq_zero
  rw [length_batches]
  simp [numBatches]
  omega

theorem batches_group {α : Type} (G : ℕ) (hG : 0 < G) (g l : List α) (hg : g.length = G) : batches G (g ++ l) = g :: batches G l := by
  have hn : numBatches G (g ++ l).length = numBatches G l.length + 1 := by
    simp only [numBatches, List.length_append, hg]
    rw [show G + l.length + G - 1 = l.length + G - 1 + G by omega, Nat.add_div_right _ hG]
  unfold batches
  rw [hn, List.range_succ_eq_map, List.map_cons, List.map_map]
  congr 1
  · simp [batchAt, ← hg]
  · apply List.map_congr_left
    intro b _
    simp only [Function.comp, batchAt]
    congr 1
    rw [List.drop_append, hg, List.drop_eq_nil_of_le (by rw [hg]; nlinarith [Nat.succ_eq_add_one b]), List.nil_append]
    congr 1
    rw [Nat.succ_mul]
    omega

theorem batches_single {α : Type} (G : ℕ) (l : List α) (h0 : l ≠ []) (h1 : l.length ≤ G) : batches G l = [l] := by
  have hl := List.length_pos_of_ne_nil h0
  have hn : numBatches G l.length = 1 := by
    unfold numBatches
    rw [Nat.div_eq_iff (by omega)]
    omega
  unfold batches
  rw [hn]
  simp [batchAt, List.take_of_length_le h1]

theorem batches_drop {α : Type} (G : ℕ) (hG : 0 < G) (l : List α) (r : ℕ) : batches G (l.drop (r * G)) = (batches G l).drop r := by
  induction r generalizing l with
  | zero => simp
  | succ r ih =>
    by_cases h : G ≤ l.length
    · have e : batches G l = l.take G :: batches G (l.drop G) := by
        conv_lhs => rw [← List.take_append_drop G l]
        exact batches_group G hG _ _ (by simp [h])
      rw [e, List.drop_succ_cons, ← ih, List.drop_drop, Nat.succ_mul, Nat.add_comm]
    · rw [List.drop_eq_nil_of_le (by nlinarith), batches_nil' G hG, List.drop_eq_nil_of_le]
      rw [length_batches]
      unfold numBatches
      have : (l.length + G - 1) / G < 2 := by rw [Nat.div_lt_iff_lt_mul hG]; omega
      omega

/-- The numbers of the steps at which a checkpoint is saved. -/
def savedAt (ckpt : Option ℕ) (l : List ℕ) : List ℕ := l.filter fun n => ckpt.any fun k => n % k = 0

theorem epochRun_spec (c : Cfg) (hG : 0 < c.G) (M e : ℕ) : ∀ (n : ℕ) (s : St), n ≤ c.L → s.completed < M → s.astep % c.G = s.pending.length → (n = 0 → s.pending = []) →
    let out := (batches c.G (s.pending ++ (List.range' (c.L - n) n).map fun j : ℕ => (e, j))).take (M - s.completed)
    let s' := epochRun c M e (List.range' (c.L - n) n) s
    s'.updates = s.updates ++ out ∧ s'.pending = [] ∧ s'.astep % c.G = 0 ∧ s'.completed = s.completed + out.length ∧
      s'.saves = s.saves ++ savedAt c.ckpt (List.range' (s.completed + 1) out.length) := by
  intro n
  induction n with
  | zero =>
    intro s _ _ h2 h3
    have h3 := h3 rfl
    simp [epochRun, h3, batches_nil' c.G hG, h2, savedAt]
  | succ n ih =>
    intro s hn hM h2 _
    have hpl : s.pending.length < c.G := h2 ▸ Nat.mod_lt _ hG
    have hr : List.range' (c.L - (n + 1)) (n + 1) = (c.L - (n + 1)) :: List.range' (c.L - n) n := by
      rw [List.range'_succ]
      congr 2
      omega
    rw [hr]
    set j := c.L - (n + 1) with hj
    obtain ⟨q, hq⟩ : ∃ q, M - s.completed = q + 1 := ⟨M - s.completed - 1, by omega⟩
    by_cases hlast : n = 0
    · subst hlast
      have hjL : j + 1 = c.L := by omega
      have hb : batches c.G (s.pending ++ [(e, j)]) = [s.pending ++ [(e, j)]] := batches_single _ _ (by simp) (by simp; omega)
      simp only [List.range'_zero, List.map_cons, List.map_nil, hb, hq, List.take_succ_cons, List.take_nil, epochRun, batchStep, hjL, true_or, if_true, ite_self]
      refine ⟨trivial, trivial, Nat.zero_mod _, rfl, ?_⟩
      simp only [List.length_singleton, List.range'_one, savedAt, List.filter_cons, List.filter_nil]
    · have hjL : j + 1 ≠ c.L := by omega
      have hmod : (s.astep + 1) % c.G = 0 ↔ s.pending.length + 1 = c.G := by
        rw [Nat.add_mod, h2]
        by_cases h1 : c.G = 1
        · have h0 : s.pending.length = 0 := by omega
          rw [h0, h1]
          simp
        · rw [Nat.mod_eq_of_lt (show 1 < c.G by omega)]
          constructor
          · intro h
            by_contra h'
            rw [Nat.mod_eq_of_lt (by omega)] at h
            omega
          · intro h
            rw [h, Nat.mod_self]
      by_cases hs : s.pending.length + 1 = c.G
      · have hsync := hmod.2 hs
        have hb : ∀ l : List (ℕ × ℕ), batches c.G (s.pending ++ (e, j) :: l) = (s.pending ++ [(e, j)]) :: batches c.G l := by
          intro l
          rw [show s.pending ++ (e, j) :: l = (s.pending ++ [(e, j)]) ++ l by simp]
          exact batches_group _ hG _ _ (by simp [hs])
        have hst : batchStep c e s j = ⟨s.updates ++ [s.pending ++ [(e, j)]], [], s.astep + 1, s.completed + 1,
            s.saves ++ savedAt c.ckpt [s.completed + 1]⟩ := by
          simp only [batchStep, hjL, if_false, hsync, or_true, if_true, savedAt, List.filter_cons, List.filter_nil]
        simp only [List.map_cons, hb, hq, List.take_succ_cons, epochRun]
        rw [hst]
        by_cases hM' : M ≤ s.completed + 1
        · have hq0 : q = 0 := by omega
          simp [hM', hq0, hsync]
        · rw [if_neg hM']
          have h := ih ⟨s.updates ++ [s.pending ++ [(e, j)]], [], s.astep + 1, s.completed + 1, s.saves ++ savedAt c.ckpt [s.completed + 1]⟩
            (by omega) (by simp; omega) (by simpa using hsync) (fun _ => rfl)
          simp only [List.nil_append, show M - (s.completed + 1) = q by omega] at h
          obtain ⟨a1, a2, a3, a4, a5⟩ := h
          refine ⟨by rw [a1]; simp, a2, a3, by rw [a4, List.length_cons]; omega, ?_⟩
          rw [a5, List.length_cons, List.range'_succ]
          simp [savedAt, List.filter_cons]
          split <;> simp
      · have hsync : ¬ (s.astep + 1) % c.G = 0 := fun h => hs (hmod.1 h)
        have hst : batchStep c e s j = ⟨s.updates, s.pending ++ [(e, j)], s.astep + 1, s.completed, s.saves⟩ := by
          simp [batchStep, hjL, hsync]
        simp only [List.map_cons, epochRun]
        rw [hst, if_neg (by simp; omega)]
        have h := ih ⟨s.updates, s.pending ++ [(e, j)], s.astep + 1, s.completed, s.saves⟩ (by omega) hM
          (by
            rw [List.length_append, List.length_singleton]
            rw [Nat.add_mod, h2, Nat.mod_eq_of_lt (show 1 < c.G by omega), Nat.mod_eq_of_lt (by omega)])
          (fun h => absurd h hlast)
        simpa using h

theorem drop_range' (L k : ℕ) (hk : k ≤ L) : (List.range L).drop k = List.range' (L - (L - k)) (L - k) := by
  rw [List.range_eq_range', List.drop_range']
  congr 1
  omega

/-- One epoch from place `k` on, entered between two updates. -/
theorem epoch_spec (c : Cfg) (hG : 0 < c.G) (M e k : ℕ) (hk : k ≤ c.L) (s : St) (hM : s.completed < M) (ha : s.astep % c.G = 0) (hp : s.pending = []) :
    let out := (batches c.G (epochFrom c.L e k)).take (M - s.completed)
    let s' := epochRun c M e ((List.range c.L).drop k) s
    s'.updates = s.updates ++ out ∧ s'.pending = [] ∧ s'.astep % c.G = 0 ∧ s'.completed = s.completed + out.length ∧
      s'.saves = s.saves ++ savedAt c.ckpt (List.range' (s.completed + 1) out.length) := by
  have h := epochRun_spec c hG M e (c.L - k) s (by omega) hM (by simp [ha, hp]) (fun _ => hp)
  rw [hp, List.nil_append] at h
  unfold epochFrom
  rw [drop_range' _ _ hk]
  exact h

theorem length_epoch (L G e k : ℕ) : (batches G (epochFrom L e k)).length = numBatches G (L - k) := by
  simp [length_batches, epochFrom]

/-- Several full epochs, each entered before enough steps are made. -/
theorem epochs_spec (c : Cfg) (hG : 0 < c.G) (M : ℕ) : ∀ (n a : ℕ) (s : St), (∀ k < n, s.completed + k * perEpoch c < M) → s.astep % c.G = 0 → s.pending = [] →
    let out := ((List.range' a n).flatMap fun f : ℕ => batches c.G (epochFrom c.L f 0)).take (M - s.completed)
    let s' := (List.range' a n).foldl (fun s e => epochRun c M e (List.range c.L) s) s
    s'.updates = s.updates ++ out ∧ s'.completed = s.completed + out.length ∧
      s'.saves = s.saves ++ savedAt c.ckpt (List.range' (s.completed + 1) out.length) := by
  intro n
  induction n with
  | zero => intro a s _ _ _; simp [savedAt]
  | succ n ih =>
    intro a s hk ha hp
    have h0 := hk 0 (by omega)
    have h := epoch_spec c hG M a 0 (Nat.zero_le _) s (by omega) ha hp
    rw [List.drop_zero] at h
    obtain ⟨a1, a2, a3, a4, a5⟩ := h
    have hlen : (batches c.G (epochFrom c.L a 0)).length = perEpoch c := by rw [length_epoch]; rfl
    rw [List.range'_succ, List.flatMap_cons, List.foldl_cons]
    by_cases hn : n = 0
    · subst hn
      simp only [List.range'_zero, List.flatMap_nil, List.append_nil, List.foldl_nil]
      exact ⟨a1, a4, a5⟩
    · have h1 := hk 1 (by omega)
      have htake : (batches c.G (epochFrom c.L a 0)).take (M - s.completed) = batches c.G (epochFrom c.L a 0) := List.take_of_length_le (by omega)
      rw [htake] at a1 a4 a5
      rw [hlen] at a4 a5
      have h := ih (a + 1) (epochRun c M a (List.range c.L) s) (by
        intro k hk'
        have := hk (k + 1) (by omega)
        rw [a4]
        rw [Nat.add_mul] at this
        omega) a3 a2
      obtain ⟨b1, b2, b3⟩ := h
      rw [a4] at b1 b2 b3
      have ht : ((batches c.G (epochFrom c.L a 0)) ++ (List.range' (a + 1) n).flatMap fun f : ℕ => batches c.G (epochFrom c.L f 0)).take (M - s.completed) =
          batches c.G (epochFrom c.L a 0) ++ ((List.range' (a + 1) n).flatMap fun f : ℕ => batches c.G (epochFrom c.L f 0)).take (M - (s.completed + perEpoch c)) := by
        rw [List.take_append, htake, hlen]
        congr 2
        omega
      rw [ht]
      refine ⟨by rw [b1, a1, List.append_assoc], by rw [b2, List.length_append, hlen]; omega, ?_⟩
      rw [b3, a5, List.length_append, hlen, List.append_assoc, ← List.range'_append_1, savedAt, savedAt, savedAt, List.filter_append]
      congr 4
      omega

/-- The loop over the epochs from place `k` of epoch `e`. -/
theorem loop_spec (c : Cfg) (hG : 0 < c.G) (M N e k a done : ℕ) (hk : k < c.L) (ha : a % c.G = 0) (h1 : e < N → done < M)
    (h2 : ∀ i, i < N - (e + 1) → done + numBatches c.G (c.L - k) + i * perEpoch c < M) :
    (loop c M N e k ⟨[], [], a, done, []⟩).updates = (rest c.L c.G N e k).take (M - done) ∧
    (loop c M N e k ⟨[], [], a, done, []⟩).completed = done + ((rest c.L c.G N e k).take (M - done)).length ∧
    (loop c M N e k ⟨[], [], a, done, []⟩).saves = savedAt c.ckpt (List.range' (done + 1) ((rest c.L c.G N e k).take (M - done)).length) := by
  by_cases he : e < N
  · have hN : N - e = (N - (e + 1)) + 1 := by omega
    unfold loop rest
    rw [if_pos he, hN, List.range'_succ, List.foldl_cons, if_pos rfl]
    obtain ⟨a1, a2, a3, a4, a5⟩ := epoch_spec c hG M e k hk.le ⟨[], [], a, done, []⟩ (h1 he) ha rfl
    simp only [List.nil_append] at a1 a2 a3 a4 a5
    have hcongr : ∀ s : St, (List.range' (e + 1) (N - (e + 1))).foldl (fun s f => epochRun c M f ((List.range c.L).drop (if f = e then k else 0)) s) s =
        (List.range' (e + 1) (N - (e + 1))).foldl (fun s f => epochRun c M f (List.range c.L) s) s := by
      intro s
      apply List.foldl_ext
      intro s f hf
      rw [List.mem_range'_1] at hf
      rw [if_neg (by omega), List.drop_zero]
    rw [hcongr]
    have hlen := length_epoch c.L c.G e k
    by_cases hn : N - (e + 1) = 0
    · rw [hn]
      simp only [List.range'_zero, List.flatMap_nil, List.append_nil, List.foldl_nil]
      exact ⟨a1, a4, a5⟩
    · have hlt := h2 0 (by omega)
      have htake : (batches c.G (epochFrom c.L e k)).take (M - done) = batches c.G (epochFrom c.L e k) := List.take_of_length_le (by omega)
      rw [htake] at a1 a4 a5
      rw [hlen] at a4 a5
      obtain ⟨b1, b2, b3⟩ := epochs_spec c hG M (N - (e + 1)) (e + 1) _ (by intro i hi; rw [a4]; exact h2 i hi) a3 a2
      rw [a4] at b1 b2 b3
      have ht : (batches c.G (epochFrom c.L e k) ++ (List.range' (e + 1) (N - (e + 1))).flatMap fun f : ℕ => batches c.G (epochFrom c.L f 0)).take (M - done) =
          batches c.G (epochFrom c.L e k) ++
            ((List.range' (e + 1) (N - (e + 1))).flatMap fun f : ℕ => batches c.G (epochFrom c.L f 0)).take (M - (done + numBatches c.G (c.L - k))) := by
        rw [List.take_append, htake, hlen]
        congr 2
        omega
      rw [ht]
      refine ⟨by rw [b1, a1], by rw [b2, List.length_append, hlen]; omega, ?_⟩
      rw [b3, a5, List.length_append, hlen, ← List.range'_append_1, savedAt, savedAt, savedAt, List.filter_append]
      congr 3
      omega
  · have hN : N - e = 0 := by omega
    simp [loop, rest, he, hN, savedAt]

theorem totals_spec (c : Cfg) (hL : 0 < c.L) (hG : 0 < c.G) (maxSteps : Option ℕ) (epochs : ℕ) :
    ∃ N, totals c maxSteps epochs = .ok (maxSteps.getD (epochs * perEpoch c), N) ∧ (∀ e, e < N ↔ e * perEpoch c < maxSteps.getD (epochs * perEpoch c)) ∧ 0 < perEpoch c := by
  have hp : 0 < perEpoch c := by
    have := (lt_numBatches_iff (n := c.L) (b := 0) hG).2 (by omega)
    exact this
  refine ⟨_, by rw [totals, if_neg hG.ne', if_neg hp.ne'], fun e => ?_, hp⟩
  exact lt_numBatches_iff hp

theorem length_flatMap_const {α β : Type} (l : List α) (f : α → List β) (n : ℕ) (h : ∀ a, (f a).length = n) : (l.flatMap f).length = l.length * n := by
  induction l with
  | nil => simp
  | cons a l ih => simp [h, ih, Nat.add_mul, Nat.add_comm]

theorem length_rest_zero (c : Cfg) (N e : ℕ) : (rest c.L c.G N e 0).length = (N - e) * perEpoch c := by
  unfold rest
  split
  · have hl := length_flatMap_const (List.range' (e + 1) (N - (e + 1))) (fun f : ℕ => batches c.G (epochFrom c.L f 0)) (perEpoch c)
      (fun f => length_epoch c.L c.G f 0)
    rw [List.length_append, length_epoch, hl, List.length_range', show N - e = (N - (e + 1)) + 1 by omega, Nat.add_mul, Nat.one_mul, Nat.add_comm]
    rfl
  · rw [Nat.sub_eq_zero_of_le (by omega)]
    simp

theorem rest_succ (c : Cfg) (N e : ℕ) (he : e < N) : rest c.L c.G N e 0 = batches c.G (epochFrom c.L e 0) ++ rest c.L c.G N (e + 1) 0 := by
  rw [rest, if_pos he]
  congr 1
  by_cases h : e + 1 < N
  · rw [rest, if_pos h, show N - (e + 1) = (N - (e + 1 + 1)) + 1 by omega, List.range'_succ, List.flatMap_cons]
  · rw [rest, if_neg h, Nat.sub_eq_zero_of_le (by omega)]
    simp

/-- Leaving out whole epochs. -/
theorem rest_drop_epochs (c : Cfg) (N e : ℕ) (he : e ≤ N) : (rest c.L c.G N 0 0).drop (e * perEpoch c) = rest c.L c.G N e 0 := by
  induction e with
  | zero => simp
  | succ e ih =>
    rw [Nat.succ_mul, ← List.drop_drop, ih (by omega), rest_succ c N e (by omega), List.drop_left']
    exact length_epoch c.L c.G e 0

/-- Leaving out any number of updates. -/
theorem rest_drop (c : Cfg) (hG : 0 < c.G) (hp : 0 < perEpoch c) (N s : ℕ) (hs : s / perEpoch c < N) :
    (rest c.L c.G N 0 0).drop s = rest c.L c.G N (s / perEpoch c) (s % perEpoch c * c.G) := by
  conv_lhs => rw [← Nat.div_add_mod' s (perEpoch c)]
  rw [← List.drop_drop, rest_drop_epochs c N _ hs.le, rest, rest, if_pos hs, if_pos hs, List.drop_append_of_le_length]
  · congr 1
    rw [← batches_drop c.G hG]
    simp [epochFrom, List.map_drop]
  · rw [length_epoch]
    exact (Nat.mod_lt _ hp).le

/-- The first batch of the first update. -/
theorem rest_head (c : Cfg) (hG : 0 < c.G) (N e k : ℕ) (he : e < N) (hk : k < c.L) : ∃ l r, rest c.L c.G N e k = ((e, k) :: l) :: r := by
  rw [rest, if_pos he]
  have h : epochFrom c.L e k = (e, k) :: epochFrom c.L e (k + 1) := by
    unfold epochFrom
    rw [List.drop_eq_getElem_cons (by simpa using hk)]
    simp
  rw [h]
  by_cases hl : ((e, k) :: epochFrom c.L e (k + 1)).length ≤ c.G
  · rw [batches_single _ _ (by simp) hl]
    exact ⟨_, _, rfl⟩
  · rw [← List.take_append_drop c.G ((e, k) :: epochFrom c.L e (k + 1)), batches_group c.G hG _ _ (by simp at hl ⊢; omega)]
    obtain ⟨g, hg⟩ : ∃ g, c.G = g + 1 := ⟨c.G - 1, by omega⟩
    rw [hg, List.take_succ_cons]
    exact ⟨_, _, rfl⟩

/-- A resumed run is nowhere ahead of the steps a full run has made. -/
theorem resume_le (c : Cfg) (hL : 0 < c.L) (hG : 0 < c.G) (s : ℕ) :
    s + numBatches c.G (c.L - s * c.G % c.L) ≤ (s * c.G / c.L + 1) * perEpoch c := by
  have h1 := Nat.div_add_mod' (s * c.G) c.L
  have hk := Nat.mod_lt (s * c.G) hL
  set E := s * c.G / c.L
  set k := s * c.G % c.L
  have hnu : c.L ≤ perEpoch c * c.G := by
    by_contra h
    push Not at h
    exact absurd ((lt_numBatches_iff (n := c.L) (b := perEpoch c) hG).2 h) (lt_irrefl _)
  have hq := Nat.div_add_mod' k c.G
  set q := k / c.G
  set t := k % c.G
  have ht : t < c.G := Nat.mod_lt _ hG
  have hEL : E * c.L ≤ E * (perEpoch c * c.G) := Nat.mul_le_mul_left _ hnu
  have hsq : s ≤ E * perEpoch c + q := by
    by_contra h
    push Not at h
    have := Nat.mul_le_mul_right c.G (show E * perEpoch c + q + 1 ≤ s by omega)
    have e : (E * perEpoch c + q + 1) * c.G = E * (perEpoch c * c.G) + q * c.G + c.G := by ring
    omega
  have hnb : numBatches c.G (c.L - k) + q ≤ perEpoch c := by
    by_contra h
    push Not at h
    by_cases hqp : q ≤ perEpoch c
    · have h3 : perEpoch c - q < numBatches c.G (c.L - k) := by omega
      rw [lt_numBatches_iff hG, Nat.sub_mul] at h3
      omega
    · have := Nat.mul_le_mul_right c.G (show perEpoch c + 1 ≤ q by omega)
      rw [Nat.add_mul, Nat.one_mul] at this
      omega
  rw [Nat.add_mul, Nat.one_mul]
  omega

/-- The final state of a run that is not an error. -/
theorem script_ok {c : Cfg} {maxSteps : Option ℕ} {epochs astep : ℕ} {r : Resume} {N M : ℕ} (ht : totals c maxSteps epochs = .ok (M, N)) (o : Bool)
    (ho : o = false ∨ (position c r).1 < N) :
    script c maxSteps epochs r astep o = .ok (loop c M N (position c r).1 (position c r).2.1 ⟨[], [], astep, (position c r).2.2, []⟩) := by
  unfold script
  rw [ht]
  simp only [bind, Except.bind, pure, Except.pure]
  rw [if_neg]
  rintro ⟨h1, h2⟩
  rcases ho with h | h
  · simp [h] at h1
  · exact absurd h (not_lt.2 h2)

theorem fresh_loop (c : Cfg) (hL : 0 < c.L) (hG : 0 < c.G) (M N a : ℕ) (hN : ∀ e, e < N ↔ e * perEpoch c < M) (ha : a % c.G = 0) :
    (loop c M N 0 0 ⟨[], [], a, 0, []⟩).updates = (rest c.L c.G N 0 0).take M ∧ (loop c M N 0 0 ⟨[], [], a, 0, []⟩).updates.length = M ∧
    (loop c M N 0 0 ⟨[], [], a, 0, []⟩).completed = M ∧ (loop c M N 0 0 ⟨[], [], a, 0, []⟩).saves = savedAt c.ckpt (List.range' 1 M) := by
  obtain ⟨h1, h2, h3⟩ := loop_spec c hG M N 0 0 a 0 hL ha (fun h => by simpa using (hN 0).1 h) (by
    intro i hi
    have := (hN (i + 1)).1 (by omega)
    rw [Nat.add_mul, Nat.one_mul] at this
    show 0 + perEpoch c + i * perEpoch c < M
    omega)
  have hlen : ((rest c.L c.G N 0 0).take (M - 0)).length = M := by
    rw [List.length_take, length_rest_zero, Nat.sub_zero, Nat.sub_zero]
    have := mt (hN N).2 (lt_irrefl _)
    omega
  rw [hlen] at h2 h3
  rw [Nat.sub_zero] at hlen h1
  exact ⟨h1, by rw [h1, hlen], by simpa using h2, by simpa using h3⟩

/-! ### Properties -/

/-- **C197** (full run). A new run makes exactly `max_train_steps` updates (number of epochs times updates per epoch by default): the updates of the epochs in order, each of
`gradient_accumulation_steps` consecutive batches of one epoch, fewer only at the end of an epoch; it saves at the steps that `checkpointing_steps` divides. -/
theorem C197_fresh (c : Cfg) (hL : 0 < c.L) (hG : 0 < c.G) (maxSteps : Option ℕ) (epochs : ℕ) :
    ∃ s N, script c maxSteps epochs .fresh 0 false = .ok s ∧ (∀ e, e < N ↔ e * perEpoch c < maxSteps.getD (epochs * perEpoch c)) ∧
      s.updates = (rest c.L c.G N 0 0).take (maxSteps.getD (epochs * perEpoch c)) ∧
      s.updates.length = maxSteps.getD (epochs * perEpoch c) ∧ s.completed = s.updates.length ∧ s.saves = savedAt c.ckpt (List.range' 1 s.updates.length) := by
  obtain ⟨N, h1, h2, h3⟩ := totals_spec c hL hG maxSteps epochs
  obtain ⟨a1, a2, a3, a4⟩ := fresh_loop c hL hG _ N 0 h2 (Nat.zero_mod _)
  refine ⟨_, N, script_ok h1 false (Or.inl rfl), h2, a1, a2, ?_, ?_⟩
  · exact a3.trans a2.symm
  · exact a4.trans (by rw [show (position c .fresh).1 = 0 from rfl, show (position c .fresh).2.1 = 0 from rfl, show (position c .fresh).2.2 = 0 from rfl, a2])

/-- **C197** (all batches). Without `max_train_steps` every batch of every epoch is used exactly once, in order. -/
theorem C197_all_batches (c : Cfg) (hL : 0 < c.L) (hG : 0 < c.G) (epochs : ℕ) :
    ∃ s, script c none epochs .fresh 0 false = .ok s ∧ s.updates.flatten = (List.range epochs).flatMap fun e : ℕ => (List.range c.L).map fun j : ℕ => (e, j) := by
  obtain ⟨N, h1, h2, h3⟩ := totals_spec c hL hG none epochs
  rw [Option.getD_none] at h1 h2
  have hN : N = epochs := by
    apply Nat.le_antisymm
    · by_contra h
      exact absurd ((h2 epochs).1 (by omega)) (lt_irrefl _)
    · by_contra h
      exact absurd ((h2 N).2 (Nat.mul_lt_mul_of_pos_right (by omega) h3)) (lt_irrefl _)
  subst hN
  obtain ⟨a1, -, -, -⟩ := fresh_loop c hL hG _ N 0 h2 (Nat.zero_mod _)
  refine ⟨_, script_ok h1 false (Or.inl rfl), ?_⟩
  show (loop c _ N 0 0 ⟨[], [], 0, 0, []⟩).updates.flatten = _
  rw [a1, List.take_of_length_le (by rw [length_rest_zero, Nat.sub_zero])]
  have key : ∀ n e, N - e = n → (rest c.L c.G N e 0).flatten = (List.range' e n).flatMap fun e : ℕ => (List.range c.L).map fun j : ℕ => (e, j) := by
    intro n
    induction n with
    | zero => intro e he; rw [rest, if_neg (by omega)]; simp
    | succ n ih =>
      intro e he
      rw [rest_succ c N e (by omega), List.flatten_append, ih (e + 1) (by omega), flatten_batches _ hG, List.range'_succ, List.flatMap_cons]
      simp [epochFrom]
  rw [key N 0 (by omega), ← List.range_eq_range']

/-- **C197** (resuming from the end of an epoch). The resumed run makes exactly the updates missing in the full run. -/
theorem C197_resume_epoch (c : Cfg) (hL : 0 < c.L) (hG : 0 < c.G) (maxSteps : Option ℕ) (epochs i a : ℕ) (ha : a % c.G = 0) :
    ∃ full resumed, script c maxSteps epochs .fresh 0 false = .ok full ∧ script c maxSteps epochs (.epoch i) a false = .ok resumed ∧
      resumed.updates = full.updates.drop ((i + 1) * perEpoch c) := by
  obtain ⟨N, h1, h2, h3⟩ := totals_spec c hL hG maxSteps epochs
  obtain ⟨a1, -, -, -⟩ := fresh_loop c hL hG _ N 0 h2 (Nat.zero_mod _)
  refine ⟨_, _, script_ok h1 false (Or.inl rfl), script_ok h1 false (Or.inl rfl), ?_⟩
  obtain ⟨b1, -, -⟩ := loop_spec c hG (maxSteps.getD (epochs * perEpoch c)) N (i + 1) 0 a ((i + 1) * perEpoch c) hL ha (fun h => (h2 _).1 h) (by
    intro j hj
    have := (h2 (i + 1 + 1 + j)).1 (by omega)
    rw [Nat.add_mul (i + 1 + 1), Nat.add_mul (i + 1) 1, Nat.one_mul] at this
    exact this)
  show (loop c _ N (i + 1) 0 ⟨[], [], a, (i + 1) * perEpoch c, []⟩).updates = (loop c _ N 0 0 ⟨[], [], 0, 0, []⟩).updates.drop _
  rw [b1, a1, List.drop_take]
  by_cases hi : i + 1 ≤ N
  · rw [rest_drop_epochs c N _ hi]
  · rw [rest, if_neg (by omega), List.drop_eq_nil_of_le]
    rw [length_rest_zero, Nat.sub_zero]
    exact Nat.mul_le_mul_right _ (by omega)

/-- **C197** (resuming from a step). Resuming before the last step, from the checkpoint after `i` steps, continues with batch number `i · gradient_accumulation_steps` of the
stream of all batches, and makes the updates from there until `max_train_steps` or the end of the last epoch. -/
theorem C197_resume_step (c : Cfg) (hL : 0 < c.L) (hG : 0 < c.G) (maxSteps : Option ℕ) (epochs i a : ℕ) (ha : a % c.G = 0) (hi : i < maxSteps.getD (epochs * perEpoch c)) :
    ∃ resumed N, script c maxSteps epochs (.step i) a false = .ok resumed ∧ (∀ e, e < N ↔ e * perEpoch c < maxSteps.getD (epochs * perEpoch c)) ∧
      resumed.updates = (rest c.L c.G N (i * c.G / c.L) (i * c.G % c.L)).take (maxSteps.getD (epochs * perEpoch c) - i) := by
  obtain ⟨N, h1, h2, h3⟩ := totals_spec c hL hG maxSteps epochs
  refine ⟨_, N, script_ok h1 false (Or.inl rfl), h2, ?_⟩
  have e1 : (position c (.step i)).2.1 = i * c.G % c.L := by
    have := Nat.div_add_mod' (i * c.G) c.L
    simp only [position]
    omega
  have e2 : (position c (.step i)).2.2 = i := Nat.mul_div_cancel _ hG
  rw [e1, e2]
  exact (loop_spec c hG _ N (i * c.G / c.L) (i * c.G % c.L) a i (Nat.mod_lt _ hL) ha (fun _ => hi) (by
    intro j hj
    have h4 := (h2 (i * c.G / c.L + 1 + j)).1 (by omega)
    rw [Nat.add_mul _ j] at h4
    have := resume_le c hL hG i
    omega)).1

/-- **C197** (when resuming from a step is exact). The resumed run makes the updates missing in the full run exactly if `gradient_accumulation_steps` divides the number of
batches or the checkpoint is from the first epoch; otherwise batches are left out. -/
theorem C197_resume_exact (c : Cfg) (hL : 0 < c.L) (hG : 0 < c.G) (maxSteps : Option ℕ) (epochs i a : ℕ) (ha : a % c.G = 0) (hi : i < maxSteps.getD (epochs * perEpoch c)) :
    ∃ full resumed, script c maxSteps epochs .fresh 0 false = .ok full ∧ script c maxSteps epochs (.step i) a false = .ok resumed ∧
      (resumed.updates = full.updates.drop i ↔ c.G ∣ c.L ∨ i < perEpoch c) := by
  obtain ⟨N, h1, h2, h3⟩ := totals_spec c hL hG maxSteps epochs
  obtain ⟨resumed, N', r1, r2, r3⟩ := C197_resume_step c hL hG maxSteps epochs i a ha hi
  have hNN : N' = N := by
    apply Nat.le_antisymm <;> by_contra h
    · exact absurd ((h2 N).2 ((r2 N).1 (by omega))) (lt_irrefl _)
    · exact absurd ((r2 N').2 ((h2 N').1 (by omega))) (lt_irrefl _)
  subst hNN
  obtain ⟨a1, -, -, -⟩ := fresh_loop c hL hG _ N' 0 h2 (Nat.zero_mod _)
  refine ⟨_, resumed, script_ok h1 false (Or.inl rfl), r1, ?_⟩
  have hE : i / perEpoch c < N' := by
    rw [h2]
    exact lt_of_le_of_lt (Nat.div_mul_le_self _ _) hi
  have hdrop : (loop c (maxSteps.getD (epochs * perEpoch c)) N' 0 0 ⟨[], [], 0, 0, []⟩).updates.drop i =
      (rest c.L c.G N' (i / perEpoch c) (i % perEpoch c * c.G)).take (maxSteps.getD (epochs * perEpoch c) - i) := by
    rw [a1, List.drop_take, rest_drop c hG h3 N' i hE]
  show resumed.updates = (loop c (maxSteps.getD (epochs * perEpoch c)) N' 0 0 ⟨[], [], 0, 0, []⟩).updates.drop i ↔ _
  rw [hdrop, r3]
  have hm := Nat.div_add_mod' i (perEpoch c)
  have hmlt := Nat.mod_lt i h3
  have hkL : i % perEpoch c * c.G < c.L := (lt_numBatches_iff (n := c.L) hG).1 hmlt
  have hdm := Nat.div_add_mod' (i * c.G) c.L
  constructor
  · intro h
    obtain ⟨l, r, hr⟩ := rest_head c hG N' _ _ hE hkL
    obtain ⟨q, hq⟩ : ∃ q, maxSteps.getD (epochs * perEpoch c) - i = q + 1 := ⟨maxSteps.getD (epochs * perEpoch c) - i - 1, by omega⟩
    rw [hr, hq, List.take_succ_cons] at h
    by_cases hE' : i * c.G / c.L < N'
    · obtain ⟨l', r', hr'⟩ := rest_head c hG N' _ _ hE' (Nat.mod_lt (i * c.G) hL)
      rw [hr', List.take_succ_cons] at h
      simp only [List.cons.injEq, Prod.mk.injEq] at h
      obtain ⟨⟨⟨e1, e2⟩, -⟩, -⟩ := h
      rw [e1, e2] at hdm
      have e3 : i * c.G = i / perEpoch c * (perEpoch c * c.G) + i % perEpoch c * c.G := by
        conv_lhs => rw [← hm]
        ring
      have e4 : i / perEpoch c * c.L = i / perEpoch c * (perEpoch c * c.G) := by omega
      rcases Nat.eq_zero_or_pos (i / perEpoch c) with h0 | h0
      · right
        rwa [Nat.div_eq_zero_iff_lt h3] at h0
      · left
        rw [Nat.eq_of_mul_eq_mul_left h0 e4]
        exact Dvd.intro_left _ rfl
    · rw [rest, if_neg hE', List.take_nil] at h
      exact absurd h (by simp)
  · intro h
    have key : i * c.G / c.L = i / perEpoch c ∧ i * c.G % c.L = i % perEpoch c * c.G := by
      rcases h with h | h
      · obtain ⟨n, hn⟩ := h
        have hpe : perEpoch c = n := by
          unfold perEpoch
          rw [hn, show c.G * n + c.G - 1 = (c.G - 1) + c.G * n by omega, Nat.add_mul_div_left _ _ hG, Nat.div_eq_of_lt (by omega), Nat.zero_add]
        rw [hpe, hn, Nat.mul_comm i, Nat.mul_div_mul_left _ _ hG, Nat.mul_mod_mul_left, Nat.mul_comm c.G]
        exact ⟨rfl, rfl⟩
      · rw [Nat.div_eq_of_lt h, Nat.mod_eq_of_lt h]
        rw [Nat.mod_eq_of_lt h] at hkL
        exact ⟨Nat.div_eq_of_lt hkL, Nat.mod_eq_of_lt hkL⟩
    rw [key.1, key.2]

/-- **C197** (resuming a finished run). Without accumulation, resuming from the checkpoint of the last step makes one more update than asked for, if that step is not at the end
of an epoch. -/
theorem C197_resume_finished (c : Cfg) (hL : 0 < c.L) (hG : c.G = 1) (M epochs a : ℕ) (o : Bool) (hM : ¬ c.L ∣ M) :
    ∃ s, script c (some M) epochs (.step M) a o = .ok s ∧ s.updates = [[(M / c.L, M % c.L)]] ∧ s.completed = M + 1 := by
  have hp : perEpoch c = c.L := by simp [perEpoch, hG]
  obtain ⟨N, h1, h2, -⟩ := totals_spec c hL (by omega) (some M) epochs
  simp only [Option.getD_some, hp] at h1 h2
  have hm := Nat.div_add_mod' M c.L
  have hlt := Nat.mod_lt M hL
  have hpos : 0 < M % c.L := Nat.pos_of_ne_zero fun h => hM (Nat.dvd_of_mod_eq_zero h)
  have hN : N = M / c.L + 1 := by
    apply Nat.le_antisymm
    · by_contra h
      have := (h2 (M / c.L + 1)).1 (by omega)
      rw [Nat.add_mul] at this
      omega
    · have := (h2 (M / c.L)).2 (by omega)
      omega
  have e0 : (position c (.step M)).1 = M / c.L := by simp [position, hG]
  have e1 : (position c (.step M)).2.1 = M % c.L := by
    simp only [position, hG, Nat.mul_one]
    omega
  have e2 : (position c (.step M)).2.2 = M := by simp [position, hG]
  refine ⟨_, script_ok h1 o (Or.inr (by rw [e0]; omega)), ?_⟩
  rw [e0, e1, e2, hN]
  unfold loop
  rw [Nat.add_sub_cancel_left, List.range'_one, List.foldl_cons, List.foldl_nil, if_pos rfl, List.drop_eq_getElem_cons (by simpa using hlt)]
  simp [epochRun, batchStep, hG, Nat.mod_one]

/-- **C197** (nothing left). If no epoch is left and an output directory is given, the script ends with an error before the indices of the training samples are written; so it
does for a new run with no steps. -/
theorem C197_nothing_left (c : Cfg) (hL : 0 < c.L) (hG : 0 < c.G) (maxSteps : Option ℕ) (epochs a : ℕ) (r : Resume) :
    (script c maxSteps epochs r a true = .error .unboundLocalError ↔ maxSteps.getD (epochs * perEpoch c) ≤ (position c r).1 * perEpoch c) ∧
    (script c maxSteps epochs r a true ≠ .error .unboundLocalError → script c maxSteps epochs r a true = script c maxSteps epochs r a false) := by
  obtain ⟨N, h1, h2, h3⟩ := totals_spec c hL hG maxSteps epochs
  by_cases h : (position c r).1 < N
  · rw [script_ok h1 true (Or.inr h), script_ok h1 false (Or.inl rfl)]
    have := (h2 _).1 h
    exact ⟨⟨fun h => by simp at h, fun h => absurd this (not_lt.2 h)⟩, fun _ => rfl⟩
  · have hs : script c maxSteps epochs r a true = .error .unboundLocalError := by
      unfold script
      rw [h1]
      simp only [bind, Except.bind, throw, throwThe, MonadExceptOf.throw]
      rw [if_pos ⟨trivial, not_lt.1 h⟩]
    rw [hs]
    exact ⟨⟨fun _ => not_lt.1 (mt (h2 _).2 h), fun _ => rfl⟩, fun h => absurd rfl h⟩

/-- **C197** (errors). The script fails before training exactly if the loader is empty or `gradient_accumulation_steps` is 0. -/
theorem C197_errors (c : Cfg) (maxSteps : Option ℕ) (epochs a : ℕ) (r : Resume) :
    script c maxSteps epochs r a false = .error .zeroDivisionError ↔ c.L = 0 ∨ c.G = 0 := by
  constructor
  · intro h
    by_contra h'
    push Not at h'
    obtain ⟨N, h1, -, -⟩ := totals_spec c (by omega) (by omega) maxSteps epochs
    rw [script_ok h1 false (Or.inl rfl)] at h
    simp at h
  · intro h
    have ht : totals c maxSteps epochs = .error .zeroDivisionError := by
      unfold totals
      by_cases hG : c.G = 0
      · rw [if_pos hG]
      · have hL : c.L = 0 := by tauto
        have hp : perEpoch c = 0 := by
          unfold perEpoch
          rw [hL, Nat.div_eq_of_lt (by omega)]
        rw [if_neg hG, if_pos hp]
    unfold script
    rw [ht]
    rfl

/-- Five batches, two per update, two epochs: resuming from step 4 (one update into the second epoch) skips a batch. -/
example : (script ⟨5, 2, some 4⟩ none 2 .fresh 0 false).map (·.updates) =
    .ok [[(0, 0), (0, 1)], [(0, 2), (0, 3)], [(0, 4)], [(1, 0), (1, 1)], [(1, 2), (1, 3)], [(1, 4)]] ∧
    (script ⟨5, 2, some 4⟩ none 2 (.step 4) 0 false).map (·.updates) = .ok [[(1, 3), (1, 4)]] := by decide

end Verif.TrainSteps
