import Verif.Attr.Props
import Verif.TracIn.Props
import Verif.TRAK.Props
import Verif.KNN.DistProps
import Mathlib.Data.List.Perm.Basic
import Mathlib.Algebra.BigOperators.Group.List.Basic
import Mathlib.Logic.Equiv.Fin.Basic

/-!
# C210: which other samples a score depends on, and the order of the samples
-/

namespace Verif.Order

open Matrix

/-- Position `i` of the first list and position `i'` of the second hold the same sample. -/
def Same {X : Type} (l l' : List X) (i i' : ℕ) : Prop := ∃ x, l[i]? = some x ∧ l'[i']? = some x

theorem Same.split {X : Type} {l l' : List X} {i i' : ℕ} (h : Same l l' i i') :
    ∃ (h1 : i < l.length) (h2 : i' < l'.length), l[i] = l'[i'] := by
  obtain ⟨x, a, b⟩ := h
  obtain ⟨h1, rfl⟩ := List.getElem?_eq_some_iff.1 a
  obtain ⟨h2, e⟩ := List.getElem?_eq_some_iff.1 b
  exact ⟨h1, h2, e.symm⟩

/-! ## TracIn and cached influence functions -/

/-- **C210.** A TracIn score depends on its two samples only: it is the same whatever the other training and test samples are, wherever
the two samples stand, and for all batch sizes. -/
theorem C210_tracin {X C : Type} {d : ℕ} (A : TracIn.Attributor X C d) (hl : A.ckpts.length = A.weights.length)
    (tr tr' te te' : Loader X) (b1 : 0 < tr.bs) (b2 : 0 < te.bs) (b1' : 0 < tr'.bs) (b2' : 0 < te'.bs) (s1 : tr.supported = true)
    (s2 : te.supported = true) (s1' : tr'.supported = true) (s2' : te'.supported = true) :
    ∃ M M', TracIn.attribute' A tr te = .ok M ∧ TracIn.attribute' A tr' te' = .ok M' ∧
      ∀ i i' j j', Same tr.data tr'.data i i' → Same te.data te'.data j j' → M.f i j = M'.f i' j' := by
  obtain ⟨M, h1, _, _, h2⟩ := TracIn.C09_tracin_entry A tr te hl b1 b2 s1 s2
  obtain ⟨M', h1', _, _, h2'⟩ := TracIn.C09_tracin_entry A tr' te' hl b1' b2' s1' s2'
  refine ⟨M, M', h1, h1', ?_⟩
  intro i i' j j' hi hj
  obtain ⟨p, p', e⟩ := hi.split
  obtain ⟨q, q', e'⟩ := hj.split
  rw [h2 i p j q, h2' i' p' j' q', e, e']

/-- **C210.** The same for the influence functions once the full training data are cached. -/
theorem C210_cached {R X C : Type} [Field R] [CharZero R] {p d : ℕ} (S : Attr.Sub R X C p d) (ckpts : List C) (full : Loader X)
    (m : Option String) (hm : ∀ s, m = some s → S.methodOk s = true)
    (tr tr' te te' : Loader X) (b1 : 0 < tr.bs) (b2 : 0 < te.bs) (b1' : 0 < tr'.bs) (b2' : 0 < te'.bs) (s1 : tr.supported = true)
    (s2 : te.supported = true) (s1' : tr'.supported = true) (s2' : te'.supported = true) :
    ∃ M M', (Attr.attribute' S ckpts (some full) m tr te).2 = .ok M ∧ (Attr.attribute' S ckpts (some full) m tr' te').2 = .ok M' ∧
      ∀ i i' j j', Same tr.data tr'.data i i' → Same te.data te'.data j j' → M.f i j = M'.f i' j' := by
  obtain ⟨M, h1, _, _, h2⟩ := Attr.C05_attribute_entry S ckpts (some full) m tr te b1 b2 s1 s2 hm
  obtain ⟨M', h1', _, _, h2'⟩ := Attr.C05_attribute_entry S ckpts (some full) m tr' te' b1' b2' s1' s2' hm
  refine ⟨M, M', h1, h1', ?_⟩
  intro i i' j j' hi hj
  obtain ⟨p, p', e⟩ := hi.split
  obtain ⟨q, q', e'⟩ := hj.split
  rw [h2 i p j q, h2' i' p' j' q', e, e']
  rfl

/-! ## TRAK -/

theorem kernel_perm {R : Type} [Field R] {d : ℕ} (reg : R) {Φ Φ' : List (Fin d → R)} (h : Φ'.Perm Φ) :
    TRAK.kernel reg Φ' = TRAK.kernel reg Φ := by
  ext a b
  unfold TRAK.kernel
  rw [(h.map fun φ => φ a * φ b).sum_eq]

/-- **C210.** A TRAK score depends on its two samples and on which training samples there are, but neither on their order and batches
nor on the other test samples: with the same training samples in another order it is the same number. -/
theorem C210_trak {R X C : Type} [Field R] [CharZero R] {d : ℕ} (A : TRAK.Attributor R X C d) (hc : A.ckpts ≠ [])
    (tr tr' te te' : Loader X) (b1 : 0 < tr.bs) (b2 : 0 < te.bs) (b1' : 0 < tr'.bs) (b2' : 0 < te'.bs) (s1 : tr.supported = true)
    (s2 : te.supported = true) (s1' : tr'.supported = true) (s2' : te'.supported = true) (n1 : tr.data ≠ []) (n2 : te.data ≠ [])
    (n2' : te'.data ≠ []) (hp : tr'.data.Perm tr.data)
    (hdet : ∀ c ∈ A.ckpts, (TRAK.gram A.reg tr.data.length (TRAK.feat A c tr.data)).det ≠ 0) :
    ∃ M M', TRAK.attribute' A TRAK.fresh te (some tr) = .ok M ∧ TRAK.attribute' A TRAK.fresh te' (some tr') = .ok M' ∧
      ∀ i i' j j', Same tr.data tr'.data i i' → Same te.data te'.data j j' → M.f i j = M'.f i' j' := by
  have hg : ∀ c, TRAK.gram A.reg tr'.data.length (TRAK.feat A c tr'.data) = TRAK.gram A.reg tr.data.length (TRAK.feat A c tr.data) := by
    intro c
    rw [← TRAK.kernel_eq_gram, ← TRAK.kernel_eq_gram]
    exact kernel_perm A.reg (hp.map _)
  have n1' : tr'.data ≠ [] := fun h => n1 (by
    have := hp.length_eq
    rw [h] at this
    exact List.eq_nil_of_length_eq_zero this.symm)
  obtain ⟨M, h1, _, _, h2⟩ := TRAK.C13_trak_entry A TRAK.fresh rfl tr te b1 b2 s1 s2 n1 n2 hc hdet
  obtain ⟨M', h1', _, _, h2'⟩ := TRAK.C13_trak_entry A TRAK.fresh rfl tr' te' b1' b2' s1' s2' n1' n2' hc
    (fun c h => by rw [hg]; exact hdet c h)
  refine ⟨M, M', h1, h1', ?_⟩
  intro i i' j j' hi hj
  obtain ⟨p, p', e⟩ := hi.split
  obtain ⟨q, q', e'⟩ := hj.split
  rw [h2 i p j q, h2' i' p' j' q', e, e']
  simp only [hg]

/-- One feature, no regularisation, correct probability 0. -/
def exTrak : TRAK.Attributor ℚ ℚ Unit 1 := ⟨fun _ x _ => x, fun _ x _ => x, fun _ _ => 0, [()], 0⟩

theorem gram_one (l : List ℚ) : TRAK.gram (0 : ℚ) l.length (TRAK.feat exTrak () l) = Matrix.of fun _ _ => (l.map fun x : ℚ => x * x).sum := by
  have := TRAK.kernel_eq_gram exTrak () l
  rw [show exTrak.reg = 0 from rfl] at this
  rw [← this]
  ext a b
  simp [TRAK.kernel, exTrak, Function.comp_def]

/-- **C210.** The other training samples do matter to TRAK: adding one changes the score of the others. -/
theorem C210_trak_extra : ∃ M M',
    TRAK.attribute' exTrak TRAK.fresh ⟨[1], 1, true⟩ (some ⟨[1], 1, true⟩) = .ok M ∧
    TRAK.attribute' exTrak TRAK.fresh ⟨[1], 1, true⟩ (some ⟨[1, 1], 1, true⟩) = .ok M' ∧ M.f 0 0 = 1 ∧ M'.f 0 0 = 1 / 2 := by
  have hd : ∀ l : List ℚ, (l.map fun x : ℚ => x * x).sum ≠ 0 → ∀ c ∈ exTrak.ckpts,
      (TRAK.gram exTrak.reg l.length (TRAK.feat exTrak c l)).det ≠ 0 := by
    intro l hl c _
    rw [show exTrak.reg = 0 from rfl, gram_one l, Matrix.det_fin_one]
    exact hl
  have hinv : ∀ s : ℚ, (Matrix.of fun _ _ => s : Matrix (Fin 1) (Fin 1) ℚ)⁻¹ = Matrix.of fun _ _ => s⁻¹ := by
    intro s
    ext a b
    rw [Matrix.inv_def, Matrix.det_fin_one, Matrix.adjugate_fin_one]
    obtain rfl : a = 0 := Subsingleton.elim _ _
    obtain rfl : b = 0 := Subsingleton.elim _ _
    simp
  obtain ⟨M, h1, _, _, h2⟩ := TRAK.C13_trak_entry exTrak TRAK.fresh rfl ⟨[1], 1, true⟩ ⟨[1], 1, true⟩ (by decide) (by decide) rfl rfl
    (by simp) (by simp) (by simp [exTrak]) (hd [1] (by norm_num))
  obtain ⟨M', h1', _, _, h2'⟩ := TRAK.C13_trak_entry exTrak TRAK.fresh rfl ⟨[1, 1], 1, true⟩ ⟨[1], 1, true⟩ (by decide) (by decide)
    rfl rfl (by simp) (by simp) (by simp [exTrak]) (hd [1, 1] (by norm_num))
  refine ⟨M, M', h1, h1', ?_, ?_⟩
  · rw [h2 0 (by simp) 0 (by simp)]
    simp only [show exTrak.reg = 0 from rfl, show exTrak.ckpts = [()] from rfl, gram_one [1], hinv, List.map_cons, List.map_nil,
      List.sum_cons, List.sum_nil]
    simp [exTrak, Matrix.mulVec, dotProduct]
  · rw [h2' 0 (by simp) 0 (by simp)]
    simp only [show exTrak.reg = 0 from rfl, show exTrak.ckpts = [()] from rfl, gram_one [1, 1], hinv, List.map_cons, List.map_nil,
      List.sum_cons, List.sum_nil]
    simp [exTrak, Matrix.mulVec, dotProduct]
    norm_num

/-! ## Influence functions without cache -/

/-- **C210.** Without `cache`, the explicit influence function takes the training loader as full training data.  If the loss of a batch
does not depend on the order of its samples and the loader has a single batch, reordering the training samples changes no score. -/
theorem C210_explicit_one_batch {R X C : Type} [Field R] [CharZero R] {p : ℕ} (gTrain gTest : C → X → Fin p → R)
    (hess : C → List X → Matrix (Fin p) (Fin p) R) (hh : ∀ c l l', l'.Perm l → hess c l' = hess c l) (reg : R) (ckpts : List C)
    (tr tr' te te' : Loader X) (b2 : 0 < te.bs) (b2' : 0 < te'.bs) (s1 : tr.supported = true)
    (s2 : te.supported = true) (s1' : tr'.supported = true) (s2' : te'.supported = true) (n1 : tr.data ≠ [])
    (hb : tr.data.length ≤ tr.bs) (hb' : tr'.data.length ≤ tr'.bs) (hp : tr'.data.Perm tr.data)
    (hdet : ∀ c ∈ ckpts, (hess c tr.data + reg • (1 : Matrix (Fin p) (Fin p) R)).det ≠ 0) :
    ∃ M M', (Attr.attribute' (Attr.explicitSub gTrain gTest hess reg) ckpts none none tr te).2 = .ok M ∧
      (Attr.attribute' (Attr.explicitSub gTrain gTest hess reg) ckpts none none tr' te').2 = .ok M' ∧
      ∀ i i' j j', Same tr.data tr'.data i i' → Same te.data te'.data j j' → M.f i j = M'.f i' j' := by
  have hlen := hp.length_eq
  have n0 : 0 < tr.data.length := List.length_pos_of_ne_nil n1
  have n1' : tr'.data ≠ [] := fun h => by rw [h] at hlen; simp at hlen; omega
  obtain ⟨M, h1, _, _, h2⟩ := Attr.C05_attribute_entry (Attr.explicitSub gTrain gTest hess reg) ckpts none none tr te (by omega) b2 s1 s2
    (by simp)
  obtain ⟨M', h1', _, _, h2'⟩ := Attr.C05_attribute_entry (Attr.explicitSub gTrain gTest hess reg) ckpts none none tr' te' (by omega) b2'
    s1' s2' (by simp)
  refine ⟨M, M', h1, h1', ?_⟩
  intro i i' j j' hi hj
  obtain ⟨p, p', e⟩ := hi.split
  obtain ⟨q, q', e'⟩ := hj.split
  rw [h2 i p j q, h2' i' p' j' q', e, e']
  congr 1
  refine congrArg List.sum (List.map_congr_left ?_)
  intro c hc
  obtain ⟨u, hu1, hu2⟩ := Attr.C08_explicit_single_batch hess reg c tr (gTest c te'.data[j']) s1 n1 hb (hdet c hc)
  obtain ⟨u', hu1', hu2'⟩ := Attr.C08_explicit_single_batch hess reg c tr' (gTest c te'.data[j']) s1' n1' hb'
    (by rw [hh c _ _ hp]; exact hdet c hc)
  have huu : u' = u := by
    rw [hh c _ _ hp] at hu2'
    have hinj := Matrix.mulVec_injective_of_isUnit (A := hess c tr.data + reg • (1 : Matrix _ _ R))
      ((Matrix.isUnit_iff_isUnit_det _).2 (isUnit_iff_ne_zero.2 (hdet c hc)))
    exact hinj (hu2'.trans hu2.symm)
  simp only [Attr.score, Attr.explicitSub, Option.getD_none, hu1, hu1', huu]

/-- **C210.** With several batches the order matters: four samples of curvature 1, 3, 1, 3 in batches of two give a transformed test
gradient of 1; in the order 1, 1, 3, 3 it is 4/3. -/
theorem C210_explicit_order : ([1, 1, 3, 3] : List ℚ).Perm [1, 3, 1, 3] ∧ ∃ u w : Fin 1 → ℚ,
    Attr.explicitTransTest Attr.meanHess 0 () ⟨[1, 3, 1, 3], 2, true⟩ (fun _ => 1) = .ok u ∧
    Attr.explicitTransTest Attr.meanHess 0 () ⟨[1, 1, 3, 3], 2, true⟩ (fun _ => 1) = .ok w ∧ u 0 = 1 ∧ w 0 = 4 / 3 := by
  refine ⟨by decide, ?_⟩
  have det : ∀ (l : List ℚ), l.sum / l.length ≠ 0 → (Attr.meanHess () l + (0 : ℚ) • (1 : Matrix (Fin 1) (Fin 1) ℚ)).det ≠ 0 := by
    intro l hl
    rw [Matrix.det_fin_one]
    simpa [Attr.meanHess] using hl
  have val : ∀ (l : List ℚ) (u : Fin 1 → ℚ), (Attr.meanHess () l + (0 : ℚ) • (1 : Matrix (Fin 1) (Fin 1) ℚ)) *ᵥ u = (fun _ => 1) →
      l.sum / l.length * u 0 = 1 := by
    intro l u h
    have := congrFun h 0
    simpa [Attr.meanHess, Matrix.mulVec, dotProduct] using this
  obtain ⟨u, e, h⟩ := Attr.C08_explicit_sum Attr.meanHess 0 () ⟨[1, 3, 1, 3], 2, true⟩ (fun _ => 1) rfl (by
    intro b hb
    have : b < 2 := hb
    interval_cases b <;> exact det _ (by norm_num [Loader.batch, batchAt]))
  obtain ⟨w, e', h'⟩ := Attr.C08_explicit_sum Attr.meanHess 0 () ⟨[1, 1, 3, 3], 2, true⟩ (fun _ => 1) rfl (by
    intro b hb
    have : b < 2 := hb
    interval_cases b <;> exact det _ (by norm_num [Loader.batch, batchAt]))
  refine ⟨_, _, e, e', ?_, ?_⟩
  · have a0 := val _ _ ((h 0 (by decide) (u 0)).2 rfl)
    have a1 := val _ _ ((h 1 (by decide) (u 1)).2 rfl)
    norm_num [Loader.batch, batchAt] at a0 a1
    rw [show (⟨[1, 3, 1, 3], 2, true⟩ : Loader ℚ).nb = 2 from rfl, Finset.sum_range_succ, Finset.sum_range_one]
    simp only [Pi.add_apply]
    linarith
  · have a0 := val _ _ ((h' 0 (by decide) (w 0)).2 rfl)
    have a1 := val _ _ ((h' 1 (by decide) (w 1)).2 rfl)
    norm_num [Loader.batch, batchAt] at a0 a1
    rw [show (⟨[1, 1, 3, 3], 2, true⟩ : Loader ℚ).nb = 2 from rfl, Finset.sum_range_succ, Finset.sum_range_one]
    simp only [Pi.add_apply]
    linarith

/-! ## KNN-Shapley -/

open KNN Equiv in
/-- **C210.** KNN-Shapley values move with the samples: if the training samples and their labels are put in another order (`π` says where
they were), for the same or other test samples, batch sizes and a different way of sorting equal distances, the value of a training
sample for a test sample stays the same, provided training samples at equal distance from that test sample agree in matching its label. -/
theorem C210_knn {X L : Type} [DecidableEq L] (K : ℕ) (hK : 0 < K) (dist : X → X → ℚ) (lab : X → L)
    (srt srt' : (n : ℕ) → (Fin n → ℚ) → Perm (Fin n)) (hsrt : IsArgsort srt) (hsrt' : IsArgsort srt')
    (train train' test test' : List X) (hn : 0 < train.length) (π : Fin train'.length ≃ Fin train.length)
    (hπ : ∀ a, train'[a] = train[π a]) (bsTr bsTe bsTr' bsTe' : ℕ) (hTr : 0 < bsTr) (hTe : 0 < bsTe) (hTr' : 0 < bsTr') (hTe' : 0 < bsTe')
    (o p o' p' : Option (List L)) (ho : ∀ l, o = some l → l.length = train.length) (hp : ∀ l, p = some l → l.length = test.length)
    (ho' : ∀ l, o' = some l → l.length = train'.length) (hp' : ∀ l, p' = some l → l.length = test'.length) :
    ∃ M M', knnAttribute K dist lab srt train test bsTr bsTe o p = .ok M ∧
      knnAttribute K dist lab srt' train' test' bsTr' bsTe' o' p' = .ok M' ∧
      ∀ j j' (hj : j < test.length) (hj' : j' < test'.length), test[j] = test'[j'] →
        (∀ a : Fin train'.length, labelsMatch lab train' test' o' p' j' a = labelsMatch lab train test o p j (π a)) →
        (∀ a b : Fin train.length, dist test[j] train[a] = dist test[j] train[b] →
          labelsMatch lab train test o p j a = labelsMatch lab train test o p j b) →
        ∀ a : Fin train'.length, M'.f j' a = M.f j (π a) := by
  have hlen : train'.length = train.length := by simpa using Fintype.card_congr π
  have hn' : 0 < train'.length := by omega
  obtain ⟨M, h1, h2⟩ := row_ranks K dist lab srt hsrt train test bsTr bsTe hTr hTe o p ho hp hK hn
  obtain ⟨M', h1', h2'⟩ := row_ranks K dist lab srt' hsrt' train' test' bsTr' bsTe' hTr' hTe' o' p' ho' hp' hK hn'
  refine ⟨M, M', h1, h1', ?_⟩
  intro j j' hj hj' htest hlab hties a
  obtain ⟨σ, mm, s1, s2, s3⟩ := h2 j hj
  obtain ⟨τ', mm', t1, t2, t3⟩ := h2' j' hj'
  -- the second sorting, seen from the first order
  let c : Fin train.length ≃ Fin train'.length := finCongr hlen.symm
  let τ : Perm (Fin train.length) := (c.trans τ').trans π
  have hτ : ∀ k, τ k = π (τ' (c k)) := fun _ => rfl
  have ht1 : Monotone fun k => dist test[j] train[τ k] := by
    intro x y hxy
    have := t1 (show c x ≤ c y from hxy)
    simp only [← htest, Fin.getElem_fin] at this
    have e : ∀ k, train[τ k] = train'[τ' (c k)] := fun k => (hπ _).symm
    show dist test[j] train[τ x] ≤ dist test[j] train[τ y]
    rw [e, e]
    exact this
  have htied := sorted_tied (fun a : Fin train.length => dist test[j] train[a]) σ τ s1 ht1
  have hmm : ∀ i < train.length, mm i = mm' i := by
    intro i hi
    have e1 := s2 ⟨i, hi⟩
    have e2 := t2 (c ⟨i, hi⟩)
    simp only at e1
    rw [show ((c ⟨i, hi⟩ : Fin train'.length) : ℕ) = i from rfl] at e2
    rw [e1, e2, hlab, ← hτ]
    exact hties _ _ (htied _)
  set x : Fin train.length := σ.symm (π a) with hx
  set y : Fin train.length := τ.symm (π a) with hy
  have e1 : M.f j (π a) = gVal train.length K mm x := by
    rw [← s3 x, hx]
    simp
  have hya : τ' (c y) = a := by
    apply π.injective
    rw [← hτ, hy, Equiv.apply_symm_apply]
  have e2 : M'.f j' a = gVal train.length K mm y := by
    rw [gVal_congr train.length K hn hK mm mm' hmm (train.length - 1 - y) y (by omega)]
    have := t3 (c y)
    rw [hya] at this
    exact this.trans (congrArg (fun n => gVal n K mm' (y : ℕ)) hlen)
  rw [e1, e2]
  have hxy : dist test[j] train[σ x] = dist test[j] train[σ y] := by
    rw [htied y]
    have e : σ x = τ y := by rw [hx, hy, Equiv.apply_symm_apply, Equiv.apply_symm_apply]
    simp only [e]
  have hflat : ∀ u v : Fin train.length, u ≤ v → dist test[j] train[σ u] = dist test[j] train[σ v] →
      gVal train.length K mm u = gVal train.length K mm v := by
    intro u v huv he
    have hle : (u : ℕ) ≤ v := huv
    have := gVal_flat train.length K mm ((v : ℕ) - u) u (by omega) (by
      intro l l1 l2
      have hl : l < train.length := by omega
      have hl1 : (u : Fin train.length) ≤ ⟨l, hl⟩ := l1
      have hl2 : (⟨l, hl⟩ : Fin train.length) ≤ v := by
        show l ≤ v
        omega
      rw [show mm l = mm ((⟨l, hl⟩ : Fin train.length) : ℕ) from rfl, s2, s2]
      apply hties
      exact le_antisymm ((s1 hl2).trans he.symm.le) (s1 hl1))
    rw [this]
    congr 1
    omega
  rcases le_total x y with h | h
  · exact (hflat x y h hxy).symm
  · exact hflat y x h hxy.symm

/-! ## Examples -/

example : Same [5, 7, 9] [9, 5] 0 1 := ⟨5, rfl, rfl⟩
example : Same [5, 7, 9] [9, 5] 2 0 := ⟨9, rfl, rfl⟩

/-- Three samples in another order: `π` is a rotation. -/
example : ∃ π : Fin ([3, 1, 2] : List ℕ).length ≃ Fin ([1, 2, 3] : List ℕ).length, ∀ a, ([3, 1, 2] : List ℕ)[a] = ([1, 2, 3] : List ℕ)[π a] :=
  ⟨(finRotate 3).symm, by decide⟩

/-- The hypotheses on the Gram matrices are met with positive regularisation, and a mean Hessian does not depend on the order. -/
example (l l' : List ℚ) (h : l'.Perm l) : Attr.meanHess () l' = Attr.meanHess () l := by
  funext a b
  simp [Attr.meanHess, h.sum_eq, h.length_eq]

end Verif.Order
