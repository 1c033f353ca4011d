import Verif.Bench.ResNetModel
import Verif.Bench.LossProps
import Mathlib.Data.List.Perm.Basic

/-! # C153: ResNet-9 on CIFAR -/

namespace Verif.ResNet

open Verif

variable {i o c d₀ d₁ d₂ d₃ d₄ : ℕ}

/-! ### Specification -/

/-- A batch the network accepts: at least one image, all with `d₀` planes and one size, which is not empty. -/
def Fits (d₀ : ℕ) (imgs : List Img) : Prop :=
  imgs ≠ [] ∧ ∀ x ∈ imgs, x.ch = d₀ ∧ 0 < x.h ∧ 0 < x.w ∧ ∀ y ∈ imgs, y.h = x.h ∧ y.w = x.w

/-- What a layer may use of the batch for one of its images: nothing in evaluation mode, in training mode the images but not their order. -/
def Same {α : Type} (train : Bool) (xs ys : List α) : Prop := train = true → ys.Perm xs

/-! ### Helper lemmas -/

theorem Same.refl {α : Type} (train : Bool) (xs : List α) : Same train xs xs := fun _ => List.Perm.refl _

theorem Same.map {α β : Type} {train : Bool} {xs ys : List α} (h : Same train xs ys) (f : α → β) : Same train (xs.map f) (ys.map f) :=
  fun t => (h t).map f

/-- Dropout does nothing: not in training mode, or rate 0 and draws in [0, 1). -/
def NoDrop (train : Bool) (p : ℝ) (u : Draws) : Prop := train = true → p = 0 ∧ ∀ n k a b, 0 ≤ u n k a b

theorem dropout_eq {train : Bool} {p : ℝ} {u : Draws} (h : NoDrop train p u) (B : Batch c) : dropout train p u B = B := by
  unfold dropout
  cases train with
  | false => rfl
  | true =>
    obtain ⟨rfl, hu⟩ := h rfl
    rw [if_pos rfl]
    have : (fun (n : ℕ) (x : Planes c) (k : Fin c) (a b : ℕ) => if (0 : ℝ) ≤ u n k a b then x k a b / (1 - 0) else 0) = fun _ x => x := by
      funext n x k a b
      rw [if_pos (hu _ _ _ _)]
      simp
    rw [this]
    cases B
    simp [List.mapIdx_eq_zipIdx_map, List.zipIdx_map_fst]

theorem conv3_ok (st : ℕ) (K : Kernel i o) (h w : ℕ) (hh : 0 < h) (hw : 0 < w) (ys : List (Planes i)) :
    conv 3 st 1 K ⟨h, w, ys⟩ = .ok ⟨(h - 1) / st + 1, (w - 1) / st + 1, ys.map (convOne 3 st 1 K h w)⟩ := by
  unfold conv
  rw [if_neg (by dsimp only; omega)]
  dsimp only
  rw [show h + 2 * 1 - 3 = h - 1 by omega, show w + 2 * 1 - 3 = w - 1 by omega]

theorem conv1_ok (st : ℕ) (K : Kernel i o) (h w : ℕ) (hh : 0 < h) (hw : 0 < w) (ys : List (Planes i)) :
    conv 1 st 0 K ⟨h, w, ys⟩ = .ok ⟨(h - 1) / st + 1, (w - 1) / st + 1, ys.map (convOne 1 st 0 K h w)⟩ := by
  unfold conv
  rw [if_neg (by dsimp only; omega)]
  rfl

theorem planeSum_perm (h w : ℕ) {xs ys : List (Planes c)} (hp : ys.Perm xs) (k : Fin c) (f : ℝ → ℝ) :
    planeSum ⟨h, w, ys⟩ k f = planeSum ⟨h, w, xs⟩ k f := by
  unfold planeSum
  exact (hp.map _).sum_eq

theorem bn_ok (train : Bool) (N : BN c) (h w : ℕ) (xs : List (Planes c)) (hm : train = true → xs.length * h * w ≠ 1) :
    ∃ f N', (train = false → N' = N ∧ f = normalise N N.mean N.var) ∧
      ∀ ys, Same train xs ys → N.app train ⟨h, w, ys⟩ = .ok (⟨h, w, ys.map f⟩, N') := by
  cases train with
  | false => exact ⟨normalise N N.mean N.var, N, fun _ => ⟨rfl, rfl⟩, fun ys _ => rfl⟩
  | true =>
    set m := xs.length * h * w with hmd
    set mean : Fin c → ℝ := fun k => planeSum ⟨h, w, xs⟩ k id / m with hmean
    set sq : Fin c → ℝ := fun k => planeSum ⟨h, w, xs⟩ k fun v => (v - mean k) ^ 2 with hsq
    refine ⟨normalise N mean fun k => sq k / m, ⟨N.weight, N.bias, fun k => 9 / 10 * N.mean k + 1 / 10 * mean k,
      fun k => 9 / 10 * N.var k + 1 / 10 * (sq k / (m - 1))⟩, fun h => absurd h (by decide), fun ys hs => ?_⟩
    have hp := hs rfl
    unfold BN.app
    dsimp only
    rw [if_pos rfl, hp.length_eq, if_neg (hm rfl)]
    simp only [planeSum_perm h w hp]
    rfl

theorem relu_map (h w : ℕ) (ys : List (Planes c)) : reluB ⟨h, w, ys⟩ = ⟨h, w, ys.map fun x k a b => max (x k a b) 0⟩ := rfl

theorem add_map {α : Type} (h w : ℕ) (ys : List α) (f g : α → Planes c) :
    add ⟨h, w, ys.map f⟩ ⟨h, w, ys.map g⟩ = .ok ⟨h, w, ys.map fun x k a b => f x k a b + g x k a b⟩ := by
  unfold add
  rw [if_pos (by simp)]
  simp [List.zipWith_map]

theorem block_ok (train : Bool) (p : ℝ) (st : ℕ) (K : Block i o) (h w : ℕ) (hh : 0 < h) (hw : 0 < w) (xs : List (Planes i))
    (hm : train = true → xs.length * ((h - 1) / st + 1) * ((w - 1) / st + 1) ≠ 1) :
    ∃ f K', (train = false → K' = K) ∧ ∀ (u : ℕ → Draws), (∀ n, NoDrop train p (u n)) → ∀ ys, Same train xs ys →
      K.forward train p st u ⟨h, w, ys⟩ = .ok (⟨(h - 1) / st + 1, (w - 1) / st + 1, ys.map f⟩, K') := by
  set h' := (h - 1) / st + 1 with hh'
  set w' := (w - 1) / st + 1 with hw'
  have hp1 : 0 < h' := Nat.succ_pos _
  have hp2 : 0 < w' := Nat.succ_pos _
  clear_value h' w'
  set r : Planes o → Planes o := fun x k a b => max (x k a b) 0 with hr
  obtain ⟨f1, n1, e1, b1⟩ := bn_ok train K.bn1 h' w' (xs.map (convOne 3 st 1 K.conv1 h w)) (by simpa using hm)
  obtain ⟨f2, n2, e2, b2⟩ := bn_ok train K.bn2 h' w' ((((xs.map (convOne 3 st 1 K.conv1 h w)).map f1).map r).map (convOne 3 1 1 K.conv2 h' w'))
    (by simpa using hm)
  obtain ⟨f3, n3, e3, b3⟩ := bn_ok train K.sbn h' w' (xs.map (convOne 1 st 0 K.sconv h w)) (by simpa using hm)
  refine ⟨fun x => r fun k a b => r (f2 (convOne 3 1 1 K.conv2 h' w' (r (f1 (convOne 3 st 1 K.conv1 h w x))))) k a b +
    f3 (convOne 1 st 0 K.sconv h w x) k a b, { K with bn1 := n1, bn2 := n2, sbn := n3 }, fun ht => ?_, fun u hu ys hs => ?_⟩
  rotate_left 1
  · unfold Block.forward
    rw [conv3_ok st _ h w hh hw, ← hh', ← hw']
    simp only [bind, Except.bind]
    rw [b1 _ (hs.map _)]
    dsimp only
    rw [relu_map, dropout_eq (hu 0), conv3_ok 1 _ h' w' (by omega) (by omega)]
    dsimp only
    rw [Nat.div_one, Nat.div_one, show h' - 1 + 1 = h' by omega, show w' - 1 + 1 = w' by omega]
    rw [b2 _ ((((hs.map _).map _).map _).map _)]
    dsimp only
    rw [relu_map, dropout_eq (hu 1), conv1_ok st _ h w hh hw, ← hh', ← hw']
    dsimp only
    rw [b3 _ (hs.map _)]
    dsimp only
    rw [dropout_eq (hu 2)]
    simp only [List.map_map]
    rw [add_map]
    dsimp only
    rw [relu_map]
    simp only [List.map_map]
    rfl
  · rw [(e1 ht).1, (e2 ht).1, (e3 ht).1]

theorem mul_mul_eq_one (n a b : ℕ) : n * a * b = 1 ↔ n = 1 ∧ a = 1 ∧ b = 1 := by
  rw [mul_eq_one, mul_eq_one]
  tauto

/-- The planes of an image. -/
def planes (d₀ : ℕ) (x : Img) : Planes d₀ := fun k a b => x.v k a b

theorem collate_ok (d₀ : ℕ) (imgs : List Img) (h w : ℕ) (hne : imgs ≠ []) (hf : ∀ x ∈ imgs, x.ch = d₀ ∧ x.h = h ∧ x.w = w) :
    collate d₀ imgs = .ok ⟨h, w, imgs.map (planes d₀)⟩ := by
  obtain ⟨x, l, rfl⟩ := List.exists_cons_of_ne_nil hne
  unfold collate
  have hx := hf x (by simp)
  dsimp only
  rw [if_pos fun y hy => by have := hf y hy; exact ⟨this.1, by rw [this.2.1, hx.2.1], by rw [this.2.2, hx.2.2]⟩, hx.2.1, hx.2.2]
  rfl

theorem net_ok (train : Bool) (N : Net d₀ d₁ d₂ d₃ d₄ c) (h w : ℕ) (hh : 0 < h) (hw : 0 < w) (imgs : List Img)
    (hm : train = true → imgs.length ≠ 0 ∧ ¬ (imgs.length = 1 ∧ h ≤ 4 ∧ w ≤ 4)) :
    ∃ (f : Img → Fin c → ℝ) (N' : Net d₀ d₁ d₂ d₃ d₄ c), (train = false → N' = N) ∧
      ∀ (u : ℕ → ℕ → Draws), (∀ n m, NoDrop train N.p (u n m)) → ∀ ys : List Img, ys ≠ [] → (∀ x ∈ ys, x.ch = d₀ ∧ x.h = h ∧ x.w = w) →
        Same train imgs ys → N.forward train u ys = .ok (ys.map f, N') := by
  set r : Planes d₁ → Planes d₁ := fun x k a b => max (x k a b) 0 with hr
  set xs := imgs.map (planes d₀) with hxs
  have hl : xs.length = imgs.length := by simp [hxs]
  have hne : ∀ a b : ℕ, 0 < a → 0 < b → (h ≤ 4 ∨ a ≠ 1) → (w ≤ 4 ∨ b ≠ 1) → train = true → imgs.length * a * b ≠ 1 := by
    intro a b ha hb h1 h2 ht he
    rw [mul_mul_eq_one] at he
    obtain ⟨-, h4⟩ := hm ht
    exact h4 ⟨he.1, by omega, by omega⟩
  obtain ⟨f0, n0, e0, b0⟩ := bn_ok train N.bn1 h w (xs.map (convOne 3 1 1 N.conv1 h w))
    (by simpa [hl] using hne h w hh hw (by omega) (by omega))
  obtain ⟨f1, l1, e1, b1⟩ := block_ok train N.p 1 N.layer1 h w hh hw ((((xs.map (convOne 3 1 1 N.conv1 h w)).map f0).map r))
    (by simpa [hl] using hne ((h - 1) / 1 + 1) ((w - 1) / 1 + 1) (by omega) (by omega) (by omega) (by omega))
  obtain ⟨f2, l2, e2, b2⟩ := block_ok train N.p 2 N.layer2 h w hh hw (((((xs.map (convOne 3 1 1 N.conv1 h w)).map f0).map r).map f1))
    (by simpa [hl] using hne ((h - 1) / 2 + 1) ((w - 1) / 2 + 1) (by omega) (by omega) (by omega) (by omega))
  obtain ⟨f3, l3, e3, b3⟩ := block_ok train N.p 2 N.layer3 ((h - 1) / 2 + 1) ((w - 1) / 2 + 1) (by omega) (by omega)
    ((((((xs.map (convOne 3 1 1 N.conv1 h w)).map f0).map r).map f1)).map f2)
    (by simpa [hl] using hne ((h - 1) / 2 / 2 + 1) ((w - 1) / 2 / 2 + 1) (by omega) (by omega) (by omega) (by omega))
  refine ⟨fun x => N.head ((h - 1) / 2 / 2 + 1) ((w - 1) / 2 / 2 + 1) (f3 (f2 (f1 (r (f0 (convOne 3 1 1 N.conv1 h w (planes d₀ x))))))),
    { N with bn1 := n0, layer1 := l1, layer2 := l2, layer3 := l3 }, fun ht => ?_, fun u hu ys hy hf hs => ?_⟩
  rotate_left 1
  · have hs0 : Same train xs (ys.map (planes d₀)) := hs.map _
    unfold Net.forward
    rw [collate_ok d₀ ys h w hy hf]
    simp only [bind, Except.bind]
    rw [conv3_ok 1 _ h w hh hw]
    dsimp only
    rw [Nat.div_one, Nat.div_one, show h - 1 + 1 = h by omega, show w - 1 + 1 = w by omega]
    rw [b0 _ (hs0.map _)]
    dsimp only
    rw [relu_map, dropout_eq (hu 0 0)]
    rw [b1 _ (hu 1) _ (((hs0.map _).map _).map _)]
    dsimp only
    rw [Nat.div_one, Nat.div_one, show h - 1 + 1 = h by omega, show w - 1 + 1 = w by omega]
    rw [b2 _ (hu 2) _ ((((hs0.map _).map _).map _).map _)]
    dsimp only
    rw [b3 _ (hu 3) _ (((((hs0.map _).map _).map _).map _).map _)]
    simp only [List.map_map]
    rfl
  · rw [(e0 ht).1, e1 ht, e2 ht, e3 ht]

theorem collate_ok_iff (d₀ : ℕ) (imgs : List Img) (B : Batch d₀) (hB : collate d₀ imgs = .ok B) :
    imgs ≠ [] ∧ ∀ x ∈ imgs, x.ch = d₀ ∧ x.h = B.h ∧ x.w = B.w := by
  cases imgs with
  | nil => cases hB
  | cons x l =>
    unfold collate at hB
    dsimp only at hB
    split_ifs at hB with hc
    cases hB
    exact ⟨by simp, fun y hy => hc y hy⟩

theorem forward_nonempty (train : Bool) (N : Net d₀ d₁ d₂ d₃ d₄ c) (u : ℕ → ℕ → Draws) (imgs : List Img)
    (r : List (Fin c → ℝ) × Net d₀ d₁ d₂ d₃ d₄ c) (h : N.forward train u imgs = .ok r) : Fits d₀ imgs := by
  unfold Net.forward at h
  cases hB : collate d₀ imgs with
  | error e => rw [hB] at h; cases h
  | ok B =>
    obtain ⟨h1, h2⟩ := collate_ok_iff d₀ imgs B hB
    rw [hB] at h
    simp only [bind, Except.bind] at h
    have hs : 0 < B.h ∧ 0 < B.w := by
      by_contra hc
      unfold conv at h
      rw [if_pos (by omega)] at h
      cases h
    exact ⟨h1, fun x hx => ⟨(h2 x hx).1, by rw [(h2 x hx).2.1]; exact hs.1, by rw [(h2 x hx).2.2]; exact hs.2, fun y hy =>
      ⟨by rw [(h2 x hx).2.1, (h2 y hy).2.1], by rw [(h2 x hx).2.2, (h2 y hy).2.2]⟩⟩⟩

theorem eval_size (N : Net d₀ d₁ d₂ d₃ d₄ c) (h w : ℕ) (hh : 0 < h) (hw : 0 < w) : ∃ f : Img → Fin c → ℝ, ∀ (u : ℕ → ℕ → Draws) (imgs : List Img),
    imgs ≠ [] → (∀ x ∈ imgs, x.ch = d₀ ∧ x.h = h ∧ x.w = w) → N.forward false u imgs = .ok (imgs.map f, N) := by
  obtain ⟨f, N', e, hf⟩ := net_ok false N h w hh hw [] (fun h => by cases h)
  obtain rfl := e rfl
  exact ⟨f, fun u imgs h1 h2 => hf u (fun _ _ h => by cases h) imgs h1 h2 fun h => by cases h⟩

/-! ### C153 -/

/-- **C153** (evaluation mode). A batch gives a result exactly when it has an image and all images have the right number of planes and one size, which is not
empty. There is one function of a single image that gives the scores of every image of every batch, whatever the other images; the network, with its running
statistics, is not changed. -/
theorem C153_eval (N : Net d₀ d₁ d₂ d₃ d₄ c) : ∃ f : Img → Fin c → ℝ, ∀ (u : ℕ → ℕ → Draws) (imgs : List Img) r,
    N.forward false u imgs = .ok r ↔ Fits d₀ imgs ∧ r = (imgs.map f, N) := by
  classical
  choose f hf using fun (h w : ℕ) (hh : 0 < h) (hw : 0 < w) => eval_size N h w hh hw
  refine ⟨fun x => if hx : 0 < x.h ∧ 0 < x.w then f x.h x.w hx.1 hx.2 x else 0, fun u imgs r => ?_⟩
  have key : Fits d₀ imgs → N.forward false u imgs =
      .ok (imgs.map fun x => if hx : 0 < x.h ∧ 0 < x.w then f x.h x.w hx.1 hx.2 x else 0, N) := by
    rintro ⟨h1, h2⟩
    obtain ⟨x, l, rfl⟩ := List.exists_cons_of_ne_nil h1
    obtain ⟨-, hh, hw, hs⟩ := h2 x (by simp)
    rw [hf x.h x.w hh hw u _ h1 fun y hy => ⟨(h2 y hy).1, hs y hy⟩]
    congr 2
    refine List.map_congr_left fun y hy => ?_
    have hy' := hs y hy
    rw [dif_pos ⟨by rw [hy'.1]; exact hh, by rw [hy'.2]; exact hw⟩]
    have : ∀ (h w : ℕ) (hh' : 0 < h) (hw' : 0 < w), h = x.h → w = x.w → f x.h x.w hh hw y = f h w hh' hw' y := by
      rintro _ _ _ _ rfl rfl
      rfl
    exact this _ _ _ _ hy'.1 hy'.2
  constructor
  · intro h
    have hF := forward_nonempty false N u imgs r h
    refine ⟨hF, ?_⟩
    rw [key hF] at h
    injection h with h
    exact h.symm
  · rintro ⟨hF, rfl⟩
    exact key hF

/-- A batch with its labels that `loss_cifar_resnet9` accepts. -/
def GoodBatch (d₀ c : ℕ) (b : List (Img × ℤ)) : Prop := Fits d₀ (b.map Prod.fst) ∧ ∀ s ∈ b, BenchLoss.Valid (-100) c s.2

/-- **C153** (the loss function). `loss_cifar_resnet9` returns a result exactly when there is a batch and every batch is acceptable; the result has one entry
per example, in the loader's order: minus the log-probability of its label given by the network for this image alone. -/
theorem C153_loss (N : Net d₀ d₁ d₂ d₃ d₄ c) : ∃ f : Img → Fin c → ℝ,
    (∀ u x, Fits d₀ [x] → N.forward false u [x] = .ok ([f x], N)) ∧
    ∀ (u : ℕ → ℕ → Draws) (loader : List (List (Img × ℤ))) r, loss N u loader = .ok r ↔
      loader ≠ [] ∧ (∀ b ∈ loader, GoodBatch d₀ c b) ∧ r = loader.flatten.map fun s => BenchLoss.nll (-100) (f s.1) s.2 := by
  obtain ⟨f, hf⟩ := C153_eval N
  refine ⟨f, fun u x hx => (hf u [x] _).2 ⟨hx, rfl⟩, fun u loader r => ?_⟩
  have hstep : ∀ b : List (Img × ℤ), ∀ l, ((do
      let o ← (N.forward false u (b.map Prod.fst)).map Prod.fst
      BenchLoss.ceNone (-100) o (b.map Prod.snd)) = .ok l) ↔ GoodBatch d₀ c b ∧ l = b.map fun s => BenchLoss.nll (-100) (f s.1) s.2 := by
    intro b l
    by_cases hF : Fits d₀ (b.map Prod.fst)
    · rw [(hf u (b.map Prod.fst) _).2 ⟨hF, rfl⟩]
      simp only [Except.map, bind, Except.bind, List.map_map]
      have := BenchLoss.ceNone_iff (-100) (fun s : Img × ℤ => f s.1) Prod.snd b l
      simp only [Function.comp_def]
      rw [this]
      simp only [GoodBatch, hF, true_and]
    · cases hr : N.forward false u (b.map Prod.fst) with
      | error e =>
        simp only [Except.map, bind, Except.bind, reduceCtorEq, GoodBatch, hF, false_and]
      | ok r => exact absurd ((hf u _ r).1 hr).1 hF
  unfold loss BenchLoss.perExample
  have key : ∀ l, (loader.mapM fun b => do
      let o ← (N.forward false u (b.map Prod.fst)).map Prod.fst
      BenchLoss.ceNone (-100) o (b.map Prod.snd)) = .ok l ↔
      (∀ b ∈ loader, GoodBatch d₀ c b) ∧ l = loader.map fun b => b.map fun s => BenchLoss.nll (-100) (f s.1) s.2 := by
    intro l
    rw [Retrain.mapM_ok_iff]
    simp only [hstep]
    exact BenchLoss.forall₂_val (fun b => GoodBatch d₀ c b) (fun b => b.map fun s => BenchLoss.nll (-100) (f s.1) s.2) loader l
  generalize hm : (loader.mapM fun b => do
      let o ← (N.forward false u (b.map Prod.fst)).map Prod.fst
      BenchLoss.ceNone (-100) o (b.map Prod.snd)) = q at key
  cases q with
  | error e =>
    simp only [bind, Except.bind, reduceCtorEq, false_iff]
    rintro ⟨-, h2, -⟩
    have := (key _).2 ⟨h2, rfl⟩
    cases this
  | ok l =>
    obtain ⟨h1, h2⟩ := (key l).1 rfl
    have hl : l = [] ↔ loader = [] := by rw [h2]; simp
    simp only [bind, Except.bind]
    by_cases hn : loader = []
    · rw [if_pos (hl.2 hn)]
      simp [hn]
    · rw [if_neg fun h => hn (hl.1 h)]
      simp only [pure, Except.pure, Except.ok.injEq, ne_eq, hn, not_false_eq_true, true_and]
      rw [h2, List.map_flatten]
      exact ⟨fun h => ⟨h1, h.symm⟩, fun h => h.2.symm⟩

/-- **C153** (batches). Two loaders over the same examples give the same losses if each of their batches is acceptable. -/
theorem C153_batching (N : Net d₀ d₁ d₂ d₃ d₄ c) (u u' : ℕ → ℕ → Draws) (l₁ l₂ : List (List (Img × ℤ))) (h : l₁.flatten = l₂.flatten) (r₁ r₂ : List ℝ)
    (h₁ : loss N u l₁ = .ok r₁) (h₂ : loss N u' l₂ = .ok r₂) : r₁ = r₂ := by
  obtain ⟨f, -, hf⟩ := C153_loss N
  rw [((hf u l₁ r₁).1 h₁).2.2, ((hf u' l₂ r₂).1 h₂).2.2, h]

/-- **C153** (training mode). With the dropout rate 0 of `create_resnet9_model` and batches that are not one image of at most four by four pixels, the forward
pass does not depend on random numbers, and the scores of an image depend on the image and on which images are in the batch, not on their order; the same holds
for the new running statistics. -/
theorem C153_train (N : Net d₀ d₁ d₂ d₃ d₄ c) (hp : N.p = 0) (imgs : List Img) (hF : Fits d₀ imgs)
    (hs : ¬ (imgs.length = 1 ∧ ∀ x ∈ imgs, x.h ≤ 4 ∧ x.w ≤ 4)) :
    ∃ (f : Img → Fin c → ℝ) (N' : Net d₀ d₁ d₂ d₃ d₄ c), ∀ (u : ℕ → ℕ → Draws), (∀ l m n k a b, 0 ≤ u l m n k a b) → ∀ ys : List Img, ys.Perm imgs →
      N.forward true u ys = .ok (ys.map f, N') := by
  obtain ⟨h1, h2⟩ := hF
  obtain ⟨x, l, hx⟩ := List.exists_cons_of_ne_nil h1
  have hxm : x ∈ imgs := by rw [hx]; simp
  obtain ⟨-, hh, hw, hxs⟩ := h2 x hxm
  obtain ⟨f, N', -, hf⟩ := net_ok true N x.h x.w hh hw imgs fun _ => ⟨by rw [hx]; simp, fun hc => hs ⟨hc.1, fun y hy => by
    rw [(hxs y hy).1, (hxs y hy).2]; exact hc.2⟩⟩
  refine ⟨f, N', fun u hu ys hy => hf u (fun n m _ => ⟨hp, fun _ _ _ _ => hu _ _ _ _ _ _⟩) ys ?_ (fun y hy' => ?_) fun _ => hy⟩
  · rintro rfl
    rw [hx] at hy
    exact absurd hy.length_eq (by simp)
  · have := hy.subset hy'
    exact ⟨(h2 y this).1, hxs y this⟩

end Verif.ResNet
