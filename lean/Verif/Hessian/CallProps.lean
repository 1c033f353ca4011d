import Verif.Hessian.CallModel
import Verif.Hessian.ArnoldiProps
import Mathlib.LinearAlgebra.FiniteDimensional.Lemmas
import Mathlib.LinearAlgebra.Dimension.Constructions
import Mathlib.LinearAlgebra.Matrix.ToLin

/-!
# C213: call forms of the inverse-Hessian-vector products
-/

namespace Verif.Hessian

open Matrix

variable {R : Type} {n : ℕ}

/-- Shape of a tensor with `n` columns. -/
def Arg.shape {α : Type} (n : ℕ) : Arg α → List ℕ
  | .vec _ => [n]
  | .rows l => [l.length, n]

/-- The shape with a vector counted as a matrix with one row. -/
def Arg.shape2 {α : Type} (n : ℕ) : Arg α → List ℕ
  | .vec _ => [1, n]
  | .rows l => [l.length, n]

/-- Row `i` of a tensor; a vector has one row. -/
def Arg.row {α : Type} (a : Arg α) (i : ℕ) : Option α := match a with
  | .vec v => if i = 0 then some v else none
  | .rows l => l[i]?

theorem Arg.row_unsqueeze {α : Type} (a : Arg α) (i : ℕ) : a.row i = a.unsqueeze[i]? := by
  cases a with
  | vec v => cases i <;> simp [Arg.row, Arg.unsqueeze]
  | rows l => rfl

/-- **C213.** The explicit product keeps the shape of its argument and treats the rows separately: row `i` of the result is the only solution of
`A u = v_i`. It raises exactly for singular matrices. -/
theorem C213_explicit [Field R] (A : Matrix (Fin n) (Fin n) R) (v : Arg (Fin n → R)) :
    (A.det = 0 → explicitCall A v = .error .runtimeError) ∧
    (A.det ≠ 0 → ∃ u, explicitCall A v = .ok u ∧ u.shape n = v.shape n ∧
      ∀ i vi, v.row i = some vi → ∃ ui, u.row i = some ui ∧ ∀ w, A *ᵥ w = vi ↔ w = ui) := by
  have hsolve : A.det ≠ 0 → ∀ v w : Fin n → R, A *ᵥ w = v ↔ w = A⁻¹ *ᵥ v := by
    intro h v w
    have hu : IsUnit A.det := isUnit_iff_ne_zero.2 h
    constructor
    · rintro rfl
      rw [mulVec_mulVec, nonsing_inv_mul _ hu, one_mulVec]
    · rintro rfl
      rw [mulVec_mulVec, mul_nonsing_inv _ hu, one_mulVec]
  constructor
  · intro h
    unfold explicitCall
    rw [if_pos h]
  · intro h
    unfold explicitCall
    rw [if_neg h]
    cases v with
    | vec v =>
      refine ⟨_, rfl, rfl, fun i vi hi => ?_⟩
      simp only [Arg.row] at hi ⊢
      split_ifs at hi ⊢ with h0
      cases hi
      exact ⟨_, rfl, hsolve h v⟩
    | rows l =>
      refine ⟨_, rfl, by simp [Arg.shape], fun i vi hi => ?_⟩
      simp only [Arg.row] at hi ⊢
      refine ⟨A⁻¹ *ᵥ vi, by simp [hi], hsolve h vi⟩

/-- **C213.** Conjugate gradients always return a matrix, for a vector one with a single row; every row is computed as if it were alone. -/
theorem C213_cg [Field R] [DecidableEq R] (A : Matrix (Fin n) (Fin n) R) (m : ℕ) (tol : R) (v : Arg (Fin n → R)) :
    (cgCall A m tol v).shape n = v.shape2 n ∧
    ∀ i vi, v.row i = some vi → (cgCall A m tol v).row i = some (ihvpCG A m tol vi) ∧ (cgCall A m tol (.vec vi)).row 0 = some (ihvpCG A m tol vi) := by
  constructor
  · cases v <;> simp [cgCall, Arg.shape, Arg.shape2, Arg.unsqueeze]
  · intro i vi hi
    rw [Arg.row_unsqueeze] at hi
    constructor
    · simp [cgCall, Arg.row, hi]
    · simp [cgCall, Arg.row, Arg.unsqueeze]

theorem mapM_ok {α β : Type} (f : α → Except Err β) (g : α → β) (l : List α) (h : ∀ a ∈ l, f a = .ok (g a)) : l.mapM f = .ok (l.map g) := by
  induction l with
  | nil => rfl
  | cons a l ih =>
    rw [List.mapM_cons, h a (by simp), ih fun b hb => h b (by simp [hb])]
    rfl

/-- **C213.** LiSSA also returns a matrix; row `i` is the estimate for the vector alone with the draws of that row. Without repeats it raises
(unless there are no rows). -/
theorem C213_lissa [Field R] [DecidableEq R] (hv : List ℕ → Matrix (Fin n) (Fin n) R) (perm : ℕ → ℕ → ℕ → List ℕ) (bs rep T : ℕ) (d s : R)
    (v : Arg (Fin n → R)) :
    (0 < rep → ∃ u, lissaCall hv perm bs rep T d s v = .ok u ∧
      u.shape n = v.shape2 n ∧
      ∀ i vi, v.row i = some vi → ∃ ui, u.row i = some ui ∧ ihvpLissa hv (perm i) bs rep T d s vi = .ok ui) ∧
    (rep = 0 → v.row 0 ≠ none → lissaCall hv perm bs rep T d s v = .error .runtimeError) := by
  constructor
  · intro hrep
    have hok : ∀ p v, ∃ u, ihvpLissa hv p bs rep T d s v = .ok u := by
      intro p v
      unfold ihvpLissa
      rw [if_neg hrep.ne']
      split_ifs
      · exact ⟨_, rfl⟩
      · exact ⟨_, rfl⟩
    choose g hg using hok
    refine ⟨.rows (v.unsqueeze.zipIdx.map fun vi => g (perm vi.2) vi.1), ?_, ?_, ?_⟩
    · unfold lissaCall
      rw [mapM_ok _ (fun vi : (Fin n → R) × ℕ => g (perm vi.2) vi.1) _ fun vi _ => hg _ _]
      rfl
    · cases v <;> simp [Arg.shape, Arg.shape2, Arg.unsqueeze]
    · intro i vi hi
      rw [Arg.row_unsqueeze] at hi
      exact ⟨g (perm i) vi, by simp [Arg.row, hi], hg _ _⟩
  · intro h0 hr
    rw [Arg.row_unsqueeze] at hr
    unfold lissaCall
    cases hu : v.unsqueeze with
    | nil => simp [hu] at hr
    | cons a l => simp [List.zipIdx_cons, List.mapM_cons, ihvpLissa, h0, bind, Except.bind]

/-- **C213.** All rows of one Arnoldi call share one Krylov space: row `i` is what a call for that vector alone returns with the same start vector. -/
theorem C213_arnoldi (A : Matrix (Fin n) (Fin n) ℝ) (o : ArnArgs) (start : V n) (eigh : Arn n → List (ℝ × (ℕ → ℝ))) (v : Arg (V n)) (u : Arg (Option (V n)))
    (h : arnoldiCall A o start eigh v = .ok u) :
    u.shape n = v.shape2 n ∧
    ∀ i vi, v.row i = some vi → ∃ ui u', u.row i = some ui ∧ arnoldiCall A o start eigh (.vec vi) = .ok u' ∧ u'.row 0 = some ui := by
  unfold arnoldiCall at h ⊢
  cases ha : arnoldi A start o.maxIter o.normConstant o.tol with
  | error e => rw [ha] at h; cases h
  | ok a =>
    rw [ha] at h
    simp only [bind, Except.bind, pure, Except.pure, Except.ok.injEq] at h
    subst h
    constructor
    · cases v <;> simp [Arg.shape, Arg.shape2, Arg.unsqueeze]
    · intro i vi hi
      rw [Arg.row_unsqueeze] at hi
      exact ⟨a.bind fun a => arnoldiIhvp a o.topK (eigh a) vi, _, by simp [Arg.row, hi], rfl, by simp [Arg.row, Arg.unsqueeze]⟩

theorem small_kernel {k : ℕ} (hk : k < n) (E : Fin k → V n) : ∃ v : V n, v ≠ 0 ∧ ∀ i, v ⬝ᵥ E i = 0 := by
  have hlt : Module.finrank ℝ (Fin k → ℝ) < Module.finrank ℝ (Fin n → ℝ) := by simpa using hk
  have := LinearMap.ker_ne_bot_of_finrank_lt (f := (Matrix.of E).mulVecLin) hlt
  obtain ⟨v, hv, h0⟩ := Submodule.exists_mem_ne_zero_of_ne_bot this
  refine ⟨v, h0, fun i => ?_⟩
  have := congrFun (LinearMap.mem_ker.1 hv) i
  rw [dotProduct_comm]
  simpa [Matrix.mulVec] using this

/-- **C213.** `ihvp_arnoldi` always keeps at most 100 eigenpairs. With more than 100 parameters it is therefore never the inverse, however large
`max_iter` is: whenever the call is finite, some nonzero vector is mapped to zero. -/
theorem C213_wrapper_cut (A : Matrix (Fin n) (Fin n) ℝ) (m : ℕ) (tol : ℝ) (start : V n) (eigh : Arn n → List (ℝ × (ℕ → ℝ))) (hn : 100 < n) (v0 w0 : V n)
    (hfin : arnoldiWrapper A m tol start eigh (.vec v0) = .ok (.rows [some w0])) :
    ∃ v : V n, v ≠ 0 ∧ arnoldiWrapper A m tol start eigh (.vec v) = .ok (.rows [some 0]) := by
  unfold arnoldiWrapper arnoldiCall at hfin ⊢
  cases ha : arnoldi A start m 1 tol with
  | error e => simp only [ha] at hfin; cases hfin
  | ok a =>
    cases a with
    | none =>
      simp only [ha, bind, Except.bind, pure, Except.pure, Arg.unsqueeze, List.map_cons, List.map_nil] at hfin
      injection hfin with h; injection h with h; injection h with h; cases h
    | some a =>
      simp only [ha, bind, Except.bind, pure, Except.pure, Arg.unsqueeze, List.map_cons, List.map_nil, Option.bind_some] at hfin ⊢
      have hs : arnoldiIhvp a 100 (eigh a) v0 = some w0 := by
        injection hfin with h; injection h with h; injection h with h
      have hnz : ¬ ∃ e ∈ lastK 100 (eigh a), e.1 = 0 := by
        intro h
        unfold arnoldiIhvp at hs
        rw [if_pos h] at hs
        cases hs
      have hlen : (lastK 100 (eigh a)).length ≤ 100 := by
        unfold lastK
        rw [if_neg (by decide), List.length_drop]
        omega
      obtain ⟨v, hv0, hv⟩ := small_kernel (lt_of_le_of_lt hlen hn) fun i =>
        ((List.range a.cols.length).map (fun k => ((lastK 100 (eigh a))[i]).2 k • a.proj.getD k 0)).sum
      refine ⟨v, hv0, ?_⟩
      have : arnoldiIhvp a 100 (eigh a) v = some 0 := by
        unfold arnoldiIhvp
        rw [if_neg hnz]
        congr 1
        apply List.sum_eq_zero
        intro x hx
        obtain ⟨e, he, rfl⟩ := List.mem_map.1 hx
        obtain ⟨i, hi, rfl⟩ := List.getElem_of_mem he
        have := hv ⟨i, hi⟩
        simp only [Fin.getElem_fin] at this
        simp only [this, zero_mul, zero_div, zero_smul]
      rw [this]

/-- **C213.** With at most 100 parameters, a Krylov space of full dimension and a symmetric nonsingular matrix it is the inverse (for every start
vector that gives such a space). -/
theorem C213_wrapper_exact (A : Matrix (Fin n) (Fin n) ℝ) (hA : Aᵀ = A) (m : ℕ) (tol : ℝ) (start : V n) (eigh : Arn n → List (ℝ × (ℕ → ℝ))) (hn : n ≤ 100)
    (out : Arn n) (hout : arnoldi A start m 1 tol = .ok (some out)) (hfull : out.cols.length = n) (he : EighContract out.cols.length out.sym (eigh out))
    (hnz : ∀ e ∈ eigh out, e.1 ≠ 0) (v : V n) :
    ∃ w, arnoldiWrapper A m tol start eigh (.vec v) = .ok (.rows [some w]) ∧ A *ᵥ w = v := by
  obtain ⟨w, hw, hAw⟩ := C26_exact_full A hA start m tol out hout hfull 100 (eigh out) he (Or.inr (by rw [hfull]; exact hn)) hnz v
  refine ⟨w, ?_, hAw⟩
  unfold arnoldiWrapper arnoldiCall
  simp only [hout, bind, Except.bind, pure, Except.pure, Arg.unsqueeze, List.map_cons, List.map_nil, Option.bind_some, hw]

/-! ## The hypotheses can be met -/

example : ∃ u, explicitCall (!![2, 0; 0, 4] : Matrix (Fin 2) (Fin 2) ℚ) (.rows [![1, 0], ![0, 1], ![1, 1]]) = .ok u ∧ u.shape 2 = [3, 2] := by
  obtain ⟨u, h1, h2, -⟩ := (C213_explicit (!![2, 0; 0, 4] : Matrix (Fin 2) (Fin 2) ℚ) (.rows [![1, 0], ![0, 1], ![1, 1]])).2 (by
    rw [Matrix.det_fin_two]
    norm_num)
  exact ⟨u, h1, h2⟩

example : (cgCall (!![2, 0; 0, 3] : Matrix (Fin 2) (Fin 2) ℚ) 1 0 (.vec ![1, 1])).row 0 = some (some ![9 / 14, 2 / 7]) := by
  rw [((C213_cg (!![2, 0; 0, 3] : Matrix (Fin 2) (Fin 2) ℚ) 1 0 (.vec ![1, 1])).2 0 ![1, 1] rfl).1]
  decide +kernel

/-- A finite call with 101 parameters: the start vector is an eigenvector, so one step breaks off, and the only eigenvalue is 1. -/
example : ∃ (start v0 w0 : V 101) (eigh : Arn 101 → List (ℝ × (ℕ → ℝ))),
    arnoldiWrapper (1 : Matrix (Fin 101) (Fin 101) ℝ) 200 1 start eigh (.vec v0) = .ok (.rows [some w0]) := by
  refine ⟨Pi.single 0 1, 0, 0, fun _ => [(1, fun _ => 1)], ?_⟩
  have hn : nrm (Pi.single 0 1 : V 101) = 1 := by simp [nrm]
  unfold arnoldiWrapper arnoldiCall arnoldi
  simp only [hn]
  rw [if_neg (by decide), if_neg (by norm_num)]
  rw [show min (101 + 1) 200 - 1 = 100 + 1 from rfl]
  unfold arnLoop
  have hz : (gsLoop 1 [((1 : ℝ) / 1) • (Pi.single 0 1 : V 101)] ((1 : Matrix (Fin 101) (Fin 101) ℝ) *ᵥ (((1 : ℝ) / 1) • Pi.single 0 1))).2 = 0 := by
    rw [one_mulVec]
    simp [gsLoop]
  simp only [hz]
  rw [if_pos (by simp [nrm])]
  simp only [bind, Except.bind, pure, Except.pure, Arg.unsqueeze, List.map_cons, List.map_nil, Option.bind_some]
  unfold arnoldiIhvp
  rw [if_neg (by simp [lastK])]
  simp [lastK]

end Verif.Hessian
