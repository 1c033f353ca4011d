import Verif.Projection.RandomModel
import Verif.Projection.BasicProps
import Verif.Projection.CudaProps
import Verif.Projection.ChunkProps

/-!
# C157, C158: the projection function returned by `random_project`
-/

namespace Verif.Projection

/-- The feature batch has `b` rows and `d` columns altogether. -/
def IsBatch : Feat → ℕ → ℕ → Prop
  | .tensor cols rows, b, d => cols = d ∧ rows.length = b ∧ ∀ x ∈ rows, x.length = d
  | .dict bs ps, b, d => bs = b ∧ ps ≠ [] ∧ (ps.map Param.cols).sum = d

/-- The rows of a feature batch, parameters concatenated in the order of the dictionary. -/
def rowsOf : Feat → List (List ℝ)
  | .tensor _ rows => rows
  | .dict bs ps => (List.range bs).map fun r => flatRow r ps

/-- The CPU projector that only depends on dimension, target dimension, seed and type. -/
def cpuProj (env : Env) (d p : ℕ) (s : ℤ) (k : Kind) : Basic d := { projDim := p, seed := s, kind := k, rng := env.cpu d }

/-- The same for one CUDA projector. -/
def gpuProj (env : Env) (d p : ℕ) (s : ℤ) (k : Kind) (mult : ℤ) : Cuda d := { projDim := p, seed := s, kind := k, mult := mult, rng := env.gpu d }

lemma preprocess_ok {g : Feat} {b d : ℕ} (h : IsBatch g b d) (hb : 0 < b) : preprocess g = .ok (d, rowsOf g) := by
  cases g with
  | tensor cols rows => obtain ⟨rfl, -, -⟩ := h; rfl
  | dict bs ps =>
    obtain ⟨rfl, hne, rfl⟩ := h
    simp only [preprocess, if_neg hne, if_neg hb.ne']
    rfl

/-- The widths of the parameters of a feature batch. -/
def widths : Feat → List ℕ
  | .tensor cols _ => [cols]
  | .dict _ ps => ps.map Param.cols

lemma widths_sum {g : Feat} {b d : ℕ} (h : IsBatch g b d) : (widths g).sum = d := by
  cases g with
  | tensor cols rows => obtain ⟨rfl, -, -⟩ := h; simp [widths]
  | dict bs ps => exact h.2.2

lemma shape_ok {g : Feat} {b d : ℕ} (h : IsBatch g b d) (hb : 0 < b) : shapeList b g = .ok (widths g) := by
  cases g with
  | tensor cols rows =>
    obtain ⟨rfl, rfl, -⟩ := h
    simp only [shapeList, if_neg hb.ne', Nat.mul_div_cancel_left _ hb]
    rfl
  | dict bs ps =>
    obtain ⟨rfl, hne, rfl⟩ := h
    simp only [shapeList, if_neg hne, if_neg hb.ne']
    congr 1
    exact List.map_congr_left fun p _ => Nat.mul_div_cancel_left _ hb

/-! ## CPU -/

lemma basic_run {d : ℕ} (c : Basic d) (st : BState d) (h : List ((ℕ → ℕ → ℝ) × Feat × ℤ)) :
    ∃ H : List (BOp d), (∀ op ∈ H, ∃ f e, op = .project f e) ∧ Projector.run h (.basic d c st) = .basic d c (c.run st H) := by
  induction h using List.reverseRecOn with
  | nil => exact ⟨[], by simp, rfl⟩
  | append_singleton h x ih =>
    obtain ⟨H, hH, e⟩ := ih
    have hstep : Projector.run (h ++ [x]) (.basic d c st) = ((Projector.run h (.basic d c st)).call x.1 x.2.1 x.2.2).1 := by
      simp [Projector.run]
    rw [hstep, e]
    unfold Projector.call
    cases preprocess x.2.1 with
    | error y => exact ⟨H, hH, rfl⟩
    | ok r =>
      have key : ∃ f, (basicCall c (c.run st H) r.1 r.2 x.2.2).1 = (c.project (c.run st H) f x.2.2).1 := by
        unfold basicCall
        split_ifs
        · exact ⟨_, rfl⟩
        · exact ⟨_, rfl⟩
      obtain ⟨f, hf⟩ := key
      refine ⟨H ++ [.project f x.2.2], fun op ho => ?_, ?_⟩
      · rcases List.mem_append.1 ho with ho | ho
        · exact hH op ho
        · exact ⟨f, x.2.2, by simpa using ho⟩
      · simp only [hf]
        congr 1
        simp [Basic.run, Basic.step]

lemma not_lost {d : ℕ} (e0 e : ℤ) (H : List (BOp d)) (hH : ∀ op ∈ H, ∃ f e, op = .project f e) : ¬ Lost e0 H e := by
  rintro ⟨h1, h2, rfl, -, -⟩
  obtain ⟨f, e, h⟩ := hH .free (by simp)
  cases h

lemma cpu_kinds {pyInt : List Char → Option ℤ} {a : PTArg} {k : Kind} {m : ℤ} (h : checkArg pyInt .cpu a = .ok (k, m)) :
    k = .normal ∨ k = .rademacher ∨ k = .randomMask ∨ k = .identity := by
  cases a with
  | nonStr => cases h
  | str s =>
    have hv : validOn .cpu k = true := by
      unfold checkArg checkType at h
      simp only [bind, Except.bind] at h
      cases hp : parseGrass pyInt s with
      | error x => rw [hp] at h; cases h
      | ok r =>
        rw [hp] at h
        simp only [reduceCtorEq, if_false] at h
        cases hk : kindOf r.1 with
        | none => rw [hk] at h; cases h
        | some k' =>
          rw [hk] at h
          simp only at h
          split_ifs at h with hv
          · cases h; exact hv
    cases k <;> simp_all [validOn]

/-- **C157** (CPU). Built from any feature batch with the right batch size, the returned function maps every later batch of the same width,
tensor or dictionary and of any number of rows, to the rows of one projection that is determined by width, target dimension, seed, type and
ensemble id alone, whatever was projected before. -/
theorem C157_cpu (pyInt : List Char → Option ℤ) (env : Env) (a : RandParams) (hdev : a.dev = .cpu) (k : Kind) (mult : ℤ)
    (hk : checkArg pyInt .cpu a.ptype = .ok (k, mult)) (hp : 0 < a.projDim) (f : Feat) (d : ℕ) (hf : IsBatch f a.fbs d) (hb : 0 < a.fbs) :
    ∃ P, randomProject pyInt env a f = some (.ok P) ∧ ∀ (h : List ((ℕ → ℕ → ℝ) × Feat × ℤ)) (g : Feat) (b' : ℕ), IsBatch g b' d → 0 < b' →
      ∀ (buf' : ℕ → ℕ → ℝ) (e : ℤ), ((P.run h).call buf' g e).2 =
        .ok ((rowsOf g).map fun x => idealRow (cpuProj env d a.projDim a.seed k) e (toVec d x)) := by
  have hl := shape_ok hf hb
  obtain rfl := widths_sum hf
  generalize widths f = l at *
  obtain ⟨st0, hi, hh⟩ := C28_history (cpuProj env l.sum a.projDim a.seed k) (cpu_kinds hk) hp (by show 0 < 100; norm_num)
  refine ⟨.basic l.sum (cpuProj env l.sum a.projDim a.seed k) st0, ?_, fun h g b' hg hb' buf' e => ?_⟩
  · unfold randomProject
    rw [hl]
    simp only [hdev, hk]
    unfold makeProjector
    rw [if_pos hdev]
    show some (Except.map _ (Basic.init (cpuProj env l.sum a.projDim a.seed k))) = _
    rw [hi]
    rfl
  · obtain ⟨H, hH, hr⟩ := basic_run (cpuProj env l.sum a.projDim a.seed k) st0 h
    rw [hr]
    unfold Projector.call
    rw [preprocess_ok hg hb']
    simp only [basicCall, if_pos]
    obtain ⟨h1, h2⟩ := hh H ((rowsOf g).map (toVec l.sum)) e
    rw [h2 fun hc => not_lost _ _ H hH (h1.1 hc).2.2, List.map_map]
    rfl

/-- The width that results from announcing batches of `fbs` rows and passing one with `b` rows: whole numbers of elements per announced row,
parameter by parameter. -/
def announced (fbs b : ℕ) : Feat → ℕ
  | .tensor cols _ => b * cols / fbs
  | .dict _ ps => (ps.map fun p => b * p.cols / fbs).sum

lemma shape_announced {f : Feat} {b d fbs : ℕ} (hf : IsBatch f b d) (h0 : 0 < fbs) : ∃ l, shapeList fbs f = .ok l ∧ l.sum = announced fbs b f := by
  cases f with
  | tensor cols rows =>
    obtain ⟨-, rfl, -⟩ := hf
    exact ⟨[rows.length * cols / fbs], by simp only [shapeList, if_neg h0.ne'], by simp [announced]⟩
  | dict bs ps =>
    obtain ⟨rfl, hne, -⟩ := hf
    exact ⟨ps.map fun p => bs * p.cols / fbs, by simp only [shapeList, if_neg hne, if_neg h0.ne'], by simp [announced]⟩

/-- **C157** (wrong batch size). If the batch size given by the caller leads to another width, dense projections raise on the very batch
the projector was built from; the identity returns its rows. -/
theorem C157_wrong_batch_size (pyInt : List Char → Option ℤ) (env : Env) (a : RandParams) (hdev : a.dev = .cpu) (k : Kind) (mult : ℤ)
    (hk : checkArg pyInt .cpu a.ptype = .ok (k, mult)) (hp : 0 < a.projDim) (f : Feat) (b d : ℕ)
    (hf : IsBatch f b d) (hb : 0 < b) (h0 : 0 < a.fbs) (hne : announced a.fbs b f ≠ d) (buf' : ℕ → ℕ → ℝ) (e : ℤ) :
    ∃ P, randomProject pyInt env a f = some (.ok P) ∧ (k = .normal ∨ k = .rademacher → (P.call buf' f e).2 = .error .runtimeError) ∧
      (k = .identity → (P.call buf' f e).2 = .ok (rowsOf f)) := by
  obtain ⟨l, hl, hla⟩ := shape_announced hf h0
  rw [← hla] at hne
  obtain ⟨st0, hi, hh⟩ := C28_history (cpuProj env l.sum a.projDim a.seed k) (cpu_kinds hk) hp (by show 0 < 100; norm_num)
  have hcall : ((Projector.basic l.sum (cpuProj env l.sum a.projDim a.seed k) st0).call buf' f e).2 =
      mismatch k (Basic.project (cpuProj env l.sum a.projDim a.seed k) st0 [] e).1.mask d (rowsOf f) := by
    unfold Projector.call
    rw [preprocess_ok hf hb]
    simp only [basicCall, if_neg hne.symm]
    obtain ⟨h1, h2⟩ := hh [] [] e
    have h2 := h2 fun hc => not_lost _ _ [] (by simp) (h1.1 hc).2.2
    simp only [Basic.run, List.foldl_nil] at h2
    rw [h2]
    rfl
  refine ⟨.basic l.sum (cpuProj env l.sum a.projDim a.seed k) st0, ?_, ?_, ?_⟩
  · unfold randomProject
    rw [hl]
    simp only [hdev, hk]
    unfold makeProjector
    rw [if_pos hdev]
    show some (Except.map _ (Basic.init (cpuProj env l.sum a.projDim a.seed k))) = _
    rw [hi]
    rfl
  · intro hd
    rw [hcall]
    rcases hd with rfl | rfl <;> rfl
  · rintro rfl
    rw [hcall]
    rfl

/-- **C157** (what is refused). A batch size of 0 and a dictionary without parameters are refused when the function is built; the function on
the CPU refuses dictionaries without parameters or without rows. -/
theorem C157_refused (pyInt : List Char → Option ℤ) (env : Env) (a : RandParams) (f : Feat) :
    (a.fbs = 0 → (∀ b, f ≠ .dict b []) → randomProject pyInt env a f = some (.error .zeroDivisionError)) ∧
      (∀ b, f = .dict b [] → randomProject pyInt env a f = some (.error .stopIteration)) ∧
      ∀ (d : ℕ) (c : Basic d) (st : BState d) (buf' : ℕ → ℕ → ℝ) (b : ℕ) (ps : List Param) (e : ℤ),
        (ps = [] → (Projector.call buf' (.dict b ps) e (.basic d c st)).2 = .error .stopIteration) ∧
        (ps ≠ [] → b = 0 → (Projector.call buf' (.dict b ps) e (.basic d c st)).2 = .error .zeroDivisionError) := by
  refine ⟨fun h0 hne => ?_, ?_, fun d c st buf' b ps e => ⟨?_, ?_⟩⟩
  · cases f with
    | tensor cols rows => simp [randomProject, shapeList, h0]
    | dict b ps =>
      have : ps ≠ [] := fun h => hne b (by rw [h])
      simp [randomProject, shapeList, h0, this]
  · rintro b rfl
    simp [randomProject, shapeList]
  · rintro rfl
    simp [Projector.call, preprocess]
  · rintro h rfl
    simp [Projector.call, preprocess, h]

/-! ## One CUDA projector -/

lemma cuda_run (q : Part) (h : List ((ℕ → ℕ → ℝ) × Feat × ℤ)) :
    ∃ H : List (List (Fin q.d → ℝ) × ℤ), Projector.run h (.cuda q) = .cuda ⟨q.d, q.c, q.c.run q.st H⟩ := by
  induction h using List.reverseRecOn with
  | nil => exact ⟨[], rfl⟩
  | append_singleton h x ih =>
    obtain ⟨H, e⟩ := ih
    have hstep : Projector.run (h ++ [x]) (.cuda q) = ((Projector.run h (.cuda q)).call x.1 x.2.1 x.2.2).1 := by
      simp [Projector.run]
    rw [hstep, e]
    unfold Projector.call
    cases preprocess x.2.1 with
    | error y =>
      refine ⟨H ++ [([], x.2.2)], ?_⟩
      simp [partAfter, Cuda.run]
    | ok r =>
      have key : ∃ f, (cudaCall ⟨q.d, q.c, q.c.run q.st H⟩ r.1 r.2 x.2.2).1 = ⟨q.d, q.c, (q.c.project (q.c.run q.st H) f x.2.2).1⟩ := by
        unfold cudaCall
        split_ifs
        · exact ⟨_, rfl⟩
        · exact ⟨_, rfl⟩
      obtain ⟨f, hf⟩ := key
      refine ⟨H ++ [(f, x.2.2)], ?_⟩
      simp only [hf]
      simp [Cuda.run]

lemma make_cuda {pyInt : List Char → Option ℤ} {env : Env} {a : RandParams} (hdev : a.dev = .cuda) {k : Kind} {mult : ℤ}
    (hk : checkArg pyInt .cuda a.ptype = .ok (k, mult)) {f : Feat} {d : ℕ} (hf : IsBatch f a.fbs d) (hb : 0 < a.fbs)
    {m : ℕ} (hm : maxChunk a.maxBatch = some m) (hm0 : 0 < m) {D : List ℕ} (hD : chunkFinish ((widths f).foldl (cstep m) ([], 0)) = D) :
    randomProject pyInt env a f = some (.ok (if D.length = 1 then
        .cuda ⟨d, gpuProj env d a.projDim a.seed k mult, (gpuProj env d a.projDim a.seed k mult).init⟩
      else .chunked m a.fbs a.projDim (mkParts env a.projDim k mult D (env.seeds a.seed D.length)) fun _ _ => 0)) := by
  obtain rfl := widths_sum hf
  unfold randomProject
  rw [shape_ok hf hb]
  simp only [hdev, hk]
  unfold makeProjector
  rw [if_neg (by rw [hdev]; simp), hm]
  simp only
  rw [chunkSizes_eq m hm0 _ _ fun x hx => Nat.lt_succ_of_le (List.le_sum_of_mem hx), hD]
  simp only
  split_ifs with h
  · rfl
  · rfl

lemma single_chunk (m : ℕ) (l : List ℕ) (h : l.sum < m) : chunkFinish (l.foldl (cstep m) ([], 0)) = [l.sum] := by
  have key : ∀ (l : List ℕ) (c : ℕ), c + l.sum < m → l.foldl (cstep m) ([], c) = ([], c + l.sum) := by
    intro l
    induction l with
    | nil => intro c _; simp
    | cons x l ih =>
      intro c hc
      rw [List.sum_cons] at hc
      rw [List.foldl_cons, show cstep m ([], c) x = ([], c + x) by unfold cstep; rw [if_neg (by simp only; omega)], ih _ (by omega),
        List.sum_cons, add_assoc]
  rw [key l 0 (by omega), zero_add]
  unfold chunkFinish
  by_cases h0 : l.sum = 0
  · simp [h0]
  · simp [Nat.pos_of_ne_zero h0]

/-- **C157** (CUDA, one chunk). With fewer columns than the chunk limit, as on the CPU; GraSS with stable dimensions (see C30), ensemble ids
other than `-1`. -/
theorem C157_cuda (pyInt : List Char → Option ℤ) (env : Env) (a : RandParams) (hdev : a.dev = .cuda) (k : Kind) (mult : ℤ)
    (hk : checkArg pyInt .cuda a.ptype = .ok (k, mult)) (f : Feat) (d : ℕ) (hf : IsBatch f a.fbs d) (hb : 0 < a.fbs)
    (hlt : a.maxBatch ≠ 0 ∧ d < (2 ^ 32 - 1) / (a.maxBatch * 2)) (hs : k = .grass → Stable (gpuProj env d a.projDim a.seed k mult)) :
    ∃ P, randomProject pyInt env a f = some (.ok P) ∧ ∀ (h : List ((ℕ → ℕ → ℝ) × Feat × ℤ)) (g : Feat) (b' : ℕ), IsBatch g b' d → 0 < b' →
      ∀ (buf' : ℕ → ℕ → ℝ) (e : ℤ), e ≠ -1 → ((P.run h).call buf' g e).2 =
        .ok ((rowsOf g).map fun x => cIdealRow (gpuProj env d a.projDim a.seed k mult) e (toVec d x)) := by
  have hm : maxChunk a.maxBatch = some ((2 ^ 32 - 1) / (a.maxBatch * 2)) := by unfold maxChunk; rw [if_neg hlt.1]
  refine ⟨_, make_cuda hdev hk hf hb hm (by omega) (single_chunk _ _ (by rw [widths_sum hf]; exact hlt.2)), fun h g b' hg hb' buf' e he => ?_⟩
  simp only [List.length_singleton, if_true]
  obtain ⟨H, hr⟩ := cuda_run ⟨d, gpuProj env d a.projDim a.seed k mult, (gpuProj env d a.projDim a.seed k mult).init⟩ h
  rw [hr]
  unfold Projector.call
  rw [preprocess_ok hg hb']
  simp only [cudaCall, if_pos]
  rw [(C77_cuda_history (gpuProj env d a.projDim a.seed k mult) hs H ((rowsOf g).map (toVec d)) e).1 (Or.inr he)]
  simp only [Except.map, COut.toRows, List.map_map]
  rfl

/-! ## Several chunks -/

/-- A part after calls with the given ensemble ids. -/
noncomputable def partRun (es : List ℤ) (q : Part) : Part := ⟨q.d, q.c, q.c.run q.st (es.map fun e => ([], e))⟩

lemma chunked_run (m fbs p : ℕ) (parts : List Part) (buf : ℕ → ℕ → ℝ) (h : List ((ℕ → ℕ → ℝ) × Feat × ℤ)) :
    ∃ es buf', Projector.run h (.chunked m fbs p parts buf) = .chunked m fbs p (parts.map (partRun es)) buf' := by
  induction h using List.reverseRecOn with
  | nil => exact ⟨[], buf, by rw [show partRun [] = id from rfl, List.map_id]; rfl⟩
  | append_singleton h x ih =>
    obtain ⟨es, buf', e⟩ := ih
    have hstep : Projector.run (h ++ [x]) (.chunked m fbs p parts buf) = ((Projector.run h (.chunked m fbs p parts buf)).call x.1 x.2.1 x.2.2).1 := by
      simp [Projector.run]
    refine ⟨es ++ [x.2.2], x.1, ?_⟩
    rw [hstep, e]
    unfold Projector.call
    simp only [List.map_map]
    congr 1
    refine List.map_congr_left fun q _ => ?_
    simp [partRun, partAfter, Cuda.run]

lemma partRow_run (q : Part) (hq : q.st = q.c.init) (hs : q.c.kind = .grass → Stable q.c) (es : List ℤ) (e : ℤ) (he : e ≠ -1) (x : List ℝ) :
    partRow (partRun es q) e x = .ok (cIdealRow q.c e (toVec q.d x)) := by
  unfold partRow partRun
  simp only
  rw [hq, (C77_cuda_history q.c hs _ [toVec q.d x] e).1 (Or.inr he)]
  rfl

lemma mapM_unit {α : Type} (f : α → Except Err Unit) (l : List α) (h : ∀ x ∈ l, f x = .ok ()) : ∃ r, l.mapM f = .ok r := by
  induction l with
  | nil => exact ⟨[], rfl⟩
  | cons a l ih =>
    obtain ⟨r, hr⟩ := ih fun x hx => h x (by simp [hx])
    refine ⟨() :: r, ?_⟩
    rw [List.mapM_cons, h a (by simp), hr]
    rfl

lemma mapM_unit_err {α : Type} (f : α → Except Err Unit) (x : Err) (l : List α) (h : ∀ y ∈ l, f y = .ok () ∨ f y = .error x)
    (hex : ∃ y ∈ l, f y = .error x) : l.mapM f = .error x := by
  induction l with
  | nil => simp at hex
  | cons a l ih =>
    rw [List.mapM_cons]
    rcases h a (by simp) with ha | ha
    · have : ∃ y ∈ l, f y = .error x := by
        obtain ⟨y, hy, hyx⟩ := hex
        rcases List.mem_cons.1 hy with rfl | hy
        · rw [ha] at hyx; cases hyx
        · exact ⟨y, hy, hyx⟩
      rw [ha, ih (fun y hy => h y (by simp [hy])) this]
      rfl
    · rw [ha]; rfl

/-- The projector of chunk `i`: its own seed, drawn from the seed of the caller. -/
def chunkProj (env : Env) (p : ℕ) (s : ℤ) (k : Kind) (mult : ℤ) (D : List ℕ) (i : ℕ) : Cuda (D.getD i 0) :=
  gpuProj env (D.getD i 0) p ((env.seeds s D.length).getD i 0) k mult

/-- The columns of chunk `i`. -/
def chunkCols (D : List ℕ) (i : ℕ) (x : List ℝ) : List ℝ := (x.drop (D.take i).sum).take (D.getD i 0)

/-- Entry `j` of a row that is added to an output of several columns; a single column is broadcast. -/
def bcast (r : List ℝ) (j : ℕ) : ℝ := if r.length = 1 then r.getD 0 0 else r.getD j 0

/-- A projected row: the sum of the projected chunks. -/
noncomputable def chunkSpec (env : Env) (p : ℕ) (s : ℤ) (k : Kind) (mult : ℤ) (D : List ℕ) (e : ℤ) (x : List ℝ) : List ℝ :=
  (List.range p).map fun j => ((List.range D.length).map fun i : ℕ =>
    bcast (cIdealRow (chunkProj env p s k mult D i) e (toVec _ (chunkCols D i x))) j).sum

/-- Number of columns a CUDA projector returns. -/
def outWidth {d : ℕ} (c : Cuda d) (e : ℤ) : ℕ :=
  match c.kind with
  | .identity => d
  | .randomMask => min c.projDim (c.rng.perm (c.seed + 100000 * e)).length
  | _ => c.projDim

lemma cIdealRow_length {d : ℕ} (c : Cuda d) (e : ℤ) (x : Fin d → ℝ) : (cIdealRow c e x).length = outWidth c e := by
  unfold cIdealRow outWidth
  cases c.kind <;> simp [sjRow]

lemma partCheck_run (p : ℕ) (q : Part) (hq : q.st = q.c.init) (hs : q.c.kind = .grass → Stable q.c) (es : List ℤ) (e : ℤ) (he : e ≠ -1) :
    partCheck p e (partRun es q) = if outWidth q.c e = p ∨ outWidth q.c e = 1 then .ok () else .error .runtimeError := by
  unfold partCheck
  rw [partRow_run q hq hs es e he]
  simp only [widen, cIdealRow_length]
  split_ifs with h1 h2 h3 h4 h5 h6 <;> simp_all

lemma widen_get (p : ℕ) (r : List ℝ) (h : r.length = p ∨ r.length = 1) (j : Fin p) : ((widen p r).getD 0) j = bcast r j := by
  unfold widen bcast
  split_ifs with h1 h2
  · have : (j : ℕ) = 0 := by have := j.2; omega
    simp [this]
  · simp
  · simp
  · omega

lemma mkParts_length (env : Env) (p : ℕ) (k : Kind) (mult : ℤ) (D : List ℕ) (S : List ℤ) (h : S.length = D.length) :
    (mkParts env p k mult D S).length = D.length := by
  simp [mkParts, h]

lemma mkParts_get (env : Env) (p : ℕ) (k : Kind) (mult : ℤ) (D : List ℕ) (s : ℤ) (h : (env.seeds s D.length).length = D.length) (i : ℕ) (hi : i < D.length) :
    (mkParts env p k mult D (env.seeds s D.length))[i]? =
      some ⟨D.getD i 0, chunkProj env p s k mult D i, (chunkProj env p s k mult D i).init⟩ := by
  have h1 : i < (env.seeds s D.length).length := by omega
  unfold mkParts
  rw [List.getElem?_map, (List.getElem?_zip_eq_some (z := (D[i], (env.seeds s D.length)[i]))).2 ⟨List.getElem?_eq_getElem hi, List.getElem?_eq_getElem h1⟩]
  simp only [Option.map_some, chunkProj, gpuProj]
  rw [show (env.seeds s D.length).getD i 0 = (env.seeds s D.length)[i] from List.getD_eq_getElem _ _ h1]
  have h2 : D.getD i 0 = D[i] := List.getD_eq_getElem _ _ hi
  generalize D.getD i 0 = y at *
  subst h2
  rfl

lemma mkParts_d (env : Env) (p : ℕ) (k : Kind) (mult : ℤ) (D : List ℕ) (S : List ℤ) (h : S.length = D.length) :
    (mkParts env p k mult D S).map Part.d = D := by
  unfold mkParts
  rw [List.map_map]
  show (D.zip S).map Prod.fst = D
  rw [List.map_fst_zip (by omega)]

/-- The row map of the chunked projector after any history. -/
lemma partMap_run (env : Env) (p : ℕ) (s : ℤ) (k : Kind) (mult : ℤ) (D : List ℕ) (hS : (env.seeds s D.length).length = D.length)
    (hs : k = .grass → ∀ i < D.length, Stable (chunkProj env p s k mult D i)) (es : List ℤ) (e : ℤ) (he : e ≠ -1)
    (i : ℕ) (hi : i < D.length) (hw : outWidth (chunkProj env p s k mult D i) e = p ∨ outWidth (chunkProj env p s k mult D i) e = 1) (x : List ℝ) :
    partMap p ((mkParts env p k mult D (env.seeds s D.length)).map (partRun es)) e i x =
      fun j : Fin p => bcast (cIdealRow (chunkProj env p s k mult D i) e (toVec _ x)) j := by
  unfold partMap
  rw [List.getElem?_map, mkParts_get env p k mult D s hS i hi]
  simp only [Option.map_some]
  rw [partRow_run _ rfl (fun hk => hs hk i hi) es e he]
  simp only
  funext j
  exact widen_get p _ (by rw [cIdealRow_length]; exact hw) j

/-- The checks pass exactly if every chunk returns as many columns as asked for, or one. -/
lemma checks_run (env : Env) (p : ℕ) (s : ℤ) (k : Kind) (mult : ℤ) (D : List ℕ) (hS : (env.seeds s D.length).length = D.length)
    (hs : k = .grass → ∀ i < D.length, Stable (chunkProj env p s k mult D i)) (es : List ℤ) (e : ℤ) (he : e ≠ -1) :
    ((∀ i < D.length, outWidth (chunkProj env p s k mult D i) e = p ∨ outWidth (chunkProj env p s k mult D i) e = 1) →
      ∃ r, ((mkParts env p k mult D (env.seeds s D.length)).map (partRun es)).mapM (partCheck p e) = .ok r) ∧
    (¬ (∀ i < D.length, outWidth (chunkProj env p s k mult D i) e = p ∨ outWidth (chunkProj env p s k mult D i) e = 1) →
      ((mkParts env p k mult D (env.seeds s D.length)).map (partRun es)).mapM (partCheck p e) = .error .runtimeError) := by
  have hL : (mkParts env p k mult D (env.seeds s D.length)).length = D.length := mkParts_length env p k mult D _ hS
  have hval : ∀ i < D.length, ∃ h : i < ((mkParts env p k mult D (env.seeds s D.length)).map (partRun es)).length,
      partCheck p e ((mkParts env p k mult D (env.seeds s D.length)).map (partRun es))[i] =
        if outWidth (chunkProj env p s k mult D i) e = p ∨ outWidth (chunkProj env p s k mult D i) e = 1 then .ok () else .error .runtimeError := by
    intro i hi
    refine ⟨by rw [List.length_map, hL]; exact hi, ?_⟩
    have hg := mkParts_get env p k mult D s hS i hi
    rw [List.getElem?_eq_getElem (by omega), Option.some.injEq] at hg
    rw [List.getElem_map, hg]
    exact partCheck_run p _ rfl (fun hk => hs hk i hi) es e he
  have hmem : ∀ y ∈ (mkParts env p k mult D (env.seeds s D.length)).map (partRun es), ∃ i < D.length, partCheck p e y =
      if outWidth (chunkProj env p s k mult D i) e = p ∨ outWidth (chunkProj env p s k mult D i) e = 1 then .ok () else .error .runtimeError := by
    intro y hy
    obtain ⟨i, hi, rfl⟩ := List.mem_iff_getElem.1 hy
    rw [List.length_map, hL] at hi
    exact ⟨i, hi, (hval i hi).2⟩
  constructor
  · intro hw
    refine mapM_unit _ _ fun y hy => ?_
    obtain ⟨i, hi, h⟩ := hmem y hy
    rw [h, if_pos (hw i hi)]
  · intro hw
    refine mapM_unit_err _ _ _ (fun y hy => ?_) ?_
    · obtain ⟨i, hi, h⟩ := hmem y hy
      rw [h]
      split_ifs
      · exact Or.inl rfl
      · exact Or.inr rfl
    · push Not at hw
      obtain ⟨i, hi, h1, h2⟩ := hw
      obtain ⟨hl, h⟩ := hval i hi
      exact ⟨_, List.getElem_mem hl, by rw [h, if_neg (by tauto)]⟩

lemma call_chunked (env : Env) (m fbs p : ℕ) (s : ℤ) (k : Kind) (mult : ℤ) (D : List ℕ) (hS : (env.seeds s D.length).length = D.length)
    (hs : k = .grass → ∀ i < D.length, Stable (chunkProj env p s k mult D i)) (h : List ((ℕ → ℕ → ℝ) × Feat × ℤ)) (buf' : ℕ → ℕ → ℝ)
    (e : ℤ) (he : e ≠ -1) (g : Feat) (b' : ℕ) (hg : IsBatch g b' D.sum) (hb' : 0 < b') :
    (¬ (∀ i < D.length, outWidth (chunkProj env p s k mult D i) e = p ∨ outWidth (chunkProj env p s k mult D i) e = 1) →
      ((Projector.run h (.chunked m fbs p (mkParts env p k mult D (env.seeds s D.length)) fun _ _ => 0)).call buf' g e).2 = .error .runtimeError) ∧
    ((∀ i < D.length, outWidth (chunkProj env p s k mult D i) e = p ∨ outWidth (chunkProj env p s k mult D i) e = 1) →
      (∀ cols rows, g = .tensor cols rows →
        ((Projector.run h (.chunked m fbs p (mkParts env p k mult D (env.seeds s D.length)) fun _ _ => 0)).call buf' g e).2 =
          .ok ((rowsOf g).map (chunkSpec env p s k mult D e))) ∧
      (∀ bs ps, g = .dict bs ps → 0 < m → chunkFinish ((widths g).foldl (cstep m) ([], 0)) = D →
        (Fits m 0 (widths g) ∧ b' ≤ fbs →
          ((Projector.run h (.chunked m fbs p (mkParts env p k mult D (env.seeds s D.length)) fun _ _ => 0)).call buf' g e).2 =
            .ok ((rowsOf g).map (chunkSpec env p s k mult D e))) ∧
        (¬ (Fits m 0 (widths g) ∧ b' ≤ fbs) →
          ∃ x, ((Projector.run h (.chunked m fbs p (mkParts env p k mult D (env.seeds s D.length)) fun _ _ => 0)).call buf' g e).2 = .error x))) := by
  obtain ⟨es, buf, hr⟩ := chunked_run m fbs p (mkParts env p k mult D (env.seeds s D.length)) (fun _ _ => 0) h
  rw [hr]
  unfold Projector.call
  simp only
  obtain ⟨hc1, hc2⟩ := checks_run env p s k mult D hS hs es e he
  have hd : ((mkParts env p k mult D (env.seeds s D.length)).map (partRun es)).map Part.d = D := by
    rw [List.map_map]
    exact mkParts_d env p k mult D _ hS
  refine ⟨fun hw => ?_, fun hw => ?_⟩
  · unfold chunkedCall
    rw [hc2 hw]
  obtain ⟨r, hr⟩ := hc1 hw
  have hrow : ∀ x : List ℝ, List.ofFn (((List.range D.length).map fun i : ℕ =>
      partMap p ((mkParts env p k mult D (env.seeds s D.length)).map (partRun es)) e i (chunkCols D i x)).sum) =
      chunkSpec env p s k mult D e x := by
    intro x
    have h1 : ((List.range D.length).map fun i : ℕ =>
        partMap p ((mkParts env p k mult D (env.seeds s D.length)).map (partRun es)) e i (chunkCols D i x)) =
        (List.range D.length).map fun i : ℕ => fun j : Fin p => bcast (cIdealRow (chunkProj env p s k mult D i) e (toVec _ (chunkCols D i x))) j :=
      List.map_congr_left fun i hi => partMap_run env p s k mult D hS hs es e he i (List.mem_range.1 hi) (hw i (List.mem_range.1 hi)) _
    rw [h1]
    unfold chunkSpec
    rw [List.ofFn_eq_map]
    have h2 : ∀ (l : List (Fin p → ℝ)) (j : Fin p), l.sum j = (l.map fun f => f j).sum := by
      intro l j
      induction l with
      | nil => rfl
      | cons a l ih => simp [ih]
    apply List.ext_getElem
    · simp
    · intro n hn1 hn2
      simp only [List.getElem_map, List.getElem_finRange, List.getElem_range, h2, List.map_map]
      rfl
  have hproj : ∀ rows : List (List ℝ), ((⟨partMap p ((mkParts env p k mult D (env.seeds s D.length)).map (partRun es)) e, m, D, fbs⟩ : Chunked (Fin p → ℝ)).project rows).map
      List.ofFn = rows.map (chunkSpec env p s k mult D e) := by
    intro rows
    unfold Chunked.project
    rw [List.map_map]
    refine List.map_congr_left fun x _ => ?_
    rw [← hrow x]
    simp only [Function.comp, chunkCols, List.getD_eq_getElem?_getD]
  constructor
  · rintro cols rows rfl
    obtain ⟨rfl, -, -⟩ := hg
    unfold chunkedCall
    rw [hr]
    simp only [hd]
    rw [if_neg (lt_irrefl _), hproj]
    rfl
  · rintro bs ps rfl hm hD
    obtain ⟨rfl, hne, -⟩ := hg
    unfold chunkedCall
    rw [hr]
    simp only [hd]
    have hcs : chunkSizes ((widths (.dict bs ps)).sum + 1) m (ps.map Param.cols) = some D := by
      exact (chunkSizes_eq m hm ((widths (.dict bs ps)).sum + 1) (widths (.dict bs ps)) fun x hx => Nat.lt_succ_of_le (List.le_sum_of_mem hx)).trans
        (congrArg some hD)
    have hfuel : ∀ q ∈ ps, q.cols < (widths (.dict bs ps)).sum + 1 := fun q hq =>
      Nat.lt_succ_of_le (List.le_sum_of_mem (List.mem_map_of_mem hq))
    by_cases hb : bs ≤ fbs
    · obtain ⟨h1, h2⟩ := C32_dict_project (partMap p ((mkParts env p k mult D (env.seeds s D.length)).map (partRun es)) e) m hm fbs bs hb ps hne _ D hcs hfuel buf
      constructor
      · rintro ⟨hF, -⟩
        rw [h1 hF]
        simp only [Except.map, hproj]
        rfl
      · intro hF
        obtain ⟨x, -, hx⟩ := h2 fun hF' => hF ⟨hF', hb⟩
        exact ⟨x, by rw [hx]; rfl⟩
    · refine ⟨fun h => absurd h.2 hb, fun _ => ?_⟩
      obtain ⟨x, hx⟩ := C32_large_batch_raises (⟨partMap p ((mkParts env p k mult D (env.seeds s D.length)).map (partRun es)) e, m, D, fbs⟩ : Chunked (Fin p → ℝ)) bs
        (not_le.1 hb) ps hne buf
      exact ⟨x, by rw [hx]; rfl⟩

lemma built_chunked {pyInt : List Char → Option ℤ} {env : Env} {a : RandParams} (hdev : a.dev = .cuda) {k : Kind} {mult : ℤ}
    (hk : checkArg pyInt .cuda a.ptype = .ok (k, mult)) {f : Feat} {d : ℕ} (hf : IsBatch f a.fbs d) (hb : 0 < a.fbs)
    {m : ℕ} (hm : maxChunk a.maxBatch = some m) {D : List ℕ} (hD : chunkSizes (d + 1) m (widths f) = some D) (h2 : D.length ≠ 1) :
    0 < m ∧ D.sum = d ∧ chunkFinish ((widths f).foldl (cstep m) ([], 0)) = D ∧ randomProject pyInt env a f =
      some (.ok (.chunked m a.fbs a.projDim (mkParts env a.projDim k mult D (env.seeds a.seed D.length)) fun _ _ => 0)) := by
  have hw : widths f ≠ [] := by
    cases f with
    | tensor c r => simp [widths]
    | dict bs ps => simpa [widths] using hf.2.1
  have hsum := widths_sum hf
  have hm0 : 0 < m := by
    rcases Nat.eq_zero_or_pos m with rfl | h
    · rw [C31_diverges _ hw] at hD; cases hD
    · exact h
  have hlt : ∀ x ∈ widths f, x < d + 1 := fun x hx => by
    have := List.le_sum_of_mem hx
    omega
  obtain ⟨r, hr, hs, -⟩ := C31_chunks m hm0 (widths f)
  rw [hr _ hlt, Option.some.injEq] at hD
  subst hD
  have hfin : chunkFinish ((widths f).foldl (cstep m) ([], 0)) = r := by
    have := hr _ hlt
    rw [chunkSizes_eq m hm0 _ _ hlt] at this
    exact Option.some.inj this
  refine ⟨hm0, hs.trans hsum, hfin, ?_⟩
  rw [make_cuda hdev hk hf hb hm hm0 hfin, if_neg h2]

/-- **C157** (CUDA, several chunks). For the dense, SJLT and (with stable dimensions) GraSS types the returned function maps a tensor row to
the sum of the projections of its chunks, each chunk with its own seed drawn from the caller's, whatever was projected before. A dictionary
with the same parameter widths gives the same rows if its parameters fit the chunks (C32) and it has no more rows than the caller announced,
and raises otherwise. -/
theorem C157_chunked (pyInt : List Char → Option ℤ) (env : Env) (hS : ∀ s n, (env.seeds s n).length = n) (a : RandParams) (hdev : a.dev = .cuda)
    (k : Kind) (mult : ℤ) (hk : checkArg pyInt .cuda a.ptype = .ok (k, mult)) (hkind : k ≠ .identity ∧ k ≠ .randomMask) (f : Feat) (d : ℕ)
    (hf : IsBatch f a.fbs d) (hb : 0 < a.fbs) (m : ℕ) (hm : maxChunk a.maxBatch = some m) (D : List ℕ)
    (hD : chunkSizes (d + 1) m (widths f) = some D) (h2 : D.length ≠ 1)
    (hs : k = .grass → ∀ i < D.length, Stable (chunkProj env a.projDim a.seed k mult D i)) :
    ∃ P, randomProject pyInt env a f = some (.ok P) ∧ ∀ (h : List ((ℕ → ℕ → ℝ) × Feat × ℤ)) (buf' : ℕ → ℕ → ℝ) (e : ℤ), e ≠ -1 →
      (∀ rows, rows ≠ [] → (∀ x ∈ rows, x.length = d) →
        ((P.run h).call buf' (.tensor d rows) e).2 = .ok (rows.map (chunkSpec env a.projDim a.seed k mult D e))) ∧
      (∀ bs ps, ps ≠ [] → 0 < bs → ps.map Param.cols = widths f →
        (Fits m 0 (widths f) ∧ bs ≤ a.fbs → ((P.run h).call buf' (.dict bs ps) e).2 =
          .ok ((List.range bs).map fun r => chunkSpec env a.projDim a.seed k mult D e (flatRow r ps))) ∧
        (¬ (Fits m 0 (widths f) ∧ bs ≤ a.fbs) → ∃ x, ((P.run h).call buf' (.dict bs ps) e).2 = .error x)) := by
  obtain ⟨hm0, rfl, hfin, hP⟩ := built_chunked (env := env) hdev hk hf hb hm hD h2
  refine ⟨_, hP, fun h buf' e he => ?_⟩
  have hw : ∀ i < D.length, outWidth (chunkProj env a.projDim a.seed k mult D i) e = a.projDim ∨ outWidth (chunkProj env a.projDim a.seed k mult D i) e = 1 := by
    intro i _
    left
    have hk1 : (chunkProj env a.projDim a.seed k mult D i).kind = k := rfl
    unfold outWidth
    rw [hk1]
    cases k <;> first | rfl | exact absurd rfl hkind.1 | exact absurd rfl hkind.2
  constructor
  · intro rows hne hrows
    obtain ⟨-, hc⟩ := call_chunked env m a.fbs a.projDim a.seed k mult D (hS _ _) hs h buf' e he (.tensor D.sum rows) rows.length ⟨rfl, rfl, hrows⟩
      (List.length_pos_iff.2 hne)
    exact (hc hw).1 _ _ rfl
  · intro bs ps hne hbs hps
    obtain ⟨-, hc⟩ := call_chunked env m a.fbs a.projDim a.seed k mult D (hS _ _) hs h buf' e he (.dict bs ps) bs
      ⟨rfl, hne, by rw [hps, widths_sum hf]⟩ hbs
    obtain ⟨h1, h2⟩ := (hc hw).2 bs ps rfl hm0 (by rw [show widths (.dict bs ps) = widths f from hps]; exact hfin)
    rw [show widths (.dict bs ps) = widths f from hps] at h1 h2
    refine ⟨fun hF => ?_, h2⟩
    rw [h1 hF]
    simp only [rowsOf, List.map_map]
    rfl

/-- **C158** (random mask). With several chunks a random mask does not select columns: the call raises if a chunk has fewer columns than
`proj_dim` (other than one); if all have enough, entry `j` of the result is the sum, over the chunks, of the `j`-th selected column. -/
theorem C158_mask (pyInt : List Char → Option ℤ) (env : Env) (hS : ∀ s n, (env.seeds s n).length = n)
    (hperm : ∀ d s, ((env.gpu d).perm s).length = d) (a : RandParams) (hdev : a.dev = .cuda) (mult : ℤ)
    (hk : checkArg pyInt .cuda a.ptype = .ok (.randomMask, mult)) (f : Feat) (d : ℕ) (hf : IsBatch f a.fbs d) (hb : 0 < a.fbs)
    (m : ℕ) (hm : maxChunk a.maxBatch = some m) (D : List ℕ) (hD : chunkSizes (d + 1) m (widths f) = some D) (h2 : D.length ≠ 1) :
    ∃ P, randomProject pyInt env a f = some (.ok P) ∧ ∀ (h : List ((ℕ → ℕ → ℝ) × Feat × ℤ)) (buf' : ℕ → ℕ → ℝ) (e : ℤ), e ≠ -1 →
      ((∃ n ∈ D, n < a.projDim ∧ n ≠ 1) → ∀ g b', IsBatch g b' d → 0 < b' → ((P.run h).call buf' g e).2 = .error .runtimeError) ∧
      ((∀ n ∈ D, a.projDim ≤ n) → ∀ rows, rows ≠ [] → (∀ x ∈ rows, x.length = d) → ((P.run h).call buf' (.tensor d rows) e).2 =
        .ok (rows.map fun x => (List.range a.projDim).map fun j => ((List.range D.length).map fun i : ℕ =>
          (((((env.gpu (D.getD i 0)).perm ((env.seeds a.seed D.length).getD i 0 + 100000 * e)).take a.projDim).mergeSort (· ≤ ·)).map
            (toVec (D.getD i 0) (chunkCols D i x))).getD j 0).sum)) := by
  obtain ⟨hm0, rfl, hfin, hP⟩ := built_chunked (env := env) hdev hk hf hb hm hD h2
  refine ⟨_, hP, fun h buf' e he => ?_⟩
  have hwid : ∀ i, outWidth (chunkProj env a.projDim a.seed .randomMask mult D i) e = min a.projDim (D.getD i 0) := by
    intro i
    show min a.projDim ((env.gpu (D.getD i 0)).perm _).length = _
    rw [hperm]
  constructor
  · rintro ⟨n, hn, hlt, h1⟩ g b' hg hb'
    refine (call_chunked env m a.fbs a.projDim a.seed .randomMask mult D (hS _ _) (by simp) h buf' e he g b' hg hb').1 fun hw => ?_
    obtain ⟨i, hi, rfl⟩ := List.mem_iff_getElem.1 hn
    have := hw i hi
    rw [hwid, List.getD_eq_getElem _ _ hi] at this
    omega
  · intro hall rows hne hrows
    have hge : ∀ i < D.length, a.projDim ≤ D.getD i 0 := fun i hi => by
      rw [List.getD_eq_getElem _ _ hi]
      exact hall _ (List.getElem_mem hi)
    have hw : ∀ i < D.length, outWidth (chunkProj env a.projDim a.seed .randomMask mult D i) e = a.projDim ∨
        outWidth (chunkProj env a.projDim a.seed .randomMask mult D i) e = 1 := by
      intro i hi
      have := hge i hi
      left; rw [hwid]; omega
    have hc := ((call_chunked env m a.fbs a.projDim a.seed .randomMask mult D (hS _ _) (by simp) h buf' e he (.tensor D.sum rows) rows.length ⟨rfl, rfl, hrows⟩
      (List.length_pos_iff.2 hne)).2 hw).1 _ _ rfl
    rw [hc]
    congr 1
    refine List.map_congr_left fun x _ => ?_
    unfold chunkSpec
    refine List.map_congr_left fun j hj => ?_
    congr 1
    refine List.map_congr_left fun i hi => ?_
    have hlen := cIdealRow_length (chunkProj env a.projDim a.seed .randomMask mult D i) e (toVec _ (chunkCols D i x))
    rw [hwid] at hlen
    unfold bcast
    have := hge i (List.mem_range.1 hi)
    split_ifs with h1
    · have hj0 : j = 0 := by have := List.mem_range.1 hj; omega
      rw [hj0]
      rfl
    · rfl

/-- **C158** (identity). With several chunks the identity raises unless every chunk has `proj_dim` columns or one. -/
theorem C158_identity (pyInt : List Char → Option ℤ) (env : Env) (hS : ∀ s n, (env.seeds s n).length = n) (a : RandParams) (hdev : a.dev = .cuda)
    (mult : ℤ) (hk : checkArg pyInt .cuda a.ptype = .ok (.identity, mult)) (f : Feat) (d : ℕ) (hf : IsBatch f a.fbs d) (hb : 0 < a.fbs)
    (m : ℕ) (hm : maxChunk a.maxBatch = some m) (D : List ℕ) (hD : chunkSizes (d + 1) m (widths f) = some D) (h2 : D.length ≠ 1) :
    ∃ P, randomProject pyInt env a f = some (.ok P) ∧ ∀ (h : List ((ℕ → ℕ → ℝ) × Feat × ℤ)) (buf' : ℕ → ℕ → ℝ) (e : ℤ), e ≠ -1 →
      ∀ rows, rows ≠ [] → (∀ x ∈ rows, x.length = d) →
        (((P.run h).call buf' (.tensor d rows) e).2 = .error .runtimeError ↔ ∃ n ∈ D, n ≠ a.projDim ∧ n ≠ 1) := by
  obtain ⟨hm0, rfl, hfin, hP⟩ := built_chunked (env := env) hdev hk hf hb hm hD h2
  refine ⟨_, hP, fun h buf' e he rows hne hrows => ?_⟩
  have hwid : ∀ i, outWidth (chunkProj env a.projDim a.seed .identity mult D i) e = D.getD i 0 := fun i => rfl
  obtain ⟨hc1, hc2⟩ := call_chunked env m a.fbs a.projDim a.seed .identity mult D (hS _ _) (by simp) h buf' e he (.tensor D.sum rows) rows.length ⟨rfl, rfl, hrows⟩
      (List.length_pos_iff.2 hne)
  constructor
  · intro herr
    by_contra hno
    push Not at hno
    have := (hc2 fun i hi => by
      rw [hwid, List.getD_eq_getElem _ _ hi]
      by_contra hcon
      push Not at hcon
      exact hcon.2 (hno _ (List.getElem_mem hi) hcon.1)).1 _ _ rfl
    rw [this] at herr
    cases herr
  · rintro ⟨n, hn, h1, h2⟩
    refine hc1 fun hw => ?_
    obtain ⟨i, hi, rfl⟩ := List.mem_iff_getElem.1 hn
    have := hw i hi
    rw [hwid, List.getD_eq_getElem _ _ hi] at this
    tauto

/-! ## Examples -/

/-- A dictionary of two parameters with 2 and 1 columns and 2 rows. -/
example : IsBatch (.dict 2 [⟨2, fun r j => r + j⟩, ⟨1, fun _ _ => 5⟩]) 2 3 ∧
    rowsOf (.dict 2 [⟨2, fun r j => r + j⟩, ⟨1, fun _ _ => 5⟩]) = [[0, 1, 5], [1, 2, 5]] := by
  refine ⟨⟨rfl, by simp, by simp⟩, ?_⟩
  simp [rowsOf, flatRow, List.range_succ]
  norm_num

/-- A tensor of 50 million columns is cut into two chunks with the default `proj_max_batch_size = 64`. -/
example : maxChunk 64 = some 33554431 ∧ ∃ D, chunkSizes (50000000 + 1) 33554431 (widths (.tensor 50000000 [])) = some D ∧ D = [33554431, 16445569] ∧
    D.length ≠ 1 := by
  refine ⟨by decide, _, ?_, rfl, by decide⟩
  rw [chunkSizes_eq _ (by norm_num) _ _ (by simp [widths])]
  simp [widths, cstep, chunkFinish]

/-- Asking for a batch size of 2 while the tensor has 3 rows of 2 columns: the width is taken to be 3. -/
example : IsBatch (.tensor 2 [[1, 2], [3, 4], [5, 6]]) 3 2 ∧ announced 2 3 (.tensor 2 [[1, 2], [3, 4], [5, 6]]) = 3 :=
  ⟨⟨rfl, rfl, by simp⟩, rfl⟩

end Verif.Projection
