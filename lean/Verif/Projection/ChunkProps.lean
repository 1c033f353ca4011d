import Mathlib.Tactic.Ring
import Mathlib.Tactic.NormNum
import Mathlib.Tactic.Linarith
import Mathlib.Data.List.GetD
import Verif.Projection.ChunkModel

/-!
# C31, C32: parameter chunking and the chunked dictionary projection
-/

namespace Verif.Projection

/-! ## The chunking loop in closed form -/

lemma splitLoop_eq (m : ℕ) (hm : 0 < m) (fuel : ℕ) (acc : List ℕ) (ps : ℕ) (hf : ps < fuel) :
    splitLoop m fuel acc ps = some (acc ++ List.replicate (ps / m) m, ps % m) := by
  induction fuel generalizing acc ps with
  | zero => omega
  | succ fuel ih =>
    unfold splitLoop
    split_ifs with h
    · rw [ih _ _ (by omega), ← Nat.mod_eq_sub_mod h]
      have : ps / m = (ps - m) / m + 1 := by
        rw [Nat.div_eq_sub_div hm h]
      rw [this, List.replicate_succ]; simp
    · have h' : ps < m := not_le.1 h
      simp [Nat.div_eq_of_lt h', Nat.mod_eq_of_lt h']

/-- Closed form of one iteration. -/
def cstep (m : ℕ) (s : List ℕ × ℕ) (ps : ℕ) : List ℕ × ℕ :=
  if m ≤ s.2 + ps then ((if 0 < s.2 then s.1 ++ [s.2] else s.1) ++ List.replicate (ps / m) m, ps % m)
  else (s.1, s.2 + ps)

lemma chunkStep_eq (m : ℕ) (hm : 0 < m) (fuel : ℕ) (s : List ℕ × ℕ) (ps : ℕ) (hf : ps < fuel) :
    chunkStep fuel m s ps = some (cstep m s ps) := by
  unfold chunkStep cstep
  simp only []
  split_ifs with h h'
  · simp [splitLoop_eq m hm fuel _ ps hf]
  · simp [splitLoop_eq m hm fuel _ ps hf]
  · rw [splitLoop_eq m hm fuel _ ps hf]
    have h' : ps < m := by omega
    simp [Nat.div_eq_of_lt h', Nat.mod_eq_of_lt h']

lemma chunkSizes_eq (m : ℕ) (hm : 0 < m) (fuel : ℕ) (sizes : List ℕ) (hf : ∀ x ∈ sizes, x < fuel) :
    chunkSizes fuel m sizes = some (chunkFinish (sizes.foldl (cstep m) ([], 0))) := by
  unfold chunkSizes
  have : ∀ s : List ℕ × ℕ, sizes.foldlM (chunkStep fuel m) s = some (sizes.foldl (cstep m) s) := by
    induction sizes with
    | nil => intro s; rfl
    | cons x l ih =>
      intro s
      rw [List.foldlM_cons, chunkStep_eq m hm fuel s x (hf x (by simp))]
      exact ih (fun y hy => hf y (by simp [hy])) _
  rw [this]; rfl

lemma foldl_inv (m : ℕ) (hm : 0 < m) (sizes : List ℕ) (s : List ℕ × ℕ)
    (h1 : s.2 < m) (h2 : ∀ x ∈ s.1, 0 < x ∧ x ≤ m) :
    (sizes.foldl (cstep m) s).2 < m ∧ (∀ x ∈ (sizes.foldl (cstep m) s).1, 0 < x ∧ x ≤ m) ∧
      (sizes.foldl (cstep m) s).1.sum + (sizes.foldl (cstep m) s).2 = s.1.sum + s.2 + sizes.sum := by
  induction sizes generalizing s with
  | nil => exact ⟨h1, h2, by simp⟩
  | cons ps l ih =>
    rw [List.foldl_cons]
    have hs1 : (cstep m s ps).2 < m := by
      unfold cstep; split_ifs with h
      · exact Nat.mod_lt _ hm
      · exact Nat.mod_lt _ hm
      · exact not_le.1 h
    have hs2 : ∀ x ∈ (cstep m s ps).1, 0 < x ∧ x ≤ m := by
      unfold cstep; split_ifs with h h'
      · intro x hx
        simp only [List.mem_append, List.mem_singleton, List.mem_replicate] at hx
        rcases hx with (hx | rfl) | ⟨-, rfl⟩
        · exact h2 x hx
        · exact ⟨h', h1.le⟩
        · exact ⟨hm, le_rfl⟩
      · intro x hx
        simp only [List.mem_append, List.mem_replicate] at hx
        rcases hx with hx | ⟨-, rfl⟩
        · exact h2 x hx
        · exact ⟨hm, le_rfl⟩
      · exact h2
    have hs3 : (cstep m s ps).1.sum + (cstep m s ps).2 = s.1.sum + s.2 + ps := by
      unfold cstep; split_ifs with h h'
      · have := Nat.div_add_mod' ps m
        simp; omega
      · have := Nat.div_add_mod' ps m
        simp; omega
      · simp only []; omega
    obtain ⟨a, b, c⟩ := ih _ hs1 hs2
    refine ⟨a, b, ?_⟩
    rw [c, hs3, List.sum_cons]; omega

/-- **C31.** For a positive limit the chunking terminates (fuel larger than every size suffices) and returns chunk sizes that sum to the
total, are at most the limit, and are all positive unless there is no parameter at all, when the result is `[0]`. -/
theorem C31_chunks (m : ℕ) (hm : 0 < m) (sizes : List ℕ) :
    ∃ r, (∀ fuel, (∀ x ∈ sizes, x < fuel) → chunkSizes fuel m sizes = some r) ∧
      r.sum = sizes.sum ∧ (∀ x ∈ r, x ≤ m) ∧ (if sizes.sum = 0 then r = [0] else ∀ x ∈ r, 0 < x) := by
  refine ⟨_, fun fuel hf => chunkSizes_eq m hm fuel sizes hf, ?_⟩
  obtain ⟨a, b, c⟩ := foldl_inv m hm sizes ([], 0) hm (by simp)
  generalize sizes.foldl (cstep m) ([], 0) = s at *
  simp only [List.sum_nil, zero_add] at c
  unfold chunkFinish
  simp only []
  by_cases h : 0 < s.2
  · have hne : ¬ (s.1 ++ [s.2] = []) := by simp
    simp only [h, if_true, hne, if_false]
    refine ⟨by simp; omega, ?_, ?_⟩
    · intro x hx
      rcases List.mem_append.1 hx with hx | hx
      · exact (b x hx).2
      · rw [List.mem_singleton.1 hx]; exact a.le
    · rw [if_neg (by omega)]
      intro x hx
      rcases List.mem_append.1 hx with hx | hx
      · exact (b x hx).1
      · rw [List.mem_singleton.1 hx]; exact h
  · simp only [h, if_false]
    have h0 : s.2 = 0 := by omega
    by_cases hn : s.1 = []
    · simp only [hn, if_true]
      rw [hn] at c
      simp only [List.sum_nil] at c
      refine ⟨by simp; omega, by simp, ?_⟩
      rw [if_pos (by omega)]; trivial
    · simp only [hn, if_false]
      refine ⟨by omega, fun x hx => (b x hx).2, ?_⟩
      rw [if_neg]
      · exact fun x hx => (b x hx).1
      · obtain ⟨y, l, hy⟩ := List.exists_cons_of_ne_nil hn
        have := (b y (by simp [hy])).1
        rw [hy] at c
        simp only [List.sum_cons] at c
        omega

/-- **C31** (divergence). With limit 0 the loop never finishes on a non-empty list. -/
theorem C31_diverges (sizes : List ℕ) (hne : sizes ≠ []) (fuel : ℕ) : chunkSizes fuel 0 sizes = none := by
  have hs : ∀ fuel acc ps, splitLoop 0 fuel acc ps = none := by
    intro fuel
    induction fuel with
    | zero => intro _ _; rfl
    | succ n ih => intro acc ps; unfold splitLoop; simp [ih]
  obtain ⟨x, l, rfl⟩ := List.exists_cons_of_ne_nil hne
  unfold chunkSizes
  rw [List.foldlM_cons]
  have : chunkStep fuel 0 ([], 0) x = none := by unfold chunkStep; simp [hs]
  rw [this]; rfl

/-- **C31** (limit). The limit is positive exactly for batch sizes `1, ..., 2^31 - 1`; batch size 0 is a division by zero. -/
theorem C31_limit (b : ℕ) :
    (maxChunk b = none ↔ b = 0) ∧ ((∃ m, 0 < m ∧ maxChunk b = some m) ↔ 0 < b ∧ b ≤ 2 ^ 31 - 1) := by
  unfold maxChunk
  constructor
  · by_cases h : b = 0 <;> simp [h]
  · by_cases h : b = 0
    · simp [h]
    · simp only [h, if_false, Option.some.injEq, exists_eq_right']
      rw [Nat.div_pos_iff]; omega

/-! ## C32 -/

/-- Contents of the current bin after adding size `s` to a bin with contents `c`: a bin that would overflow is closed first. -/
def fill (m c s : ℕ) : ℕ := if m < c + s then s else c + s

/-- Greedy packing into bins of capacity `m`, `c` being the contents of the current bin, in which no size exceeds the capacity and a bin is
filled exactly to its capacity only by a single item of that size (and then closed). -/
def Fits (m : ℕ) : ℕ → List ℕ → Prop
  | _, [] => True
  | c, s :: l => s ≤ m ∧ (fill m c s = m → s = m) ∧ Fits m (if fill m c s = m then 0 else fill m c s) l

/-- Row `r` of the dictionary, all parameters concatenated in order. -/
def flatRow (r : ℕ) (ps : List Param) : List ℝ := ps.flatMap fun p => (List.range p.cols).map (p.val r)

lemma flatRow_append (r : ℕ) (a b : List Param) : flatRow r (a ++ b) = flatRow r a ++ flatRow r b := by
  simp [flatRow]

variable {V : Type} [AddCommMonoid V]

/-- The chunk slice of a flat row. -/
def slice (x : List ℝ) (D : List ℕ) (k : ℕ) : List ℝ := (x.drop (D.take k).sum).take ((D[k]?).getD 0)

lemma cstep_prefix (m : ℕ) (s : List ℕ × ℕ) (ps : ℕ) : s.1 <+: (cstep m s ps).1 := by
  unfold cstep; split_ifs
  · simp [List.append_assoc]
  · simp
  · exact List.prefix_rfl

lemma foldl_prefix (m : ℕ) (l : List ℕ) (s : List ℕ × ℕ) : s.1 <+: (l.foldl (cstep m) s).1 := by
  induction l generalizing s with
  | nil => exact List.prefix_rfl
  | cons x l ih => exact (cstep_prefix m s x).trans (ih _)

lemma finish_prefix (s : List ℕ × ℕ) : s.1 <+: chunkFinish s := by
  unfold chunkFinish
  simp only []
  split_ifs with h1 h2 h2
  · simp at h2
  · simp
  · simp [h2]
  · exact List.prefix_rfl

lemma dims_prefix (m : ℕ) (l : List ℕ) (s : List ℕ × ℕ) : s.1 <+: chunkFinish (l.foldl (cstep m) s) :=
  (foldl_prefix m l s).trans (finish_prefix _)

lemma prefix_getElem? {α : Type*} {a b : List α} (h : a <+: b) {k : ℕ} (hk : k < a.length) : b[k]? = a[k]? := by
  obtain ⟨t, rfl⟩ := h
  rw [List.getElem?_append_left hk]

lemma prefix_take {α : Type*} {a b : List α} (h : a <+: b) {k : ℕ} (hk : k ≤ a.length) : b.take k = a.take k := by
  obtain ⟨t, rfl⟩ := h
  rw [List.take_append_of_le_length hk]

/-- Invariant linking the dictionary loop and the chunking loop after the parameters `done`. -/
structure Q (c : Chunked V) (bs : ℕ) (done : List Param) (s : DState V) (a : List ℕ × ℕ) : Prop where
  lt : a.2 < c.limit
  pos : ∀ x ∈ a.1, 0 < x
  pre : a.1 <+: c.dims
  len : ∀ r, (flatRow r done).length = a.1.sum + a.2
  mode : (s.idx = a.1.length ∧ s.ptr = a.2 ∧ (a.2 = 0 → a.1 = [])) ∨
    (a.1.length = s.idx + 1 ∧ a.1[s.idx]? = some c.limit ∧ s.ptr = c.limit ∧ a.2 = 0)
  buf : ∀ r < bs, (List.range s.ptr).map (s.buf r) = (flatRow r done).drop (c.dims.take s.idx).sum
  out : ∀ r < bs, s.out r = ((List.range s.idx).map fun k => c.proj k (slice (flatRow r done) c.dims k)).sum

lemma slice_append (x y : List ℝ) (D : List ℕ) (k : ℕ) (h : (D.take (k + 1)).sum ≤ x.length) : slice (x ++ y) D k = slice x D k := by
  unfold slice
  by_cases hk : k < D.length
  · have h1 : (D.take (k + 1)).sum = (D.take k).sum + D[k] := by
      rw [List.take_add_one]; simp [hk]
    rw [List.drop_append_of_le_length (by omega), List.take_append_of_le_length]
    simp [hk]; omega
  · simp [hk]

lemma take_sum_le' (l : List ℕ) (k : ℕ) : (l.take k).sum ≤ l.sum := by
  conv_rhs => rw [← List.take_append_drop k l, List.sum_append]
  omega

/-- Sum of a prefix of the dimensions. -/
lemma take_sum_le {a D : List ℕ} (h : a <+: D) {k : ℕ} (hk : k ≤ a.length) : (D.take k).sum ≤ a.sum := by
  rw [prefix_take h hk]
  exact take_sum_le' _ _

/-- A successful flush in the middle of the loop. -/
lemma flush_ok (c : Chunked V) (bs rows : ℕ) (hb : bs ≤ rows) (done : List Param) (s : DState V) (a : List ℕ × ℕ) (hQ : Q c bs done s a)
    (hd : c.dims[s.idx]? = some s.ptr) :
    ∃ s', c.flush rows s = .ok s' ∧ s'.idx = s.idx ∧ s'.buf = s.buf ∧ s'.ptr = s.ptr ∧
      ∀ r < bs, s'.out r = ((List.range (s.idx + 1)).map fun k => c.proj k (slice (flatRow r done) c.dims k)).sum := by
  unfold Chunked.flush
  rw [hd]
  refine ⟨{ s with out := fun r => if r < rows then s.out r + c.proj s.idx ((List.range s.ptr).map (s.buf r)) else s.out r },
    by simp, rfl, rfl, rfl, ?_⟩
  intro r hr
  simp only [if_pos (lt_of_lt_of_le hr hb)]
  rw [List.range_succ, List.map_append, List.sum_append, hQ.out r hr]
  congr 1
  simp only [List.map_cons, List.map_nil, List.sum_singleton]
  congr 1
  unfold slice
  rw [hd, Option.getD_some, ← hQ.buf r hr, List.take_of_length_le (by simp)]

/-- The state after a flush that closes a bin and the copy of the next parameter. -/
lemma copy_buf (bs ptr : ℕ) (buf : ℕ → ℕ → ℝ) (p : Param) (r : ℕ) (hr : r < bs) :
    (List.range (ptr + p.cols)).map (fun j => if r < bs ∧ ptr ≤ j ∧ j < ptr + p.cols then p.val r (j - ptr) else buf r j) =
      (List.range ptr).map (buf r) ++ (List.range p.cols).map (p.val r) := by
  rw [List.range_add, List.map_append, List.map_map]
  congr 1
  · apply List.map_congr_left
    intro j hj
    have : j < ptr := by simpa using hj
    rw [if_neg (by omega)]
  · apply List.map_congr_left
    intro j hj
    have : j < p.cols := by simpa using hj
    simp [hr, this]

/-- One parameter that fits. -/
lemma dictStep_ok (c : Chunked V) (bs : ℕ) (hb : bs ≤ c.fbs) (done : List Param) (s : DState V) (a : List ℕ × ℕ)
    (hQ : Q c bs done s a) (p : Param) (hp : p.cols ≤ c.limit) (hfit : a.2 + p.cols = c.limit → a.2 = 0)
    (hpre : (cstep c.limit a p.cols).1 <+: c.dims) :
    ∃ s', c.dictStep bs s p = .ok s' ∧ Q c bs (done ++ [p]) s' (cstep c.limit a p.cols) := by
  have hm : 0 < c.limit := by have := hQ.lt; omega
  have hflat : ∀ r, flatRow r [p] = (List.range p.cols).map (p.val r) := by intro r; simp [flatRow]
  have hlenp : ∀ r, (flatRow r (done ++ [p])).length = a.1.sum + a.2 + p.cols := by
    intro r; rw [flatRow_append, List.length_append, hQ.len, hflat]; simp
  have hidx : s.idx ≤ a.1.length := by rcases hQ.mode with h | h <;> omega
  have hptr : s.ptr = (a.1.drop s.idx).sum + a.2 := by
    rcases hQ.mode with ⟨h1, h2, -⟩ | ⟨h1, h2, h3, h4⟩
    · rw [h1]; simp [h2]
    · have : a.1.drop s.idx = [c.limit] := by
        rw [List.drop_eq_getElem_cons (by omega : s.idx < a.1.length)]
        rw [List.getElem?_eq_getElem (by omega)] at h2
        injection h2 with h2
        rw [h2, List.drop_of_length_le (by omega)]
      rw [this, h3, h4]; simp
  have hsum : (c.dims.take s.idx).sum + s.ptr = a.1.sum + a.2 := by
    rw [prefix_take hQ.pre hidx, hptr, ← add_assoc]
    congr 1
    rw [← List.sum_append, List.take_append_drop]
  by_cases hflush : c.limit < s.ptr + p.cols
  · -- the bin is closed
    have hcs : cstep c.limit a p.cols =
        ((if 0 < a.2 then a.1 ++ [a.2] else a.1) ++ List.replicate (p.cols / c.limit) c.limit, p.cols % c.limit) ∨
        (cstep c.limit a p.cols = (a.1, p.cols) ∧ a.2 = 0 ∧ p.cols < c.limit) := by
      rcases hQ.mode with ⟨h1, h2, -⟩ | ⟨h1, h2, h3, h4⟩
      · left; unfold cstep; rw [if_pos (by omega)]
      · by_cases hpm : p.cols = c.limit
        · left; unfold cstep; rw [if_pos (by omega)]
        · right
          refine ⟨?_, h4, by omega⟩
          unfold cstep; rw [if_neg (by omega), h4, zero_add]
    -- the closed bin
    have hd : c.dims[s.idx]? = some s.ptr := by
      rcases hQ.mode with ⟨h1, h2, h3⟩ | ⟨h1, h2, h3, h4⟩
      · have hpos : 0 < a.2 := by omega
        have : (cstep c.limit a p.cols).1 = a.1 ++ [a.2] ++ List.replicate (p.cols / c.limit) c.limit := by
          unfold cstep; rw [if_pos (by omega), if_pos hpos]
        rw [this] at hpre
        rw [prefix_getElem? hpre (by simp [h1]), h1, h2]
        simp
      · rw [prefix_getElem? hQ.pre (by omega), h2, h3]
    obtain ⟨s', hs', e1, e2, e3, e4⟩ := flush_ok c bs c.fbs hb done s a hQ hd
    have hstep : c.dictStep bs s p = .ok { s' with
        idx := s.idx + 1
        buf := fun r j => if r < bs ∧ 0 ≤ j ∧ j < 0 + p.cols then p.val r (j - 0) else s.buf r j
        ptr := 0 + p.cols } := by
      unfold Chunked.dictStep
      simp only [hflush, if_true, hs', bind, Except.bind, pure, Except.pure]
      rw [if_neg (by omega)]
      simp only [e1, e2]
    -- the new chunk state has the closed bin and contents `p`
    have hnew : (cstep c.limit a p.cols).1.sum + (cstep c.limit a p.cols).2 = a.1.sum + a.2 + p.cols := by
      unfold cstep; split_ifs with h h'
      · have := Nat.div_add_mod' p.cols c.limit
        simp; omega
      · have := Nat.div_add_mod' p.cols c.limit
        simp; omega
      · simp only []; omega
    have hlt' : (cstep c.limit a p.cols).2 < c.limit := by
      unfold cstep; split_ifs with h
      · exact Nat.mod_lt _ hm
      · exact Nat.mod_lt _ hm
      · simp only []; omega
    have htk : (c.dims.take (s.idx + 1)).sum = a.1.sum + a.2 := by
      rw [List.take_add_one, hd]; simp only [Option.toList_some, List.sum_append, List.sum_singleton]; exact hsum
    refine ⟨_, hstep, ⟨hlt', ?_, hpre, ?_, ?_, ?_, ?_⟩⟩
    · intro x hx
      unfold cstep at hx
      split_ifs at hx with h h'
      · simp only [List.mem_append, List.mem_singleton, List.mem_replicate] at hx
        rcases hx with (hx | rfl) | ⟨-, rfl⟩
        · exact hQ.pos x hx
        · exact h'
        · exact hm
      · simp only [List.mem_append, List.mem_replicate] at hx
        rcases hx with hx | ⟨-, rfl⟩
        · exact hQ.pos x hx
        · exact hm
      · exact hQ.pos x hx
    · intro r; rw [hlenp, hnew]
    · simp only [zero_add]
      -- mode of the new state
      rcases hQ.mode with ⟨h1, h2, h3⟩ | ⟨h1, h2, h3, h4⟩
      · have hpos : 0 < a.2 := by omega
        by_cases hpm : p.cols = c.limit
        · right
          unfold cstep; rw [if_pos (by omega), if_pos hpos, hpm, Nat.div_self hm, Nat.mod_self]
          refine ⟨by simp [h1], ?_, rfl, rfl⟩
          rw [List.getElem?_append_right (by simp [h1])]; simp [h1]
        · left
          have hlt : p.cols < c.limit := by omega
          unfold cstep; rw [if_pos (by omega), if_pos hpos, Nat.div_eq_of_lt hlt, Nat.mod_eq_of_lt hlt]
          refine ⟨by simp [h1], rfl, fun h => ?_⟩
          have := hQ.lt; simp only [] at h; omega
      · by_cases hpm : p.cols = c.limit
        · right
          unfold cstep; rw [if_pos (by omega), if_neg (by omega), hpm, Nat.div_self hm, Nat.mod_self]
          refine ⟨by simp [h1], ?_, rfl, rfl⟩
          rw [List.getElem?_append_right (by omega)]; simp [h1]
        · left
          unfold cstep; rw [if_neg (by omega), h4]
          refine ⟨by simp [h1], by simp, fun h => ?_⟩
          simp only [] at h; omega
    · intro r hr
      simp only []
      rw [copy_buf bs 0 s.buf p r hr, htk, flatRow_append, hflat,
        List.drop_append_of_le_length (by rw [hQ.len]), List.drop_of_length_le (by rw [hQ.len])]
      simp
    · intro r hr
      simp only []
      rw [e4 r hr]
      congr 1
      apply List.map_congr_left
      intro k hk
      have hk' : k < s.idx + 1 := by simpa using hk
      rw [flatRow_append, slice_append]
      rw [hQ.len, ← htk]
      rw [show c.dims.take (k + 1) = (c.dims.take (s.idx + 1)).take (k + 1) by rw [List.take_take]; congr 1; omega]
      exact take_sum_le' _ _
  · -- the parameter goes into the current bin
    have hstep : c.dictStep bs s p = .ok { s with
        buf := fun r j => if r < bs ∧ s.ptr ≤ j ∧ j < s.ptr + p.cols then p.val r (j - s.ptr) else s.buf r j
        ptr := s.ptr + p.cols } := by
      unfold Chunked.dictStep
      simp only [hflush, if_false, bind, Except.bind, pure, Except.pure]
      rw [if_neg (by omega)]
    have hbuf : ∀ r < bs, (List.range (s.ptr + p.cols)).map
        (fun j => if r < bs ∧ s.ptr ≤ j ∧ j < s.ptr + p.cols then p.val r (j - s.ptr) else s.buf r j) =
        (flatRow r (done ++ [p])).drop (c.dims.take s.idx).sum := by
      intro r hr
      rw [copy_buf bs s.ptr s.buf p r hr, hQ.buf r hr, flatRow_append, hflat, List.drop_append_of_le_length]
      rw [hQ.len]; omega
    have hout : ∀ r < bs, s.out r =
        ((List.range s.idx).map fun k => c.proj k (slice (flatRow r (done ++ [p])) c.dims k)).sum := by
      intro r hr
      rw [hQ.out r hr]
      congr 1
      apply List.map_congr_left
      intro k hk
      have hk' : k < s.idx := by simpa using hk
      rw [flatRow_append, slice_append]
      rw [hQ.len]
      have := take_sum_le hQ.pre (k := k + 1) (by omega)
      omega
    rcases hQ.mode with ⟨h1, h2, h3⟩ | ⟨h1, h2, h3, h4⟩
    · by_cases heq : a.2 + p.cols = c.limit
      · -- an empty bin filled by one parameter of exactly the limit
        have ha := hfit heq
        have hpm : p.cols = c.limit := by omega
        have hcs : cstep c.limit a p.cols = (a.1 ++ [c.limit], 0) := by
          unfold cstep; rw [if_pos (by omega), if_neg (by omega), hpm, Nat.div_self hm, Nat.mod_self]; rfl
        rw [hcs] at hpre ⊢
        refine ⟨_, hstep, ⟨hm, ?_, hpre, ?_, Or.inr ⟨by simp [h1], by simp [h1], by simp only []; omega, rfl⟩, hbuf, hout⟩⟩
        · intro x hx
          simp only [List.mem_append, List.mem_singleton] at hx
          rcases hx with hx | rfl
          · exact hQ.pos x hx
          · exact hm
        · intro r; rw [hlenp]; simp; omega
      · have hcs : cstep c.limit a p.cols = (a.1, a.2 + p.cols) := by
          unfold cstep; rw [if_neg (by omega)]
        rw [hcs]
        refine ⟨_, hstep, ⟨by simp only []; omega, hQ.pos, hQ.pre, ?_, Or.inl ⟨h1, by simp only []; omega, ?_⟩, hbuf, hout⟩⟩
        · intro r; rw [hlenp]; simp only []; omega
        · intro h; simp only [] at h; exact h3 (by omega)
    · have hp0 : p.cols = 0 := by omega
      have hcs : cstep c.limit a p.cols = (a.1, 0) := by
        unfold cstep; rw [if_neg (by omega), h4, hp0]
      rw [hcs]
      refine ⟨_, hstep, ⟨hm, hQ.pos, hQ.pre, ?_, Or.inr ⟨h1, h2, by simp only []; omega, rfl⟩, hbuf, hout⟩⟩
      intro r; rw [hlenp]; simp only []; omega

/-- The remaining loop and the final flush. -/
def Chunked.rest (c : Chunked V) (bs : ℕ) (s : DState V) (ps : List Param) : Except Err (List V) := do
  let s ← ps.foldlM (c.dictStep bs) s
  let s' ← c.flush bs s
  pure ((List.range bs).map s'.out)

lemma rest_cons (c : Chunked V) (bs : ℕ) (s : DState V) (p : Param) (ps : List Param) :
    c.rest bs s (p :: ps) = (c.dictStep bs s p).bind fun s' => c.rest bs s' ps := by
  unfold Chunked.rest
  rw [List.foldlM_cons]
  cases c.dictStep bs s p <;> rfl

/-- A bin that is full although the constructor closed it earlier makes the call fail. -/
lemma rest_bad (c : Chunked V) (bs : ℕ) (hb : bs ≤ c.fbs) (s : DState V) (ps : List Param) (n : ℕ) (hptr : s.ptr = c.limit)
    (hd : c.dims[s.idx]? = some n) (hn : n ≠ c.limit) : c.rest bs s ps = .error .valueError := by
  have hfl : ∀ rows (s : DState V), s.ptr = c.limit → c.dims[s.idx]? = some n → c.flush rows s = .error .valueError := by
    intro rows s h1 h2
    unfold Chunked.flush
    rw [h2]; simp only []; rw [if_pos (by omega)]
  induction ps generalizing s with
  | nil =>
    unfold Chunked.rest
    simp only [List.foldlM_nil, bind, Except.bind, pure, Except.pure, hfl bs s hptr hd]
  | cons p ps ih =>
    rw [rest_cons]
    by_cases hp : p.cols = 0
    · have : c.dictStep bs s p = .ok { s with
          buf := fun r j => if r < bs ∧ s.ptr ≤ j ∧ j < s.ptr + p.cols then p.val r (j - s.ptr) else s.buf r j
          ptr := s.ptr + p.cols } := by
        unfold Chunked.dictStep
        rw [if_neg (by omega)]
        simp only [bind, Except.bind, pure, Except.pure]
        rw [if_neg (by omega)]
      rw [this]
      exact ih _ (by simp only []; omega) hd
    · have : c.dictStep bs s p = .error .valueError := by
        unfold Chunked.dictStep
        rw [if_pos (by omega)]
        simp only [bind, Except.bind, hfl c.fbs s hptr hd]
      rw [this]; rfl

lemma rest_spec (c : Chunked V) (bs : ℕ) (hb : bs ≤ c.fbs) (ps done : List Param) (s : DState V) (a : List ℕ × ℕ)
    (hQ : Q c bs done s a) (hD : c.dims = chunkFinish ((ps.map Param.cols).foldl (cstep c.limit) a)) :
    (Fits c.limit a.2 (ps.map Param.cols) → c.rest bs s ps =
      .ok ((List.range bs).map fun r => ((List.range c.dims.length).map fun k =>
        c.proj k (slice (flatRow r (done ++ ps)) c.dims k)).sum)) ∧
    (¬ Fits c.limit a.2 (ps.map Param.cols) → ∃ e, (e = .valueError ∨ e = .runtimeError) ∧ c.rest bs s ps = .error e) := by
  induction ps generalizing done s a with
  | nil =>
    refine ⟨fun _ => ?_, fun h => absurd trivial h⟩
    simp only [List.map_nil, List.foldl_nil] at hD
    have key : c.dims[s.idx]? = some s.ptr ∧ c.dims.length = s.idx + 1 := by
      unfold chunkFinish at hD
      simp only [] at hD
      rcases hQ.mode with ⟨h1, h2, h3⟩ | ⟨h1, h2, h3, h4⟩
      · by_cases hpos : 0 < a.2
        · have hne : ¬ (a.1 ++ [a.2] = []) := by simp
          rw [if_pos hpos, if_neg hne] at hD
          rw [hD, h1, h2]; simp
        · have h0 : a.2 = 0 := by omega
          rw [if_neg hpos, h3 h0, if_pos rfl] at hD
          rw [hD, h1, h2, h3 h0, h0]; simp
      · have hne : ¬ (a.1 = []) := by intro h; simp [h] at h1
        rw [if_neg (show ¬ 0 < a.2 by omega), if_neg hne] at hD
        rw [hD, h2, h3, h1]; simp
    obtain ⟨s', hs', e1, e2, e3, e4⟩ := flush_ok c bs bs le_rfl done s a hQ key.1
    unfold Chunked.rest
    simp only [List.foldlM_nil, bind, Except.bind, pure, Except.pure, hs', List.append_nil, key.2]
    congr 1
    apply List.map_congr_left
    intro r hr
    exact e4 r (by simpa using hr)
  | cons p ps ih =>
    have hpre : (cstep c.limit a p.cols).1 <+: c.dims := by
      rw [hD, List.map_cons, List.foldl_cons]; exact dims_prefix _ _ _
    have hm : 0 < c.limit := by have := hQ.lt; omega
    by_cases hp : p.cols ≤ c.limit
    · by_cases hfit : a.2 + p.cols = c.limit → a.2 = 0
      · obtain ⟨s', hs', hQ'⟩ := dictStep_ok c bs hb done s a hQ p hp hfit hpre
        have ih' := ih (done ++ [p]) s' (cstep c.limit a p.cols) hQ' (by rw [hD]; rfl)
        rw [rest_cons, hs', show done ++ p :: ps = done ++ [p] ++ ps by simp]
        have hF : Fits c.limit a.2 ((p :: ps).map Param.cols) ↔ Fits c.limit (cstep c.limit a p.cols).2 (ps.map Param.cols) := by
          rw [List.map_cons, Fits]
          have hlt := hQ.lt
          have e1 : (fill c.limit a.2 p.cols = c.limit → p.cols = c.limit) := by
            unfold fill; split_ifs with h1
            · exact id
            · intro h; have := hfit h; omega
          have e2 : (if fill c.limit a.2 p.cols = c.limit then 0 else fill c.limit a.2 p.cols) = (cstep c.limit a p.cols).2 := by
            unfold fill cstep
            by_cases h1 : c.limit < a.2 + p.cols
            · rw [if_pos h1, if_pos h1.le]
              by_cases hpm : p.cols = c.limit
              · rw [if_pos hpm, hpm, Nat.mod_self]
              · rw [if_neg hpm, Nat.mod_eq_of_lt (by omega)]
            · rw [if_neg h1]
              by_cases h2 : a.2 + p.cols = c.limit
              · have := hfit h2
                have hpm : p.cols = c.limit := by omega
                rw [if_pos h2, if_pos h2.ge, hpm, Nat.mod_self]
              · rw [if_neg h2, if_neg (by omega)]
          rw [e2]
          exact ⟨fun h => h.2.2, fun h => ⟨hp, e1, h⟩⟩
        rw [hF]
        exact ih'
      · -- a non-empty bin is filled exactly
        push Not at hfit
        obtain ⟨h1, h2⟩ := hfit
        refine ⟨fun h => ?_, fun _ => ⟨.valueError, Or.inl rfl, ?_⟩⟩
        · rw [List.map_cons, Fits] at h
          have := h.2.1 (by unfold fill; rw [if_neg (by omega)]; exact h1)
          omega
        · rcases hQ.mode with ⟨g1, g2, -⟩ | ⟨-, -, -, g4⟩
          · rw [rest_cons]
            have hstep : c.dictStep bs s p = .ok { s with
                buf := fun r j => if r < bs ∧ s.ptr ≤ j ∧ j < s.ptr + p.cols then p.val r (j - s.ptr) else s.buf r j
                ptr := s.ptr + p.cols } := by
              unfold Chunked.dictStep
              rw [if_neg (by omega)]
              simp only [bind, Except.bind, pure, Except.pure]
              rw [if_neg (by omega)]
            rw [hstep]
            have hlt := hQ.lt
            refine rest_bad c bs hb _ ps a.2 (by simp only []; omega) ?_ (by omega)
            have hcs : (cstep c.limit a p.cols).1 = a.1 ++ [a.2] ++ List.replicate (p.cols / c.limit) c.limit := by
              unfold cstep; rw [if_pos h1.ge, if_pos (by omega)]
            rw [hcs] at hpre
            simp only []
            rw [prefix_getElem? hpre (by simp [g1]), g1]
            simp
          · exact absurd g4 h2
    · -- a parameter above the limit
      push Not at hp
      refine ⟨fun h => ?_, fun _ => ?_⟩
      · rw [List.map_cons, Fits] at h; omega
      · rw [rest_cons]
        have hfl : c.limit < s.ptr + p.cols := by omega
        have hidx : s.idx < c.dims.length := by
          have hq : 0 < p.cols / c.limit := Nat.div_pos hp.le hm
          have hl : a.1.length < (cstep c.limit a p.cols).1.length := by
            unfold cstep
            rw [if_pos (by omega)]
            split_ifs <;> simp <;> omega
          have hl2 := hpre.length_le
          rcases hQ.mode with ⟨g1, -, -⟩ | ⟨g1, g2, -, -⟩ <;> omega
        have herr : ∃ e, (e = .valueError ∨ e = .runtimeError) ∧ c.dictStep bs s p = .error e := by
          unfold Chunked.dictStep
          rw [if_pos hfl]
          cases hf : c.flush c.fbs s with
          | error e =>
            refine ⟨e, Or.inl ?_, rfl⟩
            unfold Chunked.flush at hf
            rw [List.getElem?_eq_getElem hidx] at hf
            simp only [] at hf
            split_ifs at hf
            injection hf with hf
            exact hf.symm
          | ok s' =>
            refine ⟨.runtimeError, Or.inr rfl, ?_⟩
            simp only [bind, Except.bind, pure, Except.pure]
            rw [if_pos (by omega)]
        obtain ⟨e, hee, he⟩ := herr
        exact ⟨e, hee, by rw [he]; rfl⟩

/-- **C32.** For a non-empty dictionary whose rows fit the buffer (`bs ≤ feature_batch_size`), with the chunk sizes computed by
`get_parameter_chunk_sizes` from the same parameter sizes: if the sizes fit (no size above the limit, no bin of several parameters filled
exactly), `dict_project` returns the same rows as `project` on the concatenated rows, whatever earlier calls left in the buffer; otherwise it
raises `ValueError` or `RuntimeError`. -/
theorem C32_dict_project (proj : ℕ → List ℝ → V) (m : ℕ) (hm : 0 < m) (fbs bs : ℕ) (hb : bs ≤ fbs) (ps : List Param) (hne : ps ≠ [])
    (fuel : ℕ) (D : List ℕ) (hD : chunkSizes fuel m (ps.map Param.cols) = some D) (hfuel : ∀ p ∈ ps, p.cols < fuel)
    (buf0 : ℕ → ℕ → ℝ) :
    (Fits m 0 (ps.map Param.cols) → Chunked.dictProject ⟨proj, m, D, fbs⟩ buf0 bs ps =
      .ok (Chunked.project ⟨proj, m, D, fbs⟩ ((List.range bs).map fun r => flatRow r ps))) ∧
    (¬ Fits m 0 (ps.map Param.cols) → ∃ e, (e = .valueError ∨ e = .runtimeError) ∧ Chunked.dictProject ⟨proj, m, D, fbs⟩ buf0 bs ps = .error e) := by
  have hD' : D = chunkFinish ((ps.map Param.cols).foldl (cstep m) ([], 0)) := by
    rw [chunkSizes_eq m hm fuel _ (by simpa using hfuel)] at hD
    injection hD with hD; exact hD.symm
  have hQ : Q (⟨proj, m, D, fbs⟩ : Chunked V) bs [] ⟨buf0, fun _ => 0, 0, 0⟩ ([], 0) := by
    refine ⟨hm, by simp, by simp, by simp [flatRow], Or.inl ⟨rfl, rfl, fun _ => rfl⟩, ?_, ?_⟩
    · intro r _; simp [flatRow]
    · intro r _; simp
  have hrest : Chunked.dictProject ⟨proj, m, D, fbs⟩ buf0 bs ps =
      (⟨proj, m, D, fbs⟩ : Chunked V).rest bs ⟨buf0, fun _ => 0, 0, 0⟩ ps := by
    unfold Chunked.dictProject Chunked.rest
    simp only [if_neg hne]
  obtain ⟨h1, h2⟩ := rest_spec (⟨proj, m, D, fbs⟩ : Chunked V) bs hb ps [] _ _ hQ hD'
  rw [hrest]
  refine ⟨fun h => ?_, h2⟩
  rw [h1 h]
  congr 1
  unfold Chunked.project slice
  simp

/-- **C32** (too many rows). A batch larger than `feature_batch_size` raises. -/
theorem C32_large_batch_raises (c : Chunked V) (bs : ℕ) (hb : c.fbs < bs) (ps : List Param) (hne : ps ≠ []) (buf0 : ℕ → ℕ → ℝ) :
    ∃ e, c.dictProject buf0 bs ps = .error e := by
  obtain ⟨p, l, rfl⟩ := List.exists_cons_of_ne_nil hne
  have herr : ∃ e, c.dictStep bs ⟨buf0, fun _ => 0, 0, 0⟩ p = .error e := by
    unfold Chunked.dictStep
    split_ifs with h
    · cases hf : c.flush c.fbs ⟨buf0, fun _ => 0, 0, 0⟩ with
      | error e => exact ⟨e, rfl⟩
      | ok s' =>
        refine ⟨.runtimeError, ?_⟩
        simp only [bind, Except.bind, pure, Except.pure]
        rw [if_pos (Or.inr hb)]
    · refine ⟨.runtimeError, ?_⟩
      simp only [bind, Except.bind, pure, Except.pure]
      rw [if_pos (Or.inr hb)]
  obtain ⟨e, he⟩ := herr
  refine ⟨e, ?_⟩
  unfold Chunked.dictProject
  rw [List.foldlM_cons, he]; rfl

/-! ## Examples -/

/-- Limit 10: sizes 4, 3, 9, 10, 2 fit; 4, 6 fills a bin exactly and does not. -/
example : Fits 10 0 [4, 3, 9, 10, 2] ∧ ¬ Fits 10 0 [4, 6] := by
  simp [Fits, fill]

example : chunkSizes 100 10 [4, 3, 9, 10, 2] = some [7, 9, 10, 2] := by decide

/-- A parameter of 25 with limit 10 is split into 10, 10 and a remainder. -/
example : chunkSizes 100 10 [4, 25, 3] = some [4, 10, 10, 8] := by decide

/-- The constructor closes the first chunk at 4, the dictionary loop only at 10. -/
example : chunkSizes 100 10 [4, 6] = some [4, 6] := by decide

example : maxChunk 32 = some 67108863 := by decide

end Verif.Projection
