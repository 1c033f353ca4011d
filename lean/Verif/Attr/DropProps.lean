import Verif.Attr.DropModel
import Verif.Attr.Props
import Verif.TracIn.Props

/-!
# C164: inner-product attributors and TracIn with loaders that drop the last incomplete batch
-/

namespace Verif.Attr

variable {R X C : Type} {p d : Nat} [Field R]

/-- **C164.** The result for loaders that may drop their last incomplete batch has a row for every sample of the train sampler and a column
for every sample of the test sampler. It is the matrix for the loaders restricted to the yielded samples (also as full training data),
padded with zeros: a dropped training sample gets the score 0 for every test sample. -/
theorem C164_inner_product [CharZero R] (S : Sub R X C p d) (ckpts : List C) (st : Option (DLoader X)) (m : Option String)
    (tr te : DLoader X) (h1 : 0 < tr.bs) (h2 : 0 < te.bs) (hm : ∀ s, m = some s → S.methodOk s = true) :
    ∃ M Ms, attributeD S ckpts st m tr te = .ok M ∧
      (attribute' S ckpts (st.map DLoader.seen) m tr.seen te.seen).2 = .ok Ms ∧
      M.r = tr.data.length ∧ M.c = te.data.length ∧ Ms.r = tr.kept ∧ Ms.c = te.kept ∧
      ∀ i < tr.data.length, ∀ j < te.data.length, M.f i j = if i < tr.kept ∧ j < te.kept then Ms.f i j else 0 := by
  obtain ⟨Ms, es, rs, cs, fs⟩ := C05_attribute_entry S ckpts (st.map DLoader.seen) m tr.seen te.seen h1 h2 rfl rfl hm
  have hfull : (st.map DLoader.seen).getD tr.seen = (st.getD tr).seen := by cases st <;> rfl
  have hb : ¬ (badMethod S m = true ∧ 0 < tr.nb) := by
    cases m with
    | none => simp [badMethod]
    | some s => simp [badMethod, hm s rfl]
  have key : ∀ cl : List C, ∃ M, cl.zipIdx.foldlM (fun M ci => do
      let M := Mat.scale M (ci.2 : R)
      let M ← trainLoopD S (st.getD tr).seen ci.1 m tr te M
      pure (Mat.divBy M ((ci.2 + 1 : Nat) : R))) (Mat.zeros tr.data.length te.data.length) = Except.ok (ε := Err) M ∧
      M.r = tr.data.length ∧ M.c = te.data.length ∧
      ∀ i (hi : i < tr.data.length) j (hj : j < te.data.length), M.f i j = if i < tr.kept ∧ j < te.kept then
        (cl.map (fun c => score S (st.getD tr).seen m c tr.data[i] te.data[j])).sum / (cl.length : R) else 0 := by
    intro cl
    induction cl using List.reverseRecOn with
    | nil => exact ⟨_, rfl, rfl, rfl, by simp [Mat.zeros]⟩
    | append_singleton cl c ih =>
      obtain ⟨M, e, hr, hc, hf⟩ := ih
      obtain ⟨M', e', hr', hc', hf'⟩ := pairLoopD_spec tr te (block S (st.getD tr).seen c m)
        (fun x y => score S (st.getD tr).seen m c x y) (fun _ _ => rfl) (fun _ _ => rfl) (by
          intro a b i j x y hx hy
          simp only [block, hx, hy]
          cases m <;> rfl) h1 h2 (Mat.scale M (cl.length : R)) hr hc
      refine ⟨Mat.divBy M' ((cl.length + 1 : Nat) : R), ?_, hr', hc', fun i hi j hj => ?_⟩
      · rw [List.zipIdx_append, List.foldlM_append, e]
        simp only [List.zipIdx_singleton, List.foldlM_cons, List.foldlM_nil, Nat.zero_add, bind, Except.bind, pure,
          Except.pure, trainLoopD, if_neg hb, e']
      · simp only [Mat.divBy, List.map_append, List.map_cons, List.map_nil, List.sum_append, List.sum_cons, List.sum_nil,
          add_zero, List.length_append, List.length_cons, List.length_nil, Nat.zero_add]
        rw [hf' i hi j hj]
        simp only [Mat.scale]
        rw [hf i hi j hj]
        by_cases hk : i < tr.kept ∧ j < te.kept
        · simp only [if_pos hk]
          congr 2
          by_cases h0 : cl = []
          · subst h0; simp
          · have : (cl.length : R) ≠ 0 := by
              rw [Nat.cast_ne_zero]; exact fun h => h0 (List.length_eq_zero_iff.1 h)
            field_simp
        · simp [if_neg hk]
  obtain ⟨M, e, r, c, f⟩ := key ckpts
  refine ⟨M, Ms, e, es, r, c, by rw [rs, tr.seen_length], by rw [cs, te.seen_length], fun i hi j hj => ?_⟩
  rw [f i hi j hj]
  by_cases hk : i < tr.kept ∧ j < te.kept
  · rw [if_pos hk, if_pos hk, fs i (by rw [tr.seen_length]; exact hk.1) j (by rw [te.seen_length]; exact hk.2), hfull,
      tr.seen_get i _ hi, te.seen_get j _ hj]
  · rw [if_neg hk, if_neg hk]

/-- A concrete case: of three training samples in batches of two the last is dropped and scores 0. -/
example : ∃ M, attributeD demo [1, 2] (some ⟨[5, 7, 9], 2, true⟩) none ⟨[1, 2, 3], 2, true⟩ ⟨[4, 5], 1, false⟩ = .ok M ∧
    M.r = 3 ∧ M.f 1 1 = 50 ∧ M.f 2 1 = 0 := by
  obtain ⟨M, Ms, e, es, r, c, -, -, f⟩ := C164_inner_product demo [1, 2] (some ⟨[5, 7, 9], 2, true⟩) none ⟨[1, 2, 3], 2, true⟩
    ⟨[4, 5], 1, false⟩ (by norm_num) (by norm_num) (by simp)
  refine ⟨M, e, r, ?_, ?_⟩
  · obtain ⟨Ms', es', -, -, fs⟩ := C05_attribute_entry demo [1, 2] ((some ⟨[5, 7, 9], 2, true⟩ : Option (DLoader ℚ)).map DLoader.seen)
      none (DLoader.seen ⟨[1, 2, 3], 2, true⟩) (DLoader.seen ⟨[4, 5], 1, false⟩) (by norm_num [DLoader.seen]) (by norm_num [DLoader.seen])
      rfl rfl (by simp)
    rw [es] at es'
    cases es'
    rw [f 1 (by norm_num) 1 (by norm_num), if_pos (by simp [DLoader.kept]), fs 1 (by norm_num [DLoader.seen, DLoader.kept]) 1
      (by norm_num [DLoader.seen, DLoader.kept])]
    simp [score, demo, DLoader.seen, DLoader.kept]
    norm_num
  · rw [f 2 (by norm_num) 1 (by norm_num), if_neg (by simp [DLoader.kept])]

end Verif.Attr

namespace Verif.TracIn

variable {X C : Type} {d : Nat}

/-- **C164.** The same for TracIn. -/
theorem C164_tracin (A : Attributor X C d) (tr te : DLoader X) (hl : A.ckpts.length = A.weights.length)
    (h1 : 0 < tr.bs) (h2 : 0 < te.bs) :
    ∃ M Ms, attributeD A tr te = .ok M ∧ attribute' A tr.seen te.seen = .ok Ms ∧
      M.r = tr.data.length ∧ M.c = te.data.length ∧ Ms.r = tr.kept ∧ Ms.c = te.kept ∧
      ∀ i < tr.data.length, ∀ j < te.data.length, M.f i j = if i < tr.kept ∧ j < te.kept then Ms.f i j else 0 := by
  obtain ⟨Ms, es, rs, cs, fs⟩ := C09_tracin_entry A tr.seen te.seen hl h1 h2 rfl rfl
  have key : ∀ (l : List (C × ℝ)) (M : Mat ℝ), M.r = tr.data.length → M.c = te.data.length →
      ∃ M', l.foldlM (fun M cw => pairLoopD tr te (block A cw.1 cw.2) M) M = .ok M' ∧ M'.r = tr.data.length ∧
        M'.c = te.data.length ∧ ∀ i (hi : i < tr.data.length) j (hj : j < te.data.length),
          M'.f i j = if i < tr.kept ∧ j < te.kept then
            M.f i j + (l.map (fun cw => cw.2 * pairScore A cw.1 tr.data[i] te.data[j])).sum else M.f i j := by
    intro l
    induction l with
    | nil => intro M hr hc; exact ⟨M, rfl, hr, hc, by simp⟩
    | cons cw l ih =>
      intro M hr hc
      obtain ⟨M1, e1, r1, c1, f1⟩ := pairLoopD_spec tr te (block A cw.1 cw.2)
        (fun x y => cw.2 * pairScore A cw.1 x y) (fun _ _ => rfl) (fun _ _ => rfl) (by
          intro a b i j x y hx hy
          simp only [block, hx, hy, pairScore, ip, nrm, normalize]
          split
          · rw [mul_comm cw.2, Finset.sum_div]
            congr 1
            apply Finset.sum_congr rfl
            intro k _
            rw [div_mul_div_comm]
          · rw [mul_comm]) h1 h2 M hr hc
      obtain ⟨M2, e2, r2, c2, f2⟩ := ih M1 r1 c1
      refine ⟨M2, ?_, r2, c2, fun i hi j hj => ?_⟩
      · rw [List.foldlM_cons, e1]; exact e2
      · rw [f2 i hi j hj, f1 i hi j hj, List.map_cons, List.sum_cons]
        split_ifs
        · rw [add_assoc]
        · rfl
  obtain ⟨M, e, r, c, f⟩ := key (A.ckpts.zip A.weights) (Mat.zeros tr.data.length te.data.length) rfl rfl
  refine ⟨M, Ms, ?_, es, r, c, by rw [rs, tr.seen_length], by rw [cs, te.seen_length], fun i hi j hj => ?_⟩
  · unfold attributeD; rw [if_neg (by simpa using hl), e]
  · rw [f i hi j hj]
    by_cases hk : i < tr.kept ∧ j < te.kept
    · rw [if_pos hk, if_pos hk, fs i (by rw [tr.seen_length]; exact hk.1) j (by rw [te.seen_length]; exact hk.2),
        tr.seen_get i _ hi, te.seen_get j _ hj]
      simp [Mat.zeros]
    · rw [if_neg hk, if_neg hk]; rfl

/-- A concrete case: two checkpoints, the last of three training samples is dropped. -/
example : ∃ M, attributeD (⟨fun c x _ => c * x, fun c x _ => c * x, [1, 2], [1, 1], false⟩ : Attributor ℝ ℝ 1)
    ⟨[1, 2, 3], 2, true⟩ ⟨[4], 1, true⟩ = .ok M ∧ M.r = 3 ∧ M.f 2 0 = 0 := by
  obtain ⟨M, Ms, e, -, r, -, -, -, f⟩ := C164_tracin (⟨fun c x _ => c * x, fun c x _ => c * x, [1, 2], [1, 1], false⟩ : Attributor ℝ ℝ 1)
    ⟨[1, 2, 3], 2, true⟩ ⟨[4], 1, true⟩ rfl (by norm_num) (by norm_num)
  refine ⟨M, e, r, ?_⟩
  rw [f 2 (by norm_num) 0 (by norm_num), if_neg (by simp [DLoader.kept])]

end Verif.TracIn
