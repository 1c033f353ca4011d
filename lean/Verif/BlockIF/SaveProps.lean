import Verif.BlockIF.SaveModel

/-!
# Saving the metadata is crash-atomic (property C59)
-/

namespace Verif.BlockIF.Save

variable {β : Type}

theorem exec_append (fs : FS β) (a b : List (Op β)) : exec fs (a ++ b) = exec (exec fs a) b :=
  List.foldl_append

theorem exec_writes (chunks : List (List β)) (fs : FS β) (c : List β) (h : fs.temp = some c) :
    exec fs (chunks.map .write) = { fs with temp := some (c ++ chunks.flatten) } := by
  induction chunks generalizing fs c with
  | nil => simp [exec, ← h]
  | cons s chunks ih =>
    have := ih (step fs (.write s)) (c ++ s) (by simp [step, h])
    unfold exec at this ⊢
    rw [List.map_cons, List.foldl_cons, this]
    simp [step]

/-- **C59 (complete save).** A save that runs to its end leaves the complete new text, whatever
was there before, and no temporary file. -/
theorem C59_complete (fs : FS β) (chunks : List (List β)) :
    exec fs (saveOps chunks) = { main := some chunks.flatten, temp := none } := by
  have h1 : exec (step fs .trunc) (chunks.map .write) =
      { main := fs.main, temp := some chunks.flatten } := by
    rw [exec_writes chunks _ [] rfl]; simp [step]
  unfold saveOps
  have h2 : exec fs (.trunc :: (chunks.map .write ++ [.rename])) =
      exec (exec (step fs .trunc) (chunks.map .write)) [.rename] := by
    rw [← exec_append]; rfl
  rw [h2, h1]
  rfl

theorem main_writes (chunks : List (List β)) (fs : FS β) :
    (exec fs (chunks.map .write)).main = fs.main := by
  induction chunks generalizing fs with
  | nil => rfl
  | cons s chunks ih =>
    have := ih (step fs (.write s))
    unfold exec at this ⊢
    rw [List.map_cons, List.foldl_cons, this]
    rfl

/-- **C59 (crash).** Whatever the old content, the new text and its division into pieces, at every
crash point the metadata file is the complete old one, or - only once all calls have been made - the
complete new one. -/
theorem C59_crash (fs : FS β) (chunks : List (List β)) (n : ℕ) :
    (exec fs ((saveOps chunks).take n)).main =
      if n < (saveOps chunks).length then fs.main else some chunks.flatten := by
  by_cases hn : n < (saveOps chunks).length
  · rw [if_pos hn]
    rcases n with _ | n
    · rfl
    · unfold saveOps at hn ⊢
      simp only [List.length_cons, List.length_append, List.length_map, List.length_nil] at hn
      rw [List.take_succ_cons, List.take_append_of_le_length (by simp; omega), ← List.map_take]
      have := main_writes (chunks.take n) (step fs .trunc)
      unfold exec at this ⊢
      rw [List.foldl_cons, this]
      rfl
  · rw [if_neg hn, List.take_of_length_le (by omega), C59_complete]

/-- **C59 (failing call).** If some call raises before the rename has taken place, the metadata file
keeps its old content and the temporary file is gone; this also holds if the process dies before the
clean-up. -/
theorem C59_failure (fs : FS β) (chunks : List (List β)) (n : ℕ)
    (hn : n < (saveOps chunks).length) :
    exec fs (failOps chunks n) = { main := fs.main, temp := none } := by
  unfold failOps
  rw [exec_append]
  have := C59_crash fs chunks n
  rw [if_pos hn] at this
  rw [← this]
  rfl

/-- **C59 (recovery).** A save after any crash of an earlier one produces the complete new text: the
left-over temporary file does no harm. -/
theorem C59_recovery (fs : FS β) (chunks chunks' : List (List β)) (n : ℕ) :
    (exec (exec fs ((saveOps chunks).take n)) (saveOps chunks')).main = some chunks'.flatten := by
  rw [C59_complete]

/-- `c` is an interleaving of `a` and `b`: both keep their own order. -/
inductive Interleave {α : Type} : List α → List α → List α → Prop
  | nil : Interleave [] [] []
  | left {a b c} (x : α) : Interleave a b c → Interleave (x :: a) b (x :: c)
  | right {a b c} (x : α) : Interleave a b c → Interleave a (x :: b) (x :: c)

/-- **C59 (two writers).** The guarantee is for one writer: all attributors without a cache directory
share one temporary path, and two of them saving at the same time can publish a file that is neither
version.  Here the second opens the temporary file just before the first renames it. -/
theorem C59_two_writers (fs : FS β) (a b : List β) (ha : a ≠ []) (hb : b ≠ []) :
    ∃ ops : List (Op β),
      (∃ rest, Interleave (saveOps [a]) (saveOps [b]) (ops ++ rest)) ∧
      (exec fs ops).main ≠ some a ∧ (exec fs ops).main ≠ some b ∧ (exec fs ops).main = some [] := by
  refine ⟨[.trunc, .write a, .trunc, .rename], ⟨[.write b, .rename], ?_⟩, ?_, ?_, ?_⟩
  · exact .left _ (.left _ (.right _ (.left _ (.right _ (.right _ .nil)))))
  · simpa [exec, step] using Ne.symm ha
  · simpa [exec, step] using Ne.symm hb
  · simp [exec, step]

/-! ### Concrete cases -/

example : (exec ⟨some [1, 2], none⟩ ((saveOps [[7], [8, 9]]).take 3)).main = some [1, 2] ∧
    (exec ⟨some [1, 2], none⟩ (saveOps [[7], [8, 9]])).main = some [7, 8, 9] := by decide

example : exec ⟨some [1, 2], none⟩ (failOps [[7], [8, 9]] 2) = ⟨some [1, 2], none⟩ := by
  exact C59_failure _ _ _ (by decide)

end Verif.BlockIF.Save
