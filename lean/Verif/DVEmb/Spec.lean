import Verif.DVEmb.Model

/-!
# Specification of the data value embeddings

Independent of the dictionaries and of the backward recursion used by the code.
-/

namespace Verif.DVEmb

open Verif Matrix

variable {K : Type} [Field K] {d : ℕ}

/-- The step size per sample: learning rate over batch size. -/
def Call.eta (c : Call K d) : K := c.lr / (c.idx.length : K)

/-- **Specification.**  Carry a displacement `δ` of the parameters through the later steps of the
linearised run: each step subtracts `eta * H δ`, `H` the sum of outer products of its gradients. -/
def propagate : List (Call K d) → (Fin d → K) → (Fin d → K)
  | [], δ => δ
  | c :: rest, δ => propagate rest (δ - c.eta • (c.g.map fun x => (x ⬝ᵥ δ) • x).sum)

/-- **Specification.**  Embedding of sample `i` in epoch `e` of a chronological run: the sum over
the steps of that epoch and the positions of `i` in the step's batch of `eta * gradient` carried
through all later steps. -/
def specEmb (e : ℤ) (i : ℕ) : List (Call K d) → (Fin d → K)
  | [] => 0
  | c :: rest =>
    (if c.epoch = e then
      (((c.idx.zip c.g).filter fun p => p.1 = i).map fun p => propagate rest (c.eta • p.2)).sum
     else 0) + specEmb e i rest

/-- The largest sample index of a run plus one. -/
def IsCount (calls : List (Call K d)) (num : ℕ) : Prop :=
  (∀ c ∈ calls, ∀ i ∈ c.idx, i < num) ∧ ∃ c ∈ calls, ∃ i ∈ c.idx, num = i + 1

/-- `chron` is the run in chronological order: sorted by epoch, calls of one epoch in call order. -/
def Chronological (calls chron : List (Call K d)) : Prop :=
  chron.Pairwise (fun a b => a.epoch ≤ b.epoch) ∧
    ∀ e, chron.filter (·.epoch = e) = calls.filter (·.epoch = e)

/-- Each call gives at least one index and as many indices as gradient rows. -/
def WellFormed (calls : List (Call K d)) : Prop :=
  ∀ c ∈ calls, c.idx ≠ [] ∧ c.idx.length = c.g.length

end Verif.DVEmb
