import Mathlib.Data.Fintype.Perm
import Mathlib.Data.Rat.Defs
import Mathlib.Algebra.BigOperators.Group.Finset.Basic
import Mathlib.Algebra.Order.Field.Rat
import Mathlib.Data.Nat.Factorial.Basic

/-!
# Specification: Shapley values and the KNN utility

Textbook definitions, independent of the code model.
-/

namespace Verif.KNN

open Finset Equiv

variable {N : ℕ}

/-- Players that arrive before `i` when player `j` arrives at position `π j`. -/
def pred (π : Perm (Fin N)) (i : Fin N) : Finset (Fin N) := univ.filter (fun j => π j < π i)

/-- The Shapley value of player `i` in the game `v`: the marginal contribution averaged over all arrival orders. -/
def shapley (v : Finset (Fin N) → ℚ) (i : Fin N) : ℚ :=
  (∑ π : Perm (Fin N), (v (insert i (pred π i)) - v (pred π i))) / (N.factorial : ℚ)

/-- The KNN utility of a coalition `S` for one test point: the number of label-matching members of `S` that have fewer than
`K` strictly closer members in `S`, divided by `K`. -/
def knnUtility (K : ℕ) (closer : Fin N → Fin N → Prop) [DecidableRel closer] (mtch : Fin N → Bool)
    (S : Finset (Fin N)) : ℚ :=
  ((S.filter (fun i => mtch i = true ∧ (S.filter (fun j => closer j i)).card < K)).card : ℚ) / K

end Verif.KNN
