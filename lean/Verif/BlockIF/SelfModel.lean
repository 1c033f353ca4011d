import Verif.BlockIF.IFModel

/-!
# Block-projected influence functions: self-influence

Models `compute_self_attribution`
(`dattri/algorithm/block_projected_if/block_projected_if.py`, lines 606-679) on the in-memory storage.
-/

namespace Verif.BlockIF

open Verif

variable {K : Type} [Field K] {L : ℕ} {d : Fin L → ℕ}

/-- `torch.sum(batch_grad * batch_ifvp, dim=1)` (block_projected_if.py:674): the row numbers must
agree, or one of them be 1. -/
def rowDots (a b : List (Row K d)) : Except Err (List K) :=
  if a.length = b.length then .ok (List.zipWith dot a b)
  else if a.length = 1 then .ok (b.map fun r => dot (a.getD 0 0) r)
  else if b.length = 1 then .ok (a.map fun r => dot r (b.getD 0 0))
  else .error .runtimeError

/-- `self_influence[a:b] = values` (block_projected_if.py:675). -/
def assignVec (S : ℕ → K) (a b : ℤ) (v : List K) : Except Err (ℕ → K) :=
  if bcast v.length (b - a).toNat then
    .ok fun i => if a ≤ i ∧ (i : ℤ) < b then v.getD (if v.length = 1 then 0 else (i - a).toNat) 0
      else S i
  else .error .runtimeError

/-- The loops (block_projected_if.py:645-677): the two loaders are zipped, so chunks beyond the
shorter one are ignored; a batch is looked up in the chunk of the same position only. -/
def selfLoop (mp : List (ℕ × (ℤ × ℤ))) (gs fs : List (List (Row K d) × List (ℕ × ℕ × ℕ)))
    (S : ℕ → K) : Except Err (ℕ → K) :=
  (gs.zip fs).foldlM (fun S c =>
    c.1.2.foldlM (fun S e =>
      match PyDict.get? mp e.1, PyDict.get? c.2.2 e.1 with
      | some r, some e' =>
        match rowDots (rowsOf c.1.1 e.2.1 e.2.2) (rowsOf c.2.1 e'.1 e'.2) with
        | .ok v => assignVec S r.1 r.2 v
        | .error e => .error e
      | _, _ => .ok S) S) S

/-- `compute_self_attribution` (block_projected_if.py:606-679): number of samples and scores. -/
def selfAttribution (h : Hessian) (st0 : St K d) : St K d × Except Err (ℕ × (ℕ → K)) :=
  let st := st0.sync
  match (if st.ifvp ≠ [] then (st, .ok ()) else computeIfvp h st) with
  | (st1, .error e) => (st1, .error e)
  | (st1, .ok ()) =>
    (st1, (selfLoop st1.md.mapping (chunks 4 st1.grads) (chunks 4 st1.ifvp) (fun _ => 0)).map
      fun S => (st1.md.totalSamples.toNat, S))

end Verif.BlockIF
