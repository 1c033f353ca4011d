import Verif.Compress.Model

/-!
# Optional parameters of the compressor set-up

`setup_model_compressors` of `/repo/dattri/algorithm/block_projected_if/core/compressor.py` (lines 213-412) with all its optional arguments; `setup` in
`Compress/Model` is the case in which all are given.  Of the parameters of a stage only the seed is kept, as in `Compress/Model`.
-/

namespace Verif.Compress

open Verif

/-- One turn of the loop (compressor.py:319-410). Absent parameters were replaced by an empty dictionary, which has no `model_copy` (lines 260, 267, 329, 370). -/
def setupStepOpt (names : List String) (s p : Option ℤ) (acc : List (Option Seeds)) (m : Module × ℕ) : Except Err (List (Option Seeds)) :=
  if m.1.name ∈ names then
    match s with
    | none => .error .attributeError
    | some s =>
      if m.1.kind = .other then .error .valueError
      else if m.1.complete then
        match p with
        | none => .error .attributeError
        | some p => .ok (acc.set (indexOf names m.1.name) (some (seedsOf s p m.2)))
      else .ok acc
  else .ok acc

/-- `setup_model_compressors` (compressor.py:239-267, 319-412); `sample` says whether sample inputs are given. The sample passes themselves (269-314) are in the
field `ran` of the modules. -/
def setupOpt (net : List Module) (names : List String) (sample : Bool) (s p : Option ℤ) : Except Err (List (Option Seeds)) :=
  if sample = false then .ok []
  else if s = none ∧ p = none then .ok (List.replicate names.length none)
  else net.zipIdx.foldlM (setupStepOpt names s p) (List.replicate names.length none)

/-- `BlockProjectedIFAttributor._setup_compressors` (block_projected_if.py:158-185) with the defaults of the constructor (95-105); `batches` is the number of
batches of the loader, `next` of an empty one raises `StopIteration`. -/
def attributorSetup (net : List Module) (names : List String) (batches : ℕ) (s p : Option ℤ) : Except Err (List (Option Seeds)) :=
  if batches = 0 then .error .stopIteration else setupOpt net names true (some (s.getD 0)) (some (p.getD 0))

end Verif.Compress
