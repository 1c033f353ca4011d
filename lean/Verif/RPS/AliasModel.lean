import Verif.RPS.Model

/-!
# Which tensor RPS stores as its fine-tuned weights

`rps_finetune_theta` starts from a `Variable` made of `weight.data` of the model's final layer (rps.py:90, utils.py:132), which shares its storage
with the layer if no copy to another device is needed, and returns the `.data` of one of its iterates (utils.py:146-154). A tensor is therefore a value
together with a flag whether it is the storage of the model's layer; reading a tensor with the flag gives what the layer holds at that time.
-/

namespace Verif.RPS

variable {V X : Type} {p c : ℕ}

/-- A tensor: whether it shares the storage of the model's layer, and its value when it was made. -/
abbrev Ref (V : Type) := Bool × V

/-- `rps_finetune_theta` with tensors (utils.py:130-165): the line search makes new tensors (utils.py:85). `same` says whether
`init_theta.to(device)` needs no copy. -/
noncomputable def finetuneRef (m : V → Option ℝ) (next : V → V) (numEpoch : ℕ) (same : Bool) (init : V) : Except Err (Ref V) :=
  finetune (fun t : Ref V => m t.2) (fun t : Ref V => (false, next t.2)) numEpoch (same, init)

/-- The same for the attributor's objective (rps.py:81-99, 134-154). -/
noncomputable def Attributor.tuneRef (A : Attributor X p c) (same : Bool) (xs : List X) : Except Err (Ref (Theta p c)) :=
  let F := fun i : Fin xs.length => A.feat xs[i]
  let T := fun i : Fin xs.length => activate (A.out xs[i])
  finetuneRef (fun θ => meanAbs (objGrad A.loss A.lam F T θ))
    (fun θ => ((lineSearch (objective A.loss A.lam F T) (objGrad A.loss A.lam F T θ) θ (objective A.loss A.lam F T θ) 38).map Prod.snd).getD θ)
    A.epochs same A.weight

/-- What a stored tensor holds when the model is `A`. -/
def Attributor.read (A : Attributor X p c) (t : Ref (Theta p c)) : Theta p c := if t.1 then A.weight else t.2

/-- State: whether `cache` has been called, and the tensor `finetuned_theta`. -/
structure RefSt (p c : ℕ) where
  cached : Bool
  theta : Option (Ref (Theta p c))

/-- `cache` (rps.py:71-99). -/
noncomputable def Attributor.cacheRef (A : Attributor X p c) (same : Bool) (s : RefSt p c) (full : List (List X)) : RefSt p c × Except Err Unit :=
  match layerIO full >>= A.tuneRef same with
  | .error e => ({ s with cached := true }, .error e)
  | .ok t => (⟨true, some t⟩, .ok ())

/-- `attribute` (rps.py:101-182) with the model `A` as it is at the time of the call. -/
noncomputable def Attributor.attributeRef (A : Attributor X p c) (same : Bool) (s : RefSt p c) (train test : List (List X)) :
    RefSt p c × Except Err (List (List (Option ℝ))) :=
  match layerIO train with
  | .error e => (s, .error e)
  | .ok xs =>
    let finish (s : RefSt p c) : RefSt p c × Except Err (List (List (Option ℝ))) :=
      match layerIO test with
      | .error e => (s, .error e)
      | .ok zs =>
        match s.theta with
        | none => (s, .error .attributeError)
        | some t => (s, A.scores (A.read t) xs zs)
    if s.cached then finish s
    else
      match A.tuneRef same xs with
      | .error e => (s, .error e)
      | .ok t => finish { s with theta := some t }

end Verif.RPS
