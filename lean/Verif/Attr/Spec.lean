import Verif.Attr.Model

/-!
# What the inner-product attributor is supposed to return (specification, independent of the loops)
-/

namespace Verif.Attr

variable {R X C : Type} {p d : Nat}

/-- Score of one (train, test) pair at one checkpoint. -/
def score [Field R] (S : Sub R X C p d) (full : Loader X) (m : Option String) (c : C) (x y : X) : R :=
  match m with
  | none => ∑ k, S.transTrain c (S.genTrain c x) k * S.transTest c full (S.genTest c y) k
  | some m => (∑ k, S.transTrain c (S.genTrain c x) k * S.transTest c full (S.genTest c y) k)
      / S.denom c full m (S.genTrain c x) (if m = "l" then some (S.genTest c x) else none)

/-- Last loader passed to `cache` in a history. -/
def lastCache : List (Op X) → Option (Loader X)
  | [] => none
  | .cache f :: ops => some ((lastCache ops).getD f)
  | _ :: ops => lastCache ops

/-- Training loader of the first attribution call in a history. -/
def firstTrain : List (Op X) → Option (Loader X)
  | [] => none
  | .cache _ :: ops => firstTrain ops
  | .attribute _ tr _ :: _ => some tr
  | .selfAttribute _ tr :: _ => some tr

end Verif.Attr
