import Verif.Attr.BatchModel

/-!
# Specification for C227: presented batches and what the user's functions should receive
-/

namespace Verif.BatchKind

/-- How a loader presents a batch. -/
inductive Kind
  | tup
  | lst
  | dct (names : ℕ → String)

/-- Specification: a batch of samples with `width` items each, presented as `kind`. -/
structure SB (α : Type) where
  kind : Kind
  width : ℕ
  samples : List (ℕ → α)

variable {α : Type}

/-- The structure with the value `v j` for the `j`-th item of the samples. -/
def present {β : Type} (kind : Kind) (k : ℕ) (v : ℕ → β) : Struct β :=
  match kind with
  | .tup => .tup ((List.range k).map v)
  | .lst => .lst ((List.range k).map v)
  | .dct names => .dct ((List.range k).map fun j : ℕ => (.str (names j), v j))

/-- The structure the user's functions get: a tuple for tuples and lists, a dict with the same keys for dicts. -/
def handed {β : Type} (kind : Kind) (k : ℕ) (v : ℕ → β) : Struct β :=
  match kind with
  | .tup | .lst => .tup ((List.range k).map v)
  | .dct names => .dct ((List.range k).map fun j : ℕ => (.str (names j), v j))

/-- What the loader yields for the batch: for each item the tensor of its values for all samples. -/
def SB.batch (b : SB α) : Struct (Item α) := present b.kind b.width fun j => .ten (b.samples.map fun s => s j)

/-- The gradient of `f` for each sample by itself, with a leading axis of length one (influence functions). -/
def SB.dummyGrads (f : Fn) (b : SB α) : List (Call α) :=
  b.samples.map fun s => ⟨.grad, f, .inl (handed b.kind b.width fun j => .axis [s j])⟩

/-- The gradient of `f` for each sample by itself, without a leading axis (TracIn, TRAK). -/
def SB.plainGrads (f : Fn) (b : SB α) : List (Call α) :=
  b.samples.map fun s => ⟨.grad, f, .inl (handed b.kind b.width fun j => .one (s j))⟩

/-- One use of `f` on all samples of the batch. -/
def SB.whole (u : Use) (f : Fn) (b : SB α) : Call α :=
  ⟨u, f, .inl (handed b.kind b.width fun j => .axis (b.samples.map fun s => s j))⟩

/-- The kind of a batch is a dict. -/
def Kind.isDict : Kind → Bool
  | .dct _ => true
  | _ => false

/-- What the loss gets for one draw of LiSSA: the drawn samples of the batch, converted to floating point, in a tuple. -/
def SB.drawn [Inhabited α] (float : α → α) (idx : List ℕ) (b : SB α) : Call α :=
  ⟨.hess, .loss, .inl (.tup ((List.range b.width).map fun j : ℕ => .axis (idx.map fun i : ℕ => float (b.samples.getD i default j))))⟩

end Verif.BatchKind
