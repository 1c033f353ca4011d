import Verif.Hook.Model

/-!
# Hooks across calls of the block-projected attributors of one model

`cache` and `attribute` of `/repo/dattri/algorithm/block_projected_if/block_projected_if.py` create a
manager if the attributor has none, run forward and backward passes, remove the hooks and drop the manager
(lines 228-236, 310-312 and 834-842, 901-903).  There is no `try`/`finally`: an exception in between leaves
the attributor with its manager.  Attributors made from one task share the model object
(`task.get_model()`, line 112); attributor `a` has the layers `names a`.
-/

namespace Verif.Hook

/-- How a call ends. -/
inductive How where
  /-- it raises before the manager is looked at (or never looks at it) -/
  | before
  /-- it raises while the batches are processed, or before the hooks are removed -/
  | during
  /-- it gets past the removal of the hooks -/
  | past
  deriving DecidableEq

/-- The model with its managers, and the `hook_manager` of every attributor. -/
structure World where
  st : St
  hm : ℕ → Option ℕ

/-- Before the first call. -/
def World.init : World := ⟨St.init, fun _ => none⟩

/-- The manager an attributor uses for a call, created if it has none (block_projected_if.py:229-236,
835-842). -/
def ensure (net : Net) (names : ℕ → List String) (w : World) (a : ℕ) : St × ℕ :=
  match w.hm a with
  | some m => (w.st, m)
  | none => (construct net w.st (names a) true, w.st.mgrs.length)

/-- `self.hook_manager.remove_hooks()` (block_projected_if.py:311, 902). -/
def removeAt (net : Net) (st : St) (m : ℕ) : St :=
  match st.mgrs[m]? with
  | none => st
  | some g => remove net st m g

/-- One call of attributor `a` (block_projected_if.py:208-321 or 681-813). -/
def World.call (net : Net) (names : ℕ → List String) (w : World) (c : ℕ × How) : World :=
  match c.2 with
  | .before => w
  | .during => ⟨(ensure net names w c.1).1, Function.update w.hm c.1 (some (ensure net names w c.1).2)⟩
  | .past => ⟨removeAt net (ensure net names w c.1).1 (ensure net names w c.1).2,
      Function.update w.hm c.1 none⟩

/-- A history of calls; exceptions are caught by the user. -/
def World.run (net : Net) (names : ℕ → List String) (w : World) (h : List (ℕ × How)) : World :=
  h.foldl (World.call net names) w

end Verif.Hook
