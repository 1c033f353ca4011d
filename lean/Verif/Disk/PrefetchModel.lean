import Mathlib.Data.List.Range
import Verif.Disk.ReadModel

/-!
# The prefetching data set as a transition system

Models `AsyncPrefetchDataset`
(`/repo/dattri/algorithm/block_projected_if/offload/disk_io/prefetch_dataset.py:24-308`) over a given
list of chunks (`chunkInfo`): one reading thread (`num_workers=0`), one prefetch thread and somebody who
rewrites the files.  Every access under a lock is one step; loading a file is one step.  Sleeps and
logging are left out.  `_prefetch_queue` is never used by the code.
-/

namespace Verif.Disk.Prefetch

variable {R : Type}

/-- Where the prefetch thread is (prefetch_dataset.py:202-230). -/
inductive WPc (R : Type)
  /-- at the head of the loop (line 206) -/
  | top
  /-- in `_get_prefetch_indices` with the index read in line 210, `i` positions done (lines 155-161) -/
  | scan (c : ℤ) (i : ℕ) (acc : List ℤ)
  /-- at the head of the loop over the indices (line 216) -/
  | load (c : ℤ) (todo : List ℤ)
  /-- loaded, about to enter the cache (line 188) -/
  | insert (c : ℤ) (idx : ℤ) (x : Item R) (todo : List ℤ)
  | ended

/-- Where the reading thread is (prefetch_dataset.py:240-300). -/
inductive FPc (R : Type)
  | idle
  /-- before the look into the cache (line 266) -/
  | check (idx : ℤ)
  /-- before the synchronous load (line 273) -/
  | miss (idx : ℤ)
  /-- loaded, about to enter the cache (line 297) -/
  | insert (idx : ℤ) (x : Item R)

/-- The state.  `file p` is what loading chunk `p` of the list gives at present.  `log` (newest first) and
`fails` (synchronous loads that raised) and `past` (all contents of the files since creation, newest
first) are ghosts. -/
structure St (R : Type) where
  file : ℕ → Except Err (Item R)
  cache : List (ℤ × Item R)
  cur : ℤ
  wpc : WPc R
  fpc : FPc R
  stop : Bool
  held : Bool
  log : List (ℤ × Except Err (Item R))
  fails : List ℤ
  past : List (ℕ → Except Err (Item R))

/-- `__init__` (prefetch_dataset.py:27-79); it starts the thread. -/
def St.init (file : ℕ → Except Err (Item R)) : St R :=
  ⟨file, [], 0, .top, .idle, false, true, [], [], [file]⟩

/-- The actions. -/
inductive Act (R : Type)
  /-- the reader calls `__getitem__` -/
  | get (idx : ℤ)
  /-- the reader goes on -/
  | fg
  /-- the reader's load raises (an I/O error) -/
  | fgFail
  /-- the prefetch thread goes on -/
  | wk
  /-- the load of the prefetch thread raises (an I/O error) -/
  | wkFail
  /-- chunk `p` is rewritten -/
  | write (p : ℕ) (x : Except Err (Item R))
  /-- the caller drops its last reference to the data set and its loader -/
  | drop
  /-- `__del__` (lines 302-307) -/
  | del

/-- `self.chunk_info[idx]` for a list of length `n`: negative indices count from the end. -/
def position (n : ℕ) (idx : ℤ) : Option ℕ :=
  if 0 ≤ idx ∧ idx < n then some idx.toNat
  else if idx < 0 ∧ 0 ≤ idx + n then some (idx + n).toNat
  else none

/-- The insertion of the prefetch thread with its eviction (lines 188-198). -/
def insertEvict (pf : ℕ) (c idx : ℤ) (x : Item R) (m : List (ℤ × Item R)) : List (ℤ × Item R) :=
  let m := PyDict.set idx x m
  if m.length > pf * 3 then m.filter fun e => !decide (e.1 < c - 1) else m

/-- `__getitem__` up to the look into the cache (lines 257-263). -/
def getStep (n : ℕ) (st : St R) (idx : ℤ) : Option (St R) :=
  match st.fpc with
  | .idle =>
    if idx ≥ n then some { st with log := (idx, .error .indexError) :: st.log }
    else some { st with cur := idx, fpc := .check idx }
  | _ => none

/-- The rest of `__getitem__` (lines 266-300). -/
def fgStep (n : ℕ) (st : St R) : Option (St R) :=
  match st.fpc with
  | .idle => none
  | .check idx =>
    match PyDict.get? st.cache idx with
    | some x => some { st with fpc := .idle, log := (idx, .ok x) :: st.log }
    | none => some { st with fpc := .miss idx }
  | .miss idx =>
    match position n idx with
    | none => some { st with fpc := .idle, log := (idx, .error .indexError) :: st.log }
    | some p =>
      match st.file p with
      | .ok x => some { st with fpc := .insert idx x }
      | .error _ => some { st with fpc := .idle, log := (idx, .ok ([], [])) :: st.log,
                                   fails := idx :: st.fails }
  | .insert idx x =>
    some { st with fpc := .idle, cache := PyDict.set idx x st.cache, log := (idx, .ok x) :: st.log }

/-- A synchronous load that raises (lines 288-294). -/
def fgFailStep (n : ℕ) (st : St R) : Option (St R) :=
  match st.fpc with
  | .miss idx =>
    match position n idx with
    | none => none
    | some _ => some { st with fpc := .idle, log := (idx, .ok ([], [])) :: st.log,
                               fails := idx :: st.fails }
  | _ => none

/-- Is the index to be prefetched (lines 157-161)? -/
def pick (n : ℕ) (cache : List (ℤ × Item R)) (idx : ℤ) (acc : List ℤ) : List ℤ :=
  if idx < n ∧ idx ∉ PyDict.keys cache then acc ++ [idx] else acc

/-- The prefetch thread (lines 146-230). -/
def wkStep (n pf : ℕ) (st : St R) : Option (St R) :=
  match st.wpc with
  | .top => some { st with wpc := if st.stop then .ended else .scan st.cur 0 [] }
  | .scan c i acc =>
    if i < pf then
      some { st with wpc := .scan c (i + 1) (pick n st.cache (c + i) acc) }
    else some { st with wpc := .load c acc }
  | .load _ [] => some { st with wpc := .top }
  | .load c (idx :: todo) =>
    if st.stop then some { st with wpc := .top }
    else
      match position n idx with
      | none => some { st with wpc := .load c todo }
      | some p =>
        match st.file p with
        | .ok x => some { st with wpc := .insert c idx x todo }
        | .error _ => some { st with wpc := .load c todo }
  | .insert c idx x todo =>
    some { st with cache := insertEvict pf c idx x st.cache, wpc := .load c todo }
  | .ended => none

/-- A load of the prefetch thread that raises (lines 219-223). -/
def wkFailStep (st : St R) : Option (St R) :=
  match st.wpc with
  | .load c (_ :: todo) => some { st with wpc := .load c todo }
  | _ => none

/-- Does the prefetch thread still run? -/
def WPc.running : WPc R → Bool
  | .ended => false
  | _ => true

/-- `__del__` runs when nothing refers to the data set any more.  The running thread does: its target
is the bound method `self._prefetch_worker` (line 141).  (At the end of the process the daemon thread is
killed; that is outside the model.) -/
def delStep (st : St R) : Option (St R) :=
  if st.held = false ∧ st.wpc.running = false then some { st with stop := true } else none

/-- One step; `none` if the action is not possible. -/
def step (n pf : ℕ) (st : St R) : Act R → Option (St R)
  | .get idx => if st.held then getStep n st idx else none
  | .fg => fgStep n st
  | .fgFail => fgFailStep n st
  | .wk => wkStep n pf st
  | .wkFail => wkFailStep st
  | .write p x =>
    some { st with file := Function.update st.file p x, past := Function.update st.file p x :: st.past }
  | .drop =>
    match st.fpc with
    | .idle => some { st with held := false }
    | _ => none
  | .del => delStep st

/-- A schedule. -/
def exec (n pf : ℕ) (st : St R) (acts : List (Act R)) : Option (St R) := acts.foldlM (step n pf) st

end Verif.Disk.Prefetch
