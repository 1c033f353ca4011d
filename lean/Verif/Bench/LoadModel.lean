import Mathlib.Data.List.Infix

/-!
# `load_benchmark` as a program over a file system and a web server

Model of `dattri/benchmark/load.py`. Simplifications: paths are relative to `download_path / "benchmark"` and are lists of names; no path is
both a file and a directory; nothing but this module changes the tree; a response of the server is either missing (`requests.get` raises) or a status
with a body, read both as bytes and as an archive; `torch.load` returns the bytes of the file; creating the data set is one result given with the
call (it works in another directory).
-/

namespace Verif.LoadBench

/-- A path below `download_path / "benchmark"`. -/
abbrev Path : Type := List String

/-- What the calls may raise (load.py:174, 237; `requests`, `zipfile`, `pathlib`, the creation of the data set). -/
inductive LErr
  | value | connection | badZip | fileNotFound | dataset
  deriving DecidableEq, Repr

variable {B D : Type}

/-- The body of a response: its bytes and, if they are an archive, its entries: a file with its content or a directory (load.py:161-162). -/
structure Body (B : Type) where
  raw : B
  zip : Option (List (Path × Option B))

/-- The outcome of `requests.get` (load.py:155). -/
inductive Resp (B : Type)
  | unreachable
  | resp (status : ℕ) (body : Body B)

/-- The directories and files. -/
structure FS (B : Type) where
  dirs : List Path
  files : Path → Option B

/-- The file system and the exchanges with the server so far. -/
structure World (B : Type) where
  fs : FS B
  log : List (String × Resp B)

/-- `mkdir(parents=True, exist_ok=True)` (load.py:158). -/
def mkdirs (fs : FS B) (p : Path) : FS B := ⟨p.inits.foldl (fun l q => if q ∈ l then l else q :: l) fs.dirs, fs.files⟩

/-- Writing a file (load.py:164-167). -/
def writeFile (fs : FS B) (p : Path) (b : B) : FS B := ⟨fs.dirs, fun q => if q = p then some b else fs.files q⟩

/-- The directory an archive entry needs, below the destination. -/
def entryDir (e : Path × Option B) : Path := match e.2 with
  | some _ => e.1.dropLast
  | none => e.1

/-- One entry of `extractall` (load.py:162). -/
def extractOne (dest : Path) (fs : FS B) (e : Path × Option B) : FS B :=
  let fs := mkdirs fs (dest ++ entryDir e)
  match e.2 with
  | some b => writeFile fs (dest ++ e.1) b
  | none => fs

/-- `zip_ref.extractall(destination_path)` (load.py:162). -/
def extract (fs : FS B) (dest : Path) (es : List (Path × Option B)) : FS B := es.foldl (extractOne dest) fs

/-- The arguments of one call of `_download`: `file = none` means `unzip=True`. -/
structure Job where
  url : String
  dest : Path
  file : Option String
  deriving DecidableEq

/-- `_download` (load.py:136-174). `sv k url` is the server's answer to the `k`-th request. -/
def download (sv : ℕ → String → Resp B) (w : World B) (j : Job) : World B × Except LErr Unit :=
  let r := sv w.log.length j.url
  let log := w.log ++ [(j.url, r)]
  match r with
  | .unreachable => (⟨w.fs, log⟩, .error .connection)
  | .resp code body =>
    let fs := mkdirs w.fs j.dest
    if code = 200 then
      match j.file with
      | none => match body.zip with
        | some es => (⟨extract fs j.dest es, log⟩, .ok ())
        | none => (⟨fs, log⟩, .error .badZip)
      | some name => (⟨writeFile fs (j.dest ++ [name]) body.raw, log⟩, .ok ())
    else if code = 404 then (⟨fs, log⟩, .ok ())
    else (⟨fs, log⟩, .error .value)

/-- The downloads one after another until one raises (load.py:243-264). -/
def downloadAll (sv : ℕ → String → Resp B) (w : World B) : List Job → World B × Except LErr Unit
  | [] => (w, .ok ())
  | j :: js => match download sv w j with
    | (w', .ok _) => downloadAll sv w' js
    | (w', .error e) => (w', .error e)

/-- `REPO_URL` (load.py:49). -/
def repoUrl : String := "https://huggingface.co/datasets/trais-lab/dattri-benchmark/resolve/main/"

/-- `generate_url_map(identifier)["models_full" | "models_half"]` (load.py:62-63); `kind` is `full` or `half`. -/
def zipUrl (id kind : String) : String := repoUrl ++ id ++ "/" ++ id ++ "_" ++ kind ++ ".zip?download=true"

/-- `generate_url_map(identifier)["groundtruth"][metric]` (load.py:64-73). -/
def truthUrls (id metric : String) : List String :=
  [repoUrl ++ id ++ "/" ++ metric ++ "/indices_" ++ metric ++ ".pt?download=true",
   repoUrl ++ id ++ "/" ++ metric ++ "/target_values_" ++ metric ++ ".pt?download=true"]

/-- `path.split("?")[0].split("/")[-1]` (load.py:254, 263). -/
def fileName (url : String) : String := String.ofList ((((url.toList.splitOn '?').headD []).splitOn '/').getLastD [])

/-- The downloads of one identifier in order (load.py:243-264); the loop over the `loo` files is left at once for `wikitext2_gpt2`. -/
def jobs (id : String) : List Job :=
  [⟨zipUrl id "full", [id, "models_full"], none⟩, ⟨zipUrl id "half", [id, "models_half"], none⟩] ++
  (truthUrls id "lds").map (fun u => ⟨u, [id, "lds"], some (fileName u)⟩) ++
  (if id = "wikitext2_gpt2" then [] else (truthUrls id "loo").map (fun u => ⟨u, [id, "loo"], some (fileName u)⟩))

/-- `_count_folders` (load.py:122-133); `iterdir` of a missing directory raises. -/
def countFolders (fs : FS B) (p : Path) : Except LErr ℕ :=
  if p ∈ fs.dirs then .ok (fs.dirs.filter fun q => decide (q ≠ [] ∧ q.dropLast = p)).length else .error .fileNotFound

/-- The list of checkpoints (load.py:269-277, 281-289). -/
def modelList (p : Path) (n : ℕ) : List Path := (List.range n).map fun i : ℕ => p ++ [toString i, "model_weights_0.pt"]

/-- The keys of `MODEL_MAP` with whether the value is a constructor (load.py:103-110). -/
def modelMap : List (String × Bool) :=
  [("mnist_mlp", true), ("mnist_lr", true), ("cifar2_resnet9", true), ("shakespeare_nanogpt", false), ("maestro_musictransformer", true),
   ("wikitext2_gpt2", true)]

/-- The model in the result: an instance, or the name which was passed in (load.py:324-328). -/
inductive ModelOut
  | inst (identifier : String)
  | name (s : String)
  deriving DecidableEq, Repr

/-- The part of the result modelled here (load.py:327-338). -/
structure Result (B D : Type) where
  model : ModelOut
  modelsFull : List Path
  modelsHalf : List Path
  dataset : D
  targetValues : B
  indices : B

/-- The arguments of a call, with the outcome of creating the data set (load.py:290-296). -/
structure Call (D : Type) where
  model : String
  dataset : String
  metric : String
  redownload : Bool
  create : Except LErr D

/-- `load` of a file (load.py:308-311). -/
def loadFile (fs : FS B) (p : Path) : Except LErr B := match fs.files p with
  | some b => .ok b
  | none => .error .fileNotFound

/-- The part after the downloads (load.py:266-338). -/
def readBack (fs : FS B) (c : Call D) : Except LErr (Result B D) := do
  let id := c.dataset ++ "_" ++ c.model
  let n ← countFolders fs [id, "models_full"]
  let m ← countFolders fs [id, "models_half"]
  let d ← c.create
  let tv ← loadFile fs [id, c.metric, "target_values_" ++ c.metric ++ ".pt"]
  let ix ← loadFile fs [id, c.metric, "indices_" ++ c.metric ++ ".pt"]
  let mo := if modelMap.lookup id = some true then ModelOut.inst id else ModelOut.name c.model
  return ⟨mo, modelList [id, "models_full"] n, modelList [id, "models_half"] m, d, tv, ix⟩

/-- `load_benchmark` (load.py:177-338). -/
def load (sv : ℕ → String → Resp B) (w : World B) (c : Call D) : World B × Except LErr (Result B D) :=
  let id := c.dataset ++ "_" ++ c.model
  if (modelMap.lookup id).isNone then (w, .error .value)
  else if [id] ∉ w.fs.dirs ∨ c.redownload = true then
    match downloadAll sv w (jobs id) with
    | (w', .ok _) => (w', readBack w'.fs c)
    | (w', .error e) => (w', .error e)
  else (w, readBack w.fs c)

/-- Calls one after another, starting with an empty directory; exceptions are caught by the caller. -/
def run (sv : ℕ → String → Resp B) (cs : List (Call D)) : World B := cs.foldl (fun w c => (load sv w c).1) ⟨⟨[], fun _ => none⟩, []⟩

end Verif.LoadBench
