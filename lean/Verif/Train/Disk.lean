import Verif.Train.Learn

/-!
# Directories that cannot be read

`get_all_paths_rec` and the train command of `src/main.rs` on a file system in which reading directories can fail
(`Verif/Train/Data.lean` has none of these failures).  Failures to read the metadata of a path (`is_dir`, `exists`) are
not modelled.
-/

namespace DieE.Train
open DieE.Mcts

mutual

/-- A file or a directory. -/
inductive Disk where
  /-- a file -/
  | file (c : Content)
  /-- a directory, with the entries in the order of `read_dir` -/
  | dir (es : Items)
  /-- a directory for which `read_dir` fails -/
  | locked (es : Items)

/-- The entries of a directory. -/
inductive Items where
  /-- no more entries -/
  | nil
  /-- an entry -/
  | entry (n : Name) (d : Disk) (es : Items)
  /-- an entry that cannot be read -/
  | broken (es : Items)
  /-- an entry whose name is not valid Unicode -/
  | odd (d : Disk) (es : Items)

end

mutual

/-- The files and directories that can be opened by a path of Unicode names. -/
def Disk.tree : Disk → Tree
  | .file c => .file c
  | .dir es => .dir es.trees
  | .locked es => .dir es.trees

/-- The same for the entries of a directory. -/
def Items.trees : Items → List (Name × Tree)
  | .nil => []
  | .entry n d es => (n, d.tree) :: es.trees
  | .broken es => es.trees
  | .odd _ es => es.trees

end

/-- The first entry with the given name. -/
def Items.find (n : Name) : Items → Option Disk
  | .nil => none
  | .entry m d es => if m = n then some d else es.find n
  | .broken es => es.find n
  | .odd _ es => es.find n

/-- The file or directory with the given path. -/
def Disk.lookup : List Name → Disk → Option Disk
  | [], d => some d
  | _ :: _, .file _ => none
  | n :: p, .dir es => (es.find n).bind (Disk.lookup p)
  | n :: p, .locked es => (es.find n).bind (Disk.lookup p)

mutual

/-- `get_all_paths_rec`, main.rs:218-231: the paths pushed, and whether the result is `Ok`. -/
def walk : List Name → Disk → Res (List (List Name) × Bool)
  | _, .file _ => .ok ([], true)
  | _, .locked _ => .ok ([], false)
  | p, .dir es => walkIn p es

/-- The loop over the entries of a directory, main.rs:220-228. -/
def walkIn : List Name → Items → Res (List (List Name) × Bool)
  | _, .nil => .ok ([], true)
  | _, .broken _ => .ok ([], false)
  | _, .odd _ _ => .error .unwrapNone
  | p, .entry n d es =>
    if containsSp n then do
      let (l, ok) ← walkIn p es
      pure ((p ++ [n]) :: l, ok)
    else do
      let (l, ok) ← walk (p ++ [n]) d
      if ok then do
        let (l', ok) ← walkIn p es
        pure (l ++ l', ok)
      else pure (l, false)

end

/-- The data of the train command, main.rs:175-192: the result of `get_all_paths_rec` is dropped. -/
def trainingDisk (root : Disk) (run lrn sp : Option Name) : Res (List Mem) := do
  let p ← dataPath run lrn sp
  match root.lookup p with
  | none => .error .explicitPanic
  | some d => do
    let (paths, _) ← walk p d
    let l ← paths.mapM (loadTrainingData root.tree)
    pure l.flatten

/-- The train command, main.rs:172-207, as `trainCommand`. -/
def trainDiskCommand {W : Type} {Fl : Floats} (S : Setup Fl W) (shuffle : List Mem → List Mem) (root : Disk)
    (run lrn sp : Option Name) (w : W) (out : Bool) (ms : Models W) : Res (Option W × Models W) := do
  let data ← trainingDisk root run lrn sp
  let w ← train S.pf S.batch S.step (shuffle data) w
  if out then pure (some w, ms)
  else match ms with
    | none => .error .explicitPanic
    | some _ => pure (none, saveModel ms trainedName w)

end DieE.Train
