import Verif.Model.FiberV0
import Verif.Model.Names

/-!
# Model of the rewriting of sky targets in fewer files

`_write_all_skytargets` (`/repo/mockfactory/desi/fiber_assignment_v0.py:51-87`), the files of which are those that `read_sky_targets`
(`Verif/Model/FiberV0.lean`) reads. A folder is the list of its files, by name; a bigfile, which is a directory, is a file here. Rows
are those of all ranks, and have the columns that are asked for.
-/

namespace Verif.Model.FiberV0

open Verif Verif.Model Verif.Model.Blinding Names

variable {S : Type}

/-- A folder: names and rows of its files (`fiber_assignment_v0.py:76-85`). -/
abbrev Folder (S : Type) := List (List Char × List (Sky S))

/-- `os.path.basename(fn)` (`fiber_assignment_v0.py:75`). -/
def basename (fn : List Char) : List Char := (split '/' fn).getLastD []

/-- `'-'.join(os.path.basename(fn).split('-')[:-2])` (`fiber_assignment_v0.py:75`). -/
def skyBase (fn : List Char) : List Char := join ['-'] (split '-' (basename fn)).dropLast.dropLast

/-- `f'{basename}-{i}.fits'` (`fiber_assignment_v0.py:76`). -/
def skyName (base : List Char) (i : ℕ) : List Char := base ++ '-' :: (decimal i ++ ".fits".toList)

/-- One turn of the loop over directories (`fiber_assignment_v0.py:64-87`): `files` are the files that `glob` finds, in its order.
The rows of all files are cut into `nfiles` files (mpytools cuts in blocks of nearly equal sizes, in order), and also written to one
bigfile; files of the same name are replaced. `fns[0]` raises if there is no file. -/
def writeFolder (nfiles : ℕ) (folder : Folder S) (files : List (List Char × List (Sky S))) : Except Err (Folder S) :=
  match files with
  | [] => .error .indexError
  | f :: _ =>
    let base := skyBase f.1
    let rows := (files.map Prod.snd).flatten
    let parts := splitSizes (localSizes rows.length nfiles) rows
    .ok (put base rows (parts.zipIdx.foldl (fun d x => put (skyName base x.2) x.1 d) folder))

/-- `_write_all_skytargets` (`fiber_assignment_v0.py:51-87`), for the directories of sky targets and of supplementary ones. -/
def writeAllSkyTargets (nfiles : ℕ) (folder : Folder S) (dirs : List (List (List Char × List (Sky S)))) : Except Err (Folder S) :=
  dirs.foldlM (writeFolder nfiles) folder

/-- `mpy.Catalog.read` of a file of the folder `dirname` (`fiber_assignment_v0.py:123`); an unknown file raises. -/
def readFrom (dirname : List Char) (folder : Folder S) (path : List Char) : Except Err (List (Sky S)) :=
  match folder.find? fun f => joinPath dirname f.1 = path with
  | some f => .ok f.2
  | none => .error .keyError

end Verif.Model.FiberV0
