import Verif.Model.Utils

/-!
# File searches (src/FileManager.cc)

The operating system is given by what `stat` and `opendir`/`readdir` answer; it
does not change during a search.
-/

set_option autoImplicit false

namespace Marley.Files
open Marley
open Marley.Json (Str)

/-- The answers of the operating system. Used at src/FileManager.cc:37-40, 190-207. -/
structure FileSys where
  /-- `st_mode` of the file with that name, `none` if `stat` fails -/
  stat : Str → Option Nat
  /-- the names in a directory in the order of `readdir`, `none` if it cannot be
  opened -/
  readdir : Str → Option (List Str)

/-- `S_IFREG` (sys/stat.h). Used at src/FileManager.cc:207. -/
def S_IFREG : Nat := 0o100000

/-- `file_exists` (src/FileManager.cc:37-40). -/
def fileExists (fs : FileSys) (name : Str) : Bool := (fs.stat name).isSome

/-- `search_path_to_dir_vector` (src/FileManager.cc:87-93). -/
def dirVector (path : Str) : List Str := Utils.splitString path ':'

/-- The loop of `dir_iterate` (src/FileManager.cc:188-212) over the names in a
directory.  `func` is the callback: it changes the variables it captured and
returns whether to stop. -/
def entryLoop {σ : Type} (fs : FileSys) (dir : Str) (func : σ → Str → Str → σ × Bool) :
    σ → List Str → σ × Bool
  | st, [] => (st, false)
  | st, base :: t =>
    let full := dir ++ '/' :: base
    match fs.stat full with
    | none => entryLoop fs dir func st t
    | some mode =>
      if mode &&& S_IFREG ≠ 0 then
        let r := func st full base
        if r.2 then (r.1, true) else entryLoop fs dir func r.1 t
      else entryLoop fs dir func st t

/-- `dir_iterate` (src/FileManager.cc:173-216). -/
def dirIterate {σ : Type} (fs : FileSys) (dir : Str) (func : σ → Str → Str → σ × Bool) (st : σ) :
    σ × Bool :=
  match fs.readdir dir with
  | none => (st, false)
  | some names => entryLoop fs dir func st names

/-- The loop of `find_file` (src/FileManager.cc:116-132). -/
def searchDirs (fs : FileSys) (base : Str) : Str → List Str → Str
  | found, [] => found
  | found, d :: t =>
    let r := dirIterate fs d (fun st full other =>
      if base = other then (full, true) else (st, false)) found
    if r.2 then r.1 else searchDirs fs base r.1 t

/-- `find_file` with a vector of directories (src/FileManager.cc:102-135). -/
def findFile (fs : FileSys) (base : Str) (dirs : List Str) : Str :=
  if fileExists fs base then base else searchDirs fs base [] dirs

/-- `find_file` with a search path (src/FileManager.cc:95-100). -/
def findFileIn (fs : FileSys) (base path : Str) : Str := findFile fs base (dirVector path)

/-- The loop of `list_all_files` (src/FileManager.cc:151-162). -/
def listDirs (fs : FileSys) : List Str → List Str → List Str
  | result, [] => result
  | result, d :: t =>
    listDirs fs (dirIterate fs d (fun st full _ => (st ++ [full], false)) result).1 t

/-- `list_all_files` (src/FileManager.cc:146-165). -/
def listAllFiles (fs : FileSys) (dirs : List Str) : List Str := listDirs fs [] dirs

end Marley.Files
