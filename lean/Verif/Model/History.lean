import Verif.Model.Stage
import Verif.Model.Sql
/-
Model of the version files: /repo/src/history/version.rs, fsh.rs and snapshot.rs.

Loops that need not end are given fuel: `none` means "still running after that many rounds", so a
computation ends exactly when some amount of fuel gives `some`.
-/
namespace Podo

/-- /repo/src/history/version.rs:8-14 -/
structure Version where
  name : String
  previous : Option String
  changes : List Change
  up : List String
  down : List String
deriving DecidableEq, Repr

namespace Version

/-- /repo/src/history/version.rs:4 -/
def STAGE : String := "stage"
/-- /repo/src/history/version.rs:5 -/
def INIT : String := "init"

/-- /repo/src/history/version.rs:17-28 -/
def newInit : Version :=
  ⟨INIT, none, [.createSchema "public"], ["CREATE SCHEMA public;"], ["DROP SCHEMA public;"]⟩

/-- /repo/src/history/version.rs:30-38 -/
def newStage (previous : String) : Version := ⟨STAGE, some previous, [], [], []⟩

/-- /repo/src/history/version.rs:40-42 -/
def addChange (v : Version) (c : Change) : Version := { v with changes := v.changes ++ [c] }
/-- /repo/src/history/version.rs:43-45 -/
def addUp (v : Version) (s : String) : Version := { v with up := v.up ++ [s] }
/-- /repo/src/history/version.rs:46-50 -/
def addDown (v : Version) (s : String) : Version := { v with down := [s] ++ v.down }
/-- /repo/src/history/version.rs:51-55 -/
def reset (v : Version) : Version := { v with changes := [], up := [], down := [] }
/-- /repo/src/history/version.rs:57-59 -/
def isEmpty (v : Version) : Bool :=
  v.changes.length == 0 && v.up.length == 0 && v.down.length == 0

end Version

/-- What a directory entry is: a file, with the version it deserializes to (`none`: it does not), or
a subdirectory.  Other kinds of entries are not modelled; serialization is in `Verif.Model.Serde`. -/
inductive Entry where
  | file (content : Option Version)
  | dir
deriving DecidableEq, Repr

/-- A history directory: entry name to entry; the order of the list is the order `read_dir` gives.
Simplified: names are valid UTF-8 (fsh.rs:36 panics otherwise). -/
abbrev HDir := AMap Entry

/-- /repo/src/history/fsh.rs:116-128; the two wrapped errors carry no detail here. -/
inductive FSError where
  | branched (parent childA childB : String)
  | unreachable (high low : String)
  | fileSystem
  | yaml
deriving DecidableEq, Repr

/-- `.yaml`, reversed. -/
def yamlRev : List Char := ['l', 'm', 'a', 'y', '.']

/-- `filename.ends_with(".yaml")` (/repo/src/history/fsh.rs:38). -/
def endsYaml (f : String) : Bool := yamlRev.isPrefixOf f.toList.reverse

/-- Dropping `.yaml` from the end again and again, on the reversed characters. -/
def trimYamlRev : List Char → List Char
  | 'l' :: 'm' :: 'a' :: 'y' :: '.' :: rest => trimYamlRev rest
  | cs => cs

/-- `filename.trim_end_matches(".yaml")` (/repo/src/history/fsh.rs:41), which removes the suffix
repeatedly. -/
def trimYaml (f : String) : String := String.ofList (trimYamlRev f.toList.reverse).reverse

namespace HDir

/-- /repo/src/history/fsh.rs:70-76 `get_version`, with 110-112 `get_version_file_path`.
Simplified: the directory holds no entry whose name contains a slash, so a version of such a name is not
found here, while the path that the code joins could lead to a file outside the directory. -/
def getVersion (d : HDir) (name : String) : Except FSError Version :=
  match d.get? (name ++ ".yaml") with
  | some (.file (some v)) => .ok v
  | some (.file none) => .error .yaml
  | some .dir => .error .yaml
  | none => .error .fileSystem

/-- The loop of /repo/src/history/fsh.rs:33-55 over the directory entries; the accumulator is
`next_map`. -/
def scan (d : HDir) : List (String × Entry) → AMap String → Except FSError (AMap String)
  | [], nm => .ok nm
  | (f, e) :: rest, nm =>
    if e = .dir ∨ endsYaml f = false then scan d rest nm
    else
      match d.getVersion (trimYaml f) with
      | .error err => .error err
      | .ok v =>
        match v.previous with
        | none => scan d rest nm
        | some p =>
          match AMap.get? nm p with
          | some existing => .error (.branched p existing v.name)
          | none => scan d rest (AMap.insertNew nm p v.name)

/-- The loop of /repo/src/history/fsh.rs:57-61: `curr` and `current_version`. -/
def walk (nm : AMap String) : Nat → String → String → Option String
  | 0, _, _ => none
  | n + 1, curr, cv =>
    match AMap.get? nm curr with
    | some next => walk nm n next curr
    | none => some cv

/-- /repo/src/history/fsh.rs:10-14, without the directory path. -/
structure Opened where
  nextMap : AMap String
  currentVersion : String
deriving DecidableEq, Repr

/-- /repo/src/history/fsh.rs:25-64 `from_dir`. -/
def fromDir (fuel : Nat) (d : HDir) : Option (Except FSError Opened) :=
  match scan d d [] with
  | .error e => some (.error e)
  | .ok nm =>
    match walk nm fuel "init" Version.INIT with
    | none => none
    | some cv => some (.ok ⟨nm, cv⟩)

/-- The loop of /repo/src/history/fsh.rs:82-96; `acc` is `versions`. -/
def rangeLoop (d : HDir) (source to : String) : Nat → String → List String →
    Option (Except FSError (List String))
  | 0, _, _ => none
  | n + 1, curr, acc =>
    match d.getVersion curr with
    | .error e => some (.error e)
    | .ok v =>
      if curr = source then some (.ok acc.reverse)
      else
        match v.previous with
        | some p => rangeLoop d source to n p (acc ++ [v.name])
        | none => some (.error (.unreachable to source))

/-- /repo/src/history/fsh.rs:78-99 `get_upward_range`. -/
def upwardRange (fuel : Nat) (d : HDir) (source to : String) : Option (Except FSError (List String)) :=
  rangeLoop d source to fuel to []

/-- /repo/src/history/fsh.rs:101-108 `save_version`, as a whole: creating a file whose name
contains a slash fails (simplified: the directory it names is absent), as does overwriting a
subdirectory; otherwise the file then holds the version (simplified: the system refuses for no other reason,
such as a name too long or a disk that is full).  The steps in between are in `Verif.Model.Commands`. -/
def save (d : HDir) (v : Version) : Option HDir :=
  if v.name.toList.contains '/' then none
  else
    match d.get? (v.name ++ ".yaml") with
    | some .dir => none
    | some (.file _) => some (d.set (v.name ++ ".yaml") (.file (some v)))
    | none => some (d.insertNew (v.name ++ ".yaml") (.file (some v)))

end HDir

/-- Errors of the commands (`AnyError`, /repo/src/error.rs). -/
inductive CmdError where
  | fs (e : FSError)
  | snapshot (e : SnapshotError)
deriving DecidableEq, Repr

/-- /repo/src/history/snapshot.rs:14-19: the loop over the versions of the range. -/
def replayVersions (d : HDir) : List String → Database → Except CmdError Database
  | [], s => .ok s
  | n :: ns, s =>
    match d.getVersion n with
    | .error e => .error (.fs e)
    | .ok v =>
      match Change.applyAll v.changes s with
      | .error e => .error (.snapshot e)
      | .ok s' => replayVersions d ns s'

/-- /repo/src/history/snapshot.rs:5-21 `calculate_snapshot`. -/
def calculateSnapshot (fuel : Nat) (d : HDir) (version : String) : Option (Except CmdError Database) :=
  match d.upwardRange fuel Version.INIT version with
  | none => none
  | some (.error e) => some (.error (.fs e))
  | some (.ok versions) =>
    match d.getVersion Version.INIT with
    | .error e => some (.error (.fs e))
    | .ok init =>
      match Change.applyAll init.changes Database.new with
      | .error e => some (.error (.snapshot e))
      | .ok s => some (replayVersions d versions s)

end Podo
