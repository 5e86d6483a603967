import Verif.Model.Types
/-
Model of loading definition files: /repo/src/definition/mod.rs, /repo/src/snapshot/types/database.rs
(`merge`) and /repo/src/snapshot/types/schema.rs (`merge_schema`).
-/
namespace Podo

/-- The loop `for relation in other.relations.into_values() { self.add_relation(relation)?; }`
(/repo/src/snapshot/types/schema.rs:92-94). -/
def Schema.addRelations : Schema → List Relation → SResult Schema
  | s, [] => .ok s
  | s, r :: rs =>
    match s.addRelation r with
    | .error e => .error e
    | .ok s' => Schema.addRelations s' rs

/-- The loop `for function in other.functions.into_values() { self.add_function(function)?; }`
(/repo/src/snapshot/types/schema.rs:95-97). -/
def Schema.addFunctions : Schema → List Function → SResult Schema
  | s, [] => .ok s
  | s, f :: fs =>
    match s.addFunction f with
    | .error e => .error e
    | .ok s' => Schema.addFunctions s' fs

/-- /repo/src/snapshot/types/schema.rs:91-99 `merge_schema`. -/
def Schema.mergeSchema (s other : Schema) : SResult Schema :=
  match s.addRelations other.relations.values with
  | .error e => .error e
  | .ok s' => s'.addFunctions other.functions.values

/-- One round of the loops in /repo/src/snapshot/types/database.rs:49-55 (`merge`, with `key` the
name the other database records the schema under) and of /repo/src/definition/mod.rs:61-66
(`load_yaml_string`, with `key` the schema's own name). -/
def Database.mergeOne (d : Database) (key : String) (sc : Schema) : SResult Database :=
  match d.schemas.get? key with
  | some mine =>
    match mine.mergeSchema sc with
    | .error e => .error e
    | .ok merged => .ok (d.setSchema key merged)
  | none => d.addSchema sc

/-- /repo/src/snapshot/types/database.rs:48-57 `merge`; the argument is the other database's map. -/
def Database.mergeAll : Database → AMap Schema → SResult Database
  | d, [] => .ok d
  | d, (k, sc) :: rest =>
    match d.mergeOne k sc with
    | .error e => .error e
    | .ok d' => Database.mergeAll d' rest

/-- /repo/src/snapshot/types/database.rs:48-57 `merge`. -/
def Database.merge (d other : Database) : SResult Database := d.mergeAll other.schemas

/-- What loading can end in instead of a snapshot: a YAML or definition error, an error of the
snapshot, or a panic of the parser. -/
inductive LoadError where
  | parse (message : String)
  | snapshot (e : SnapshotError)
  | panic
deriving DecidableEq, Repr

/-- /repo/src/definition/mod.rs:59-67: the loop of `load_yaml_string` over the schema definitions of
one file, after each has been parsed. -/
def Load.addSchemas : Database → List Schema → SResult Database
  | d, [] => .ok d
  | d, sc :: rest =>
    match d.mergeOne sc.name sc with
    | .error e => .error e
    | .ok d' => Load.addSchemas d' rest

/-- /repo/src/definition/mod.rs:45-51 `load_yaml_file_into`: parse a file into schema definitions
(`parse` stands for reading the file, YAML and `parse_schema_definition` on each node; simplified: all
nodes are parsed before the first is added, which only affects which of two errors is reported), put
them in a fresh database and merge it. -/
def Load.fileInto {F : Type} (parse : F → Except LoadError (List Schema)) (d : Database) (f : F) :
    Except LoadError Database :=
  match parse f with
  | .error e => .error e
  | .ok scs =>
    match Load.addSchemas Database.new scs with
    | .error e => .error (.snapshot e)
    | .ok fd =>
      match d.merge fd with
      | .error e => .error (.snapshot e)
      | .ok d' => .ok d'

/-- /repo/src/definition/mod.rs:38-40: the loop over the collected files. -/
def Load.filesInto {F : Type} (parse : F → Except LoadError (List Schema)) :
    Database → List F → Except LoadError Database
  | d, [] => .ok d
  | d, f :: fs =>
    match Load.fileInto parse d f with
    | .error e => .error e
    | .ok d' => Load.filesInto parse d' fs

/-- A directory tree as `fs::read_dir` shows it: files with their name and content, and
subdirectories; the order of the lists is the order in which the system lists the entries. -/
inductive DirTree (F : Type) where
  | file (name : String) (content : F)
  | dir (name : String) (entries : List (DirTree F))

/-- `Path::extension() == Some("yaml")` for a file name, used at /repo/src/definition/mod.rs:79: the part
after the last dot is `yaml` and something precedes that dot. -/
def Load.isYaml (name : String) : Bool :=
  let r := name.toList.reverse
  (['l', 'm', 'a', 'y', '.'].isPrefixOf r) && r.length > 5

mutual
/-- /repo/src/definition/mod.rs:75-81: one entry of `collect_yaml_file`. -/
def Load.collectEntry {F : Type} : DirTree F → List F
  | .file n c => if Load.isYaml n then [c] else []
  | .dir _ es => Load.collect es
/-- /repo/src/definition/mod.rs:72-84 `collect_yaml_file` on the entries of a directory. -/
def Load.collect {F : Type} : List (DirTree F) → List F
  | [] => []
  | e :: es => Load.collectEntry e ++ Load.collect es
end

/-- /repo/src/definition/mod.rs:33-43 `load_snpashot` on a directory. -/
def Load.snapshot {F : Type} (parse : F → Except LoadError (List Schema))
    (entries : List (DirTree F)) : Except LoadError Database :=
  Load.filesInto parse Database.new (Load.collect entries)

end Podo
