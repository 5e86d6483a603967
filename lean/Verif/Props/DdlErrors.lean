import Verif.Proofs.DdlErrors
import Verif.Proofs.NodeEq
/-
C80: errors in definition files say which entry is wrong and what is wrong with it.
-/
namespace Podo
namespace Def

/-- C80: an error about the definitions in a file is the full report (`Spec/DefErrors`) on the first schema
in it that has anything to report, when all before it can be put together and it does not make the program
panic.  There is no such error otherwise.  Missing: what stands under an index is not reported
(`C80_index_false`), which `indexReport` says. -/
theorem C80_definition_error_partial (y : Yaml) (e : DefError) : loadDocE y = .error (.definition e) ↔
    ∃ before n after, FileSays y (before ++ n :: after) ∧ (∀ m ∈ before, SchemaAccepted m) ∧
      before.Pairwise (fun a b => ¬ PartsClash a b) ∧ ¬ SchemaPanics n ∧ schemaReport n = some e :=
  loadDocE_definition

/-- C80: an error about a key or a value is about the first one in the file that is wrong. -/
theorem C80_yaml_error (y : Yaml) (e : YamlError) : loadDocE y = .error (.yaml e) ↔
    ∃ ks vs, y = .map ks vs ∧ MappingWrong ks vs e := loadDocE_yaml

/-- C80: a file is said not to be a mapping exactly when it is none. -/
theorem C80_not_a_mapping (y : Yaml) : loadDocE y = .error .notMapping ↔ ∀ ks vs, y ≠ .map ks vs :=
  loadDocE_notMapping

/-- C80: an error that is not about definitions put together is that of the first file that has one, and the
files before it can be put together. -/
theorem C80_directory_error (es : List (DirTree Yaml)) (e : LoadErrorE) (hs : ∀ s, e ≠ .snapshot s) :
    loadDirE es = .error e ↔ ∃ before name f after, filesOf es = before ++ (name, f) :: after ∧
      (∃ d, loadDirE (before.map fun p => DirTree.file p.1 p.2) = .ok d) ∧ YamlName name ∧
      loadDocE f = .error e := loadDirE_of_file hs

/-- Reading with the errors and reading without them, which the other properties are about, give the same:
the same snapshot, the same error of snapshots, and a panic in the same cases. -/
theorem C80_same_outcome (es : List (DirTree Yaml)) :
    (∀ d, loadDirE es = .ok d ↔ loadDir es = .ok d) ∧
    (∀ s, loadDirE es = .error (.snapshot s) ↔ loadDir es = .error (.snapshot s)) ∧
    (loadDirE es = .error .panic ↔ loadDir es = .error .panic) :=
  ⟨fun _ => eraseL_ok (eraseL_dir es), fun _ => eraseL_snapshot (eraseL_dir es), eraseL_panic (eraseL_dir es)⟩

/-- C80: the message of an error contains the message of each error it consists of, the entry or text
each of them is about, and what is lacking or was expected there. -/
theorem C80_message (e f : DefError) (h : Within f e) :
    StandsIn f.text e.text ∧ StandsIn f.culprit e.text ∧ ∀ d, f.detail = some d → StandsIn d e.text :=
  ⟨standsIn_text h, standsIn_trans (culprit_text f) (standsIn_text h),
    fun _ hd => standsIn_trans (detail_text hd) (standsIn_text h)⟩

/-- C80: the message tells what sort of fault it is about. -/
theorem C80_message_sort (f g : DefError) (h : f.text = g.text) : f.sort = g.sort := text_sort h

mutual
def eqDefError : DefError → DefError → Bool
  | .unexpectedNode a, .unexpectedNode b => a == b
  | .nameRequired a, .nameRequired b => a == b
  | .childNodesRequired a, .childNodesRequired b => a == b
  | .attributeRequired a x, .attributeRequired b y => a == b && x == y
  | .invalidTypeAttribute a x, .invalidTypeAttribute b y => a == b && x == y
  | .invalidTypeExpression a, .invalidTypeExpression b => a == b
  | .invalidTableReference a, .invalidTableReference b => a == b
  | .invalidColumnReference a, .invalidColumnReference b => a == b
  | .hasErrors a x, .hasErrors b y => a == b && eqDefErrors x y
  | _, _ => false
def eqDefErrors : List DefError → List DefError → Bool
  | [], [] => true
  | a :: as, b :: bs => eqDefError a b && eqDefErrors as bs
  | _, _ => false
end

mutual
theorem eqDefError_iff : ∀ a b : DefError, eqDefError a b = true ↔ a = b
  | .unexpectedNode a, b => by cases b <;> simp [eqDefError]
  | .nameRequired a, b => by cases b <;> simp [eqDefError]
  | .childNodesRequired a, b => by cases b <;> simp [eqDefError]
  | .attributeRequired a x, b => by cases b <;> simp [eqDefError]
  | .invalidTypeAttribute a x, b => by cases b <;> simp [eqDefError]
  | .invalidTypeExpression a, b => by cases b <;> simp [eqDefError]
  | .invalidTableReference a, b => by cases b <;> simp [eqDefError]
  | .invalidColumnReference a, b => by cases b <;> simp [eqDefError]
  | .hasErrors a x, b => by cases b <;> simp [eqDefError, eqDefErrors_iff x]
theorem eqDefErrors_iff : ∀ a b : List DefError, eqDefErrors a b = true ↔ a = b
  | [], b => by cases b <;> simp [eqDefErrors]
  | a :: as, b => by cases b <;> simp [eqDefErrors, eqDefError_iff a, eqDefErrors_iff as]
end

/-- Equality of errors is decidable (for the examples). -/
instance : DecidableEq DefError := fun a b => decidable_of_iff _ (eqDefError_iff a b)

deriving instance DecidableEq for LoadErrorE

/-- A file with several faults in a table and a view after a good schema. -/
def faulty : Yaml := .map [some "schema good", some "schema shop"]
  [.null, .map [some "table orders", some "view v", some "column id"]
    [.map [some "column id", some "column", some "constraint pk", some "constraint fk", some "view x"]
      [.str "int", .str "int", .map [some "unique", some "deferrable"] [.bool true, .str "no"],
       .map [some "foreign key", some "references a.b.c"] [.str "id", .str "id"], .null],
     .map [some "language"] [.str "sql"], .str "int"]]

/-- What the program says about it. -/
def faultyError : DefError := .hasErrors "schema shop"
  [.hasErrors "table orders" [.nameRequired "column",
    .hasErrors "constraint pk" [.invalidTypeAttribute "unique" "...string",
      .invalidTypeAttribute "deferrable" "boolean", .attributeRequired "constraint pk" "unique"],
    .hasErrors "constraint fk" [.invalidTableReference "a.b.c", .attributeRequired "constraint fk" "references"],
    .unexpectedNode "view x"],
   .hasErrors "view v" [.unexpectedNode "language", .attributeRequired "view v" "as"],
   .unexpectedNode "column id"]

example : loadDocE faulty = .error (.definition faultyError) := by decide +kernel

/-- So the right-hand side of `C80_definition_error_partial` holds of it. -/
example : ∃ before n after, FileSays faulty (before ++ n :: after) ∧ (∀ m ∈ before, SchemaAccepted m) ∧
    before.Pairwise (fun a b => ¬ PartsClash a b) ∧ ¬ SchemaPanics n ∧ schemaReport n = some faultyError :=
  (C80_definition_error_partial _ _).1 (by decide +kernel)

/-- The message: the errors of a table stand below it, all indented by the same two spaces. -/
example : faultyError.text = "has errors: schema shop\n  has errors: table orders\n  name required: column\n  \
    has errors: constraint pk\n  invalid type attribute: unique expected ...string\n  \
    invalid type attribute: deferrable expected boolean\n  attribute required: constraint pk unique\n  \
    has errors: constraint fk\n  invalid table reference: a.b.c\n  \
    attribute required: constraint fk references\n  unexpected node: view x\n  \
    has errors: view v\n  unexpected node: language\n  attribute required: view v as\n  \
    unexpected node: column id" := by decide +kernel

/-- An error deep inside. -/
example : Within (.invalidTypeAttribute "deferrable" "boolean") faultyError :=
  .inside (.head _) (.inside (.tail _ (.head _)) (.inside (.tail _ (.head _)) .self))

/-- A key that begins with no word of the language, below another that is good. -/
example : loadDocE (.map [some "schema s"] [.map [some "view v", some "tabel t"] [.null, .null]])
    = .error (.yaml (.invalidKey "tabel t")) := by decide +kernel

/-- A number too large, in a list. -/
example : loadDocE (.map [some "schema s"] [.map [some "index i"] [.map [some "on t"]
    [.seq [.str "a", .num (.integer 9223372036854775808)]]]])
    = .error (.yaml (.invalidNumber 9223372036854775808)) := by decide +kernel

/-- The second file of a directory. -/
example : loadDirE [.file "a.yaml" (.map [some "schema s"] [.null]), .dir "d" [.file "b.yaml" faulty]]
    = .error (.definition faultyError) := by decide +kernel

/-- C80 fails for what stands under an index: nothing is said about it, and the index is made from the rest. -/
theorem C80_index_false : ∃ d, loadDocE (.map [some "schema s"] [.map [some "index i"]
    [.map [some "on t", some "unique", some "check"] [.str "a", .str "yes", .str "a > 0"]]]) = .ok d ∧
    d.relationAt "s" "i" = some (.index ⟨"s", "i", "t", false, "btree", ["a"]⟩) := by
  exact exists_ok (by decide +kernel)

/-- C80 fails for the file: two directories with the fault in files of different names give the same error. -/
theorem C80_file_name_false : ∃ e, loadDirE [.file "a.yaml" faulty, .file "b.yaml" (.map [] [])] = .error e ∧
    loadDirE [.file "a.yaml" (.map [] []), .file "b.yaml" faulty] = .error e :=
  ⟨.definition faultyError, by decide +kernel, by decide +kernel⟩

end Def
end Podo
